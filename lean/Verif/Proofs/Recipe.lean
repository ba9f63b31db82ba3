import Verif.Spec.Recipe
import Verif.Props.Update
import Verif.Proofs.Recover

/-!
# The same steps give the same object
-/

namespace Ocfl

open Spec FS Prog Ocfl.Inv

/-! ## The change of the digest algorithm depends on the content only -/

theorem newDigest_congr {E : Env} {s s' : FS} {base base' : Path} {alg : Str} {files : List Str}
    (h : ∀ f ∈ files, SameFile s (FS.resolve base f) s' (FS.resolve base' f)) :
    newDigest E s base alg files = newDigest E s' base' alg files := by
  unfold newDigest
  cases files with
  | nil => rfl
  | cons f rest =>
    dsimp only
    rw [digestAt_congr (h f (by simp))]
    split
    · rfl
    · rename_i d hd
      have h' : ∀ g ∈ rest, SameFile s (FS.resolve base g) s' (FS.resolve base' g) := fun g hg => h g (by simp [hg])
      clear hd h
      induction rest with
      | nil => rfl
      | cons g gs ih =>
        unfold newDigest.check
        rw [digestAt_congr (h' g (by simp)), ih (fun g hg => h' g (by simp [hg]))]

theorem rehash_congr {E : Env} {s s' : FS} {base base' : Path} {alg : Str} : ∀ {m : DigestMap} {o2n : Dict Str Str} {m' : DigestMap},
    (∀ f ∈ listed m, SameFile s (FS.resolve base f) s' (FS.resolve base' f)) →
    rehash E s base alg m o2n m' = rehash E s' base' alg m o2n m'
  | [], _, _, _ => rfl
  | (old, files) :: rest, o2n, m', h => by
    unfold rehash
    have h1 : ∀ f ∈ files, SameFile s (FS.resolve base f) s' (FS.resolve base' f) := by
      intro f hf
      exact h f (by simp [listed, hf])
    have h2 : ∀ f ∈ listed rest, SameFile s (FS.resolve base f) s' (FS.resolve base' f) := by
      intro f hf
      obtain ⟨d, hd⟩ := mem_listed.mp hf
      exact h f (mem_listed.mpr ⟨d, Lists_cons.mpr (Or.inr hd)⟩)
    rw [newDigest_congr h1]
    split
    · rfl
    · exact rehash_congr h2

theorem changeDigest_congr {E : Env} {s s' : FS} {base base' : Path} {old new : Str} {inv : Inv}
    (h : ∀ f ∈ listed inv.manifestD, SameFile s (FS.resolve base f) s' (FS.resolve base' f)) :
    changeDigest E s base old new inv = changeDigest E s' base' old new inv := by
  unfold changeDigest
  rw [rehash_congr h]

/-! ## What is written depends on the new version and the files only -/

/-- The directories have the same files. -/
def EqualFiles (s : FS) (base : Path) (s' : FS) (base' : Path) : Prop := ∀ r b, FileBelow s base r b ↔ FileBelow s' base' r b

theorem inventoryFile_below {base : Path} {alg : Str} {q : Path} :
    InventoryFile base alg (base ++ q) ↔ q = [inventoryFilename] ∨ q = [sidecarName alg] := by
  unfold InventoryFile
  rw [List.append_cancel_left_eq, List.append_cancel_left_eq]

theorem inventoryFile_deeper {base : Path} {head alg : Str} {q : Path} :
    InventoryFile (base ++ [head]) alg (base ++ q) ↔ q = [head, inventoryFilename] ∨ q = [head, sidecarName alg] := by
  unfold InventoryFile
  rw [List.append_assoc, List.append_assoc, List.append_cancel_left_eq, List.append_cancel_left_eq]
  rfl

/-- The files that were copied, in the two objects. -/
theorem copied_same {s s' t t' : FS} {base base' src src' : Path} {head : Str} {files : Dict Str Str} (hw : s.WF) (hh : SafeName head)
    (hq : QueueReady head files) (hsrc : EqualFiles s src s' src')
    (hnames : ∀ e ∈ files, ∃ r b, FileBelow s src r b ∧ e.1 = joinWith '/' r)
    (h : ∀ e ∈ files, ∃ b, look s (FS.resolve src e.1) = some (.file b) ∧ look t (FS.resolve base e.2) = some (.file b))
    (h' : ∀ e ∈ files, ∃ b, look s' (FS.resolve src' e.1) = some (.file b) ∧ look t' (FS.resolve base' e.2) = some (.file b))
    {q : Path} {b : Bytes} {e : Str × Str} (he : e ∈ files) (hqe : base ++ q = FS.resolve base e.2)
    (hl : look t (base ++ q) = some (.file b)) : look t' (base' ++ q) = some (.file b) := by
  obtain ⟨r, b0, hf, hr⟩ := hnames e he
  have hs := ((treeOK_below hw src).names r b0 hf).2
  obtain ⟨b1, h1, h2⟩ := h e he
  obtain ⟨b2, h3, h4⟩ := h' e he
  rw [hr, resolve_join _ hs, hf.2] at h1
  cases h1
  rw [hr, resolve_join _ hs, ((hsrc r b0).mp hf).2] at h3
  cases h3
  rw [← hqe, hl] at h2
  cases h2
  obtain ⟨cd, ws, _, j1, j2, j3, _⟩ := hq.dst hh base he
  rw [j3, List.append_cancel_left_eq] at hqe
  subst hqe
  rw [j2, show pathOf (head :: cd :: ws) = joinWith '/' (head :: cd :: ws) from (joinWith_eq_pathOf _).symm, resolve_join _ j1] at h4
  exact h4

theorem Created.half {E : Env} {o : Obj} {base base' src src' : Path} {head : Str} {nv : NV} {s s' t t' : FS} (hw : s.WF) (hh : SafeName head)
    (hq : QueueReady head nv.filesToCopy) (hsrc : EqualFiles s src s' src')
    (hnames : ∀ e ∈ nv.filesToCopy, ∃ r b, FileBelow s src r b ∧ e.1 = joinWith '/' r) (hvac : Vacant s base)
    (h : Created E o base src head nv s t) (h' : Created E o base' src' head nv s' t') {q : Path} {b : Bytes} (hf : FileBelow t base q b) :
    FileBelow t' base' q b := by
  obtain ⟨hne, hl⟩ := hf
  refine ⟨hne, ?_⟩
  obtain ⟨d, hd, hd1⟩ := h.digest
  obtain ⟨d', hd', hd1'⟩ := h'.digest
  rw [hd] at hd'
  cases hd'
  by_cases c1 : q = [head]
  · subst c1
    rw [h.headDir] at hl; cases hl
  by_cases c2 : InventoryFile base o.digestAlgorithm (base ++ q)
  · rcases inventoryFile_below.mp c2 with rfl | rfl
    · rw [h.inventory _ (Or.inl rfl)] at hl; rw [h'.inventory _ (Or.inl rfl), hl]
    · rw [hd1 _ (Or.inl rfl)] at hl; rw [hd1' _ (Or.inl rfl), hl]
  by_cases c3 : InventoryFile (base ++ [head]) o.digestAlgorithm (base ++ q)
  · have e : ∀ (p : Path) (x : Str), p ++ [head, x] = p ++ [head] ++ [x] := by simp
    rcases inventoryFile_deeper.mp c3 with rfl | rfl
    · rw [e, h.inventory _ (Or.inr rfl)] at hl; rw [e, h'.inventory _ (Or.inr rfl), hl]
    · rw [e, hd1 _ (Or.inr rfl)] at hl; rw [e, hd1' _ (Or.inr rfl), hl]
  by_cases c4 : q = [declarationName o.specVersion]
  · subst c4
    rw [h.declaration] at hl; rw [h'.declaration, hl]
  by_cases c5 : ∃ e ∈ nv.filesToCopy, base ++ q <+: FS.resolve base e.2
  · obtain ⟨e, he, hp⟩ := c5
    by_cases hqe : base ++ q = FS.resolve base e.2
    · exact copied_same hw hh hq hsrc hnames h.files h'.files he hqe hl
    · rw [h.dirs e he _ (prefix_dropLast hp hqe)] at hl; cases hl
  · rw [h.rest _ (by intro he; exact hne (List.append_right_eq_self.mp he)) (by rw [Ne, List.append_cancel_left_eq]; exact c1) c2 c3
      (by rw [Ne, List.append_cancel_left_eq]; exact c4) (by simpa using c5), hvac.2 q hne] at hl
    cases hl

theorem WroteVersion.half {E : Env} {alg : Str} {base base' src src' : Path} {head : Str} {nv : NV} {s s' t t' : FS} (hw : s.WF) (hh : SafeName head)
    (hq : QueueReady head nv.filesToCopy) (hsrc : EqualFiles s src s' src')
    (hnames : ∀ e ∈ nv.filesToCopy, ∃ r b, FileBelow s src r b ∧ e.1 = joinWith '/' r) (hsame : EqualFiles s base s' base')
    (h : WroteVersion E alg base src head nv s t) (h' : WroteVersion E alg base' src' head nv s' t') {q : Path} {b : Bytes}
    (hf : FileBelow t base q b) : FileBelow t' base' q b := by
  obtain ⟨hne, hl⟩ := hf
  refine ⟨hne, ?_⟩
  obtain ⟨d, hd, hd1⟩ := h.digest
  obtain ⟨d', hd', hd1'⟩ := h'.digest
  rw [hd] at hd'
  cases hd'
  by_cases c2 : InventoryFile base alg (base ++ q)
  · rcases inventoryFile_below.mp c2 with rfl | rfl
    · rw [h.inventory _ (Or.inl rfl)] at hl; rw [h'.inventory _ (Or.inl rfl), hl]
    · rw [hd1 _ (Or.inl rfl)] at hl; rw [hd1' _ (Or.inl rfl), hl]
  by_cases c1 : [head] <+: q
  · by_cases c1' : q = [head]
    · subst c1'
      rw [h.headDir] at hl; cases hl
    by_cases c3 : InventoryFile (base ++ [head]) alg (base ++ q)
    · have e : ∀ (p : Path) (x : Str), p ++ [head, x] = p ++ [head] ++ [x] := by simp
      rcases inventoryFile_deeper.mp c3 with rfl | rfl
      · rw [e, h.inventory _ (Or.inr rfl)] at hl; rw [e, h'.inventory _ (Or.inr rfl), hl]
      · rw [e, hd1 _ (Or.inr rfl)] at hl; rw [e, hd1' _ (Or.inr rfl), hl]
    by_cases c5 : ∃ e ∈ nv.filesToCopy, base ++ q <+: FS.resolve base e.2
    · obtain ⟨e, he, hp⟩ := c5
      by_cases hqe : base ++ q = FS.resolve base e.2
      · exact copied_same hw hh hq hsrc hnames h.files h'.files he hqe hl
      · rw [h.dirs e he _ (prefix_dropLast hp hqe)] at hl; cases hl
    · rw [h.new _ ((List.prefix_append_right_inj _).mpr c1) (by rw [Ne, List.append_cancel_left_eq]; exact c1') c3 (by simpa using c5)] at hl
      cases hl
  by_cases c6 : removedSidecar base nv (base ++ q)
  · rw [h.removed _ c6 (by intro he; exact c2 (Or.inr he))] at hl; cases hl
  · rw [h.rest _ c2 c6 (by rw [List.prefix_append_right_inj]; exact c1)] at hl
    rw [h'.rest _ (by rw [inventoryFile_below]; rw [inventoryFile_below] at c2; exact c2) ?_ (by rw [List.prefix_append_right_inj]; exact c1)]
    · exact ((hsame q b).mp ⟨hne, hl⟩).2
    · rintro ⟨old, o1, o2, o3⟩
      rw [List.append_cancel_left_eq] at o3
      exact c6 ⟨old, o1, o2, by rw [o3]⟩

/-! ## The steps -/

/-- Two creations. -/
theorem create_same {E : Env} (hhash : HashLib E.raw) (hword : WordClass E.isWord) (hcwd : ∀ w ∈ E.cwd, SafeName w) {o : Obj}
    (ho : GoodSettings o) {srcdir objdir srcdir' objdir' : Str} {metadata : Option VBlock} (hmeta : GoodMeta metadata) {s s' t t' : FS} (hw : s.WF)
    (hw' : s'.WF) (hvac : Vacant s (absComps E.cwd objdir)) (hvac' : Vacant s' (absComps E.cwd objdir'))
    (hsame : EqualFiles s (absComps E.cwd srcdir) s' (absComps E.cwd srcdir')) {inv inv' : Inv}
    (hr : run (create E o srcdir metadata (some objdir)) s = (t, .ok inv))
    (hr' : run (create E o srcdir' metadata (some objdir')) s' = (t', .ok inv')) :
    EqualFiles t (absComps E.cwd objdir) t' (absComps E.cwd objdir') := by
  have main : ∀ {srcdir objdir : Str} {s t : FS} {inv : Inv}, s.WF → Vacant s (absComps E.cwd objdir) →
      run (create E o srcdir metadata (some objdir)) s = (t, .ok inv) →
      ∃ id nv0 nv, o.id = some id ∧ NV.firstVersion id o.specVersion (some o.digestAlgorithm) (some o.contentDirectory) metadata o.dedupe
        (o.fixity.getD []) o.norm = .ok nv0 ∧ look s (absComps E.cwd srcdir) = some .dir ∧
        addFromSrcdir E s (absComps E.cwd srcdir) nv0 = .ok nv ∧ QueueReady (styleName none 1) nv.filesToCopy ∧
        (∀ e ∈ nv.filesToCopy, ∃ r b, FileBelow s (absComps E.cwd srcdir) r b ∧ e.1 = joinWith '/' r) ∧
        Created E o (absComps E.cwd objdir) (absComps E.cwd srcdir) (styleName none 1) nv s t := by
    intro srcdir objdir s t inv hw hvac hr
    obtain ⟨src, nv, hp, _, _, hrun⟩ := create_inv hr
    obtain ⟨nv0, srcs, hff⟩ := prepareFirst_ok hw ho hmeta hp
    have hrun := hrun objdir rfl
    have hcd : nv0.inv.contentDirectoryToUse ≠ [] := by rw [hff.contentDirectory]; exact ho.contentDirectory.1
    have hq : QueueReady (styleName none 1) nv.filesToCopy := hff.ground.queueReady hff.added hff.source.names (hexNames_srcEnv hhash s src) hcd
    have hsource := hff.source
    have hnames : ∀ e ∈ nv.filesToCopy, ∃ r b, FileBelow s src r b ∧ e.1 = joinWith '/' r :=
      fun e he => (hsource.files e.1).mp (hff.added.queueDone e he)
    have hC := writeFirst_ok_inv hword hcwd (o := o) ho.specVersion (src := src) (nv := nv) (objdir := objdir) hw hq hvac.1 (by
        intro e he hpre
        obtain ⟨r, b, hf, hj⟩ := hnames e he
        rw [hj, resolve_join src ((treeOK_below hw src).names r b hf).2] at hpre
        obtain ⟨t, ht⟩ := hpre
        have hl := hf.2
        rw [← ht] at hl
        by_cases ht0 : t = []
        · subst ht0
          rw [List.append_nil] at hl
          rcases hvac.1 with h | h <;> (rw [h] at hl; cases hl)
        · rw [hvac.2 t ht0] at hl; cases hl) hrun
    unfold prepareFirst at hp
    split at hp
    · cases hp
    rename_i id hid
    split at hp
    · cases hp
    rename_i src' hsrc
    obtain ⟨rfl, hdir⟩ := fswOpen_ok hsrc
    split at hp
    · cases hp
    rename_i nv1 hfirst
    split at hp
    · cases hp
    rename_i nv' hadd
    cases hp
    exact ⟨id, nv1, nv, hid, hfirst, hdir, hadd, hq, hnames, hC⟩
  obtain ⟨id, nv0, nv, h1, h2, h3, h4, h5, h6, h7⟩ := main hw hvac hr
  obtain ⟨id', nv0', nv', h1', h2', h3', h4', h5', h6', h7'⟩ := main hw' hvac' hr'
  rw [h1] at h1'
  cases h1'
  rw [h2] at h2'
  cases h2'
  rw [← addFromSrcdir_congr hw hw' h3 h3' hsame, h4] at h4'
  cases h4'
  intro q b
  exact ⟨Created.half hw (styleName_safe _ _) h5 hsame h6 hvac h7 h7',
    Created.half hw' (styleName_safe _ _) h5' (fun r b => (hsame r b).symm) h6' hvac' h7' h7⟩

/-- Two versions added to two copies of an object. -/
theorem update_same {E : Env} (hlib : E.lib.Lawful) (hhash : HashLib E.raw) {o : Obj}
    (halg : o.digestAlgorithm = c!"sha512" ∨ o.digestAlgorithm = c!"sha256") {srcdir objdir srcdir' objdir' : Str} {metadata : Option VBlock}
    (hmeta : GoodMeta metadata) {abort abort' : Bool} {s s' t t' : FS} {dv dv' : Str} {trees trees' : List Tree} {recs recs' : List Rec}
    (h : Sound E s (absComps E.cwd objdir) dv trees recs) (h' : Sound E s' (absComps E.cwd objdir') dv' trees' recs')
    (hno : NoCollision E.raw (InTrees trees)) (hno' : NoCollision E.raw (InTrees trees')) (hlim : trees.length + 1 ≤ 99999)
    (hlim' : trees'.length + 1 ≤ 99999)
    (hobj : EqualFiles s (absComps E.cwd objdir) s' (absComps E.cwd objdir'))
    (hsame : EqualFiles s (absComps E.cwd srcdir) s' (absComps E.cwd srcdir')) {inv inv' : Inv}
    (hr : run (addVersionWithContent E o objdir (some srcdir) metadata abort) s = (t, .ok (some inv)))
    (hr' : run (addVersionWithContent E o objdir' (some srcdir') metadata abort') s' = (t', .ok (some inv'))) :
    EqualFiles t (absComps E.cwd objdir) t' (absComps E.cwd objdir') := by
  have main : ∀ {srcdir objdir : Str} {abort : Bool} {s t : FS} {dv : Str} {trees : List Tree} {recs : List Rec} {inv : Inv},
      Sound E s (absComps E.cwd objdir) dv trees recs → NoCollision E.raw (InTrees trees) → trees.length + 1 ≤ 99999 →
      run (addVersionWithContent E o objdir (some srcdir) metadata abort) s = (t, .ok (some inv)) →
      ∃ inv0 alg inv1 nv0 nv n, parseInventory E (absComps E.cwd objdir) s = .ok inv0 ∧ inv0.digestAlgorithm = some alg ∧
        look s (absComps E.cwd objdir ++ [inventoryFilename]) ≠ none ∧
        (∀ c ∈ listed inv0.manifestD, ∃ ws b, (∀ w ∈ ws, SafeName w) ∧ c = joinWith '/' ws ∧ FileBelow s (absComps E.cwd objdir) ws b) ∧
        changeDigest E s (absComps E.cwd objdir) alg o.digestAlgorithm
          (changeFixity { inv0 with digestAlgorithm := some o.digestAlgorithm } alg o.digestAlgorithm o.fixity) = .ok inv1 ∧
        NV.nextVersion inv1 c!"1.1" metadata o.norm o.forwardDelta o.dedupe false (some alg) = .ok nv0 ∧
        look s (absComps E.cwd srcdir) = some .dir ∧
        addFromSrcdir E s (absComps E.cwd srcdir) nv0 = .ok nv ∧ nv.inv.head = some (styleName none n) ∧
        QueueReady (styleName none n) nv.filesToCopy ∧
        (∀ e ∈ nv.filesToCopy, ∃ r b, FileBelow s (absComps E.cwd srcdir) r b ∧ e.1 = joinWith '/' r) ∧
        WroteVersion E o.digestAlgorithm (absComps E.cwd objdir) (absComps E.cwd srcdir) (styleName none n) nv s t := by
    intro srcdir objdir abort s t dv trees recs inv h hno hlim hr
    have hw := h.wf
    obtain ⟨rl, hlast, hdl, hstored, _, _⟩ := h.last
    unfold addVersionWithContent at hr
    obtain ⟨s0, r0, h0, hr⟩ := run_bind_inv hr
    rw [run_look] at h0
    obtain ⟨hs0, hprep⟩ := Prod.mk.inj h0
    clear h0
    subst hs0
    cases r0 with
    | none => cases hr
    | some r0 =>
    obtain ⟨base', src, nv⟩ := r0
    obtain ⟨sd, hsd, nv0, inv0, alg, m, vs, style, n, inv1, hst, hadd⟩ := prepareUpdate_started hlib hprep
    cases hsd
    have hbb := hst.base_eq
    subst hbb
    have hinv0 : inv0 = rl.inv.sorted := by
      have := hst.parse
      rw [parse_written hlib hdl.parsed hstored.1] at this
      cases this
      rfl
    subst hinv0
    have hds := hdl.sorted
    have ealg : alg = rl.alg := by
      have := hst.parsed.good.algorithm
      rw [hds.parsed.good.algorithm] at this
      cases this
      rfl
    subst ealg
    obtain ⟨m1, vs1, hd1, hlist1, hkeys1, hcd1, hty1, hid1⟩ := hds.recode hhash hno halg hst.change
    have g := ground_next hd1.parsed (sv := c!"1.1") (by decide) hmeta hlim hst.next
    have hsrceq := hst.src_eq
    obtain ⟨srcs, hsource, hadded⟩ := addFromSrcdir_ok hw hst.src_dir g.building ⟨_, g.manifest⟩ g.queue hadd
    obtain ⟨_, type, htype, hnv0⟩ := nextVersion_ok hd1.parsed.numbered hst.next
    have hcdu0 : nv0.inv.contentDirectoryToUse = inv1.contentDirectoryToUse := by rw [hnv0]; rfl
    have hcd : nv0.inv.contentDirectoryToUse ≠ [] := by rw [hcdu0]; exact hd1.contentDirectory
    have hold0 : nv0.oldDigestAlgorithm = some rl.alg := by rw [hnv0]
    have hx := hexNames_srcEnv hhash s src
    have hq : QueueReady (styleName none (trees.length + 1)) nv.filesToCopy := g.queueReady hadded hsource.names hx hcd
    have hh : SafeName (styleName none (trees.length + 1)) := styleName_safe _ _
    have hv : (styleName none (trees.length + 1)).head? = some 'v' := styleName_head _ _
    have hhead : nv.inv.head = some (styleName none (trees.length + 1)) := by rw [hadded.head.1]; exact g.head
    have holdn : nv.oldDigestAlgorithm = some rl.alg := by rw [hadded.old]; exact hold0
    obtain ⟨s2, inv2, hwr, hr⟩ := run_bind_inv hr
    have hr : (s2, Except.ok (some inv2)) = (t, (.ok (some inv) : Py (Option Inv))) := hr
    cases hr
    have hnames : ∀ e ∈ nv.filesToCopy, ∃ r b, FileBelow s src r b ∧ e.1 = joinWith '/' r :=
      fun e he => (hsource.files e.1).mp (hadded.queueDone e he)
    have hslash : '/' ∉ rl.alg := by
      rcases hdl.parsed.good.algName with h | h <;> (rw [h]; decide)
    obtain ⟨rfl, W⟩ := writeNewVersion_ok_inv hw h.isDir hhead hh hv hq (by
        intro old ho
        rw [holdn] at ho
        cases ho
        exact hslash) (by
        intro e he hn
        obtain ⟨r, b, hf, hj⟩ := hnames e he
        rw [hj, resolve_join src ((treeOK_below hw src).names r b hf).2, hf.2] at hn
        cases hn) hwr
    subst hsrceq
    refine ⟨_, rl.alg, inv1, nv0, nv, trees.length + 1, hst.parse, hds.parsed.good.algorithm, by rw [hstored.1]; simp, ?_, hst.change, hst.next, hst.src_dir,
      hadd, hhead, hq, hnames, W⟩
    intro c hc
    obtain ⟨d, hl⟩ := mem_listed.mp hc
    have hm : rl.inv.sorted.manifestD = rl.inv.sorted.manifest.getD [] := rfl
    rw [hds.parsed.good.manifest] at hm
    rw [hm] at hl
    obtain ⟨v, ws, b, _, _, k3, k4, k5, k6, _⟩ := hds.segs hl
    rw [k5] at k6
    exact ⟨_, b, k3, by rw [k4]; exact (joinWith_eq_pathOf _).symm, by simp, k6⟩
  obtain ⟨inv0, alg, inv1, nv0, nv, n, h1, h2, h3, h4, h5, h6, h7, h8, h9, h10, h11, h12⟩ := main h hno hlim hr
  obtain ⟨inv0', alg', inv1', nv0', nv', n', h1', h2', h3', h4', h5', h6', h7', h8', h9', h10', h11', h12'⟩ := main h' hno' hlim' hr'
  have e0 : inv0 = inv0' := by
    obtain ⟨rl, _, _, hstored, _, _⟩ := h.last
    have hb := ((hobj [inventoryFilename] _).mp ⟨by simp, hstored.1⟩).2
    have : parseInventory E (absComps E.cwd objdir) s = parseInventory E (absComps E.cwd objdir') s' := by
      unfold parseInventory readText FS.read
      have e : ∀ base, FS.resolve base inventoryFilename = base ++ [inventoryFilename] := by
        intro base
        exact resolve_join (ws := [inventoryFilename]) base (by intro w hw; rw [List.mem_singleton.mp hw]; exact ⟨by decide, by decide, by decide, by decide⟩)
      rw [e, e, hstored.1, hb]
    rw [this, h1'] at h1
    cases h1
    rfl
  subst e0
  rw [h2] at h2'
  cases h2'
  have hchange : ∀ f ∈ listed (changeFixity { inv0 with digestAlgorithm := some o.digestAlgorithm } alg o.digestAlgorithm o.fixity).manifestD,
      SameFile s (FS.resolve (absComps E.cwd objdir) f) s' (FS.resolve (absComps E.cwd objdir') f) := by
    intro f hf
    rw [changeFixity_eq] at hf
    obtain ⟨ws, b, k1, rfl, k3⟩ := h4 f hf
    rw [resolve_join _ k1, resolve_join _ k1]
    exact ⟨b, k3.2, ((hobj ws b).mp k3).2⟩
  rw [← changeDigest_congr hchange, h5] at h5'
  cases h5'
  rw [h6] at h6'
  cases h6'
  rw [← addFromSrcdir_congr h.wf h'.wf h7 h7' hsame, h8] at h8'
  cases h8'
  rw [h9] at h9'
  have hn := Option.some.inj h9'
  rw [← hn] at h10' h12'
  intro q b
  exact ⟨WroteVersion.half h.wf (styleName_safe _ _) h10 hsame h11 hobj h12 h12',
    WroteVersion.half h'.wf (styleName_safe _ _) h10' (fun r b => (hsame r b).symm) h11' (fun r b => (hobj r b).symm) h12' h12⟩

/-! ## Recipes -/

theorem treesOf_append (l l' : List Step) : treesOf (l ++ l') = treesOf l ++ treesOf l' := by
  unfold treesOf
  rw [List.map_append, List.flatten_append]

theorem Spec.Recipe.history {E : Env} {base : Path} {steps : List Step} {s : FS} (h : Recipe E base steps s) :
    History E base (treesOf steps) s := by
  induction h with
  | create wf settings block base_eq vacant nonempty names done => exact .create wf settings block base_eq vacant nonempty names done
  | @build base o srcdir objdir metadata s s' inv n wf settings sources blocks base_eq vacant apart nonempty names done =>
    have := History.build wf settings sources blocks base_eq vacant apart nonempty names done
    simpa [treesOf, Step.trees] using this
  | elsewhere before wf same ih => exact .elsewhere ih wf same
  | copied before wf same ih => exact .copied ih wf same
  | update before algorithm block base_eq names done ih =>
    rw [treesOf_append]
    exact .update ih algorithm block base_eq names done

theorem Spec.Recipe.ne_nil {E : Env} {base : Path} {steps : List Step} {s : FS} (h : Recipe E base steps s) : steps ≠ [] := by
  induction h with
  | create => simp
  | build => simp
  | elsewhere _ _ _ ih => exact ih
  | copied _ _ _ ih => exact ih
  | update => simp

end Ocfl
