import Verif.Proofs.Describes
import Verif.Proofs.CreateDone
import Verif.Proofs.PlainCalls
import Verif.Props.Update

/-!
# Objects made by the library hold what they were made from
-/

namespace Ocfl

open Spec FS Prog Ocfl.Inv

/-- The content files stay. -/
theorem Describes.frame {E : Env} {s s' : FS} {base : Path} {trees : List Tree} {inv : Inv} {alg : Str} {m : DigestMap}
    {vs : Dict Str VBlock} (h : Describes E s base trees inv alg m vs)
    (hf : ∀ v ∈ Dict.keys vs, ∀ r, r ≠ [] → look s' (base ++ v :: r) = look s (base ++ v :: r)) :
    Describes E s' base trees inv alg m vs := by
  refine ⟨h.parsed, h.contentDirectory, ?_, h.states, ?_, h.ok⟩
  · intro d c hl
    obtain ⟨v, ws, b, h1, h2, h3, h4, h5, h6⟩ := h.content d c hl
    exact ⟨v, ws, b, h1, h2, h3, h4, by rw [hf v h1 _ (by simp)]; exact h5, h6⟩
  · intro fx a fm hfx hm d c hl
    obtain ⟨segs, b, h1, h2, h3, h4, h5⟩ := h.fixity fx a fm hfx hm d c hl
    refine ⟨segs, b, h1, h2, h3, ?_, h5⟩
    obtain ⟨_, hq⟩ := h.parsed.good.fixity fx hfx
    obtain ⟨d', hd'⟩ := mem_listed.mp ((hq a fm hm).2.2.2.2 c (mem_listed.mpr ⟨d, hl⟩))
    obtain ⟨v, ws, _, k1, _, k3, k4, _⟩ := h.segs hd'
    have := pathOf_inj h1 (by simp) (fun w hw => (h2 w hw).2.2.2) (fun w hw => (k3 w hw).2.2.2) (h3.symm.trans k4)
    rw [this, hf v k1 _ (by simp), ← this]
    exact h4

/-- The queue of files is ready for copying. -/
theorem Ground.queueReady {nv0 nv : NV} {alg : Str} {m : DigestMap} {vs : Dict Str VBlock} {style : Option Nat} {n : Nat} {b : VBlock}
    (h : Ground nv0 alg m vs style n b) {EN : NVEnv} {srcs : List Str}
    (ha : NV.Added EN nv0 (styleName style (n + 1)) srcs nv) (hs : NV.SourceNames srcs) (hx : HexNames EN.md5hex)
    (hcd : nv0.inv.contentDirectoryToUse ≠ []) : QueueReady (styleName style (n + 1)) nv.filesToCopy := by
  obtain ⟨f, hf, _⟩ := h.queueSegs ha hs hx hcd
  refine ⟨?_, ?_, ?_⟩
  · intro e he
    obtain ⟨ws, h1, h2, h3⟩ := hs.names e.1 (ha.queueDone e he)
    exact ⟨ws, h1, h2, by rw [h3, joinWith_eq_pathOf]⟩
  · intro e he
    obtain ⟨h1, h2, h3, _⟩ := hf e he
    refine ⟨nv0.inv.contentDirectoryToUse, f e.2, h1, ?_, h3⟩
    intro w hw
    rcases List.mem_cons.mp hw with rfl | hw
    · exact ⟨hcd, h.contentDirName.2.1, h.contentDirName.2.2, h.contentDirName.1⟩
    · exact h2 w hw
  · exact List.Nodup.map_on (fun x hx y hy => ha.queueInj x hx y hy) (List.Nodup.of_map _ ha.queueKeys)

/-- A written inventory with what it consists of. -/
structure Rec where
  inv : Inv
  alg : Str
  m : DigestMap
  vs : Dict Str VBlock

/-- The inventory and its sidecar are in the directory. -/
def Stored (E : Env) (s : FS) (dir : Path) (r : Rec) : Prop :=
  look s (dir ++ [inventoryFilename]) = some (.file (utf8 (inventoryText E r.inv))) ∧
    ∃ d, fileDigest E.raw r.alg (utf8 (inventoryText E r.inv)) = some d ∧
      look s (dir ++ [sidecarName r.alg]) = some (.file (sidecarLine d))

/-- A version directory with the inventory of that time. -/
structure VersionSound (E : Env) (s : FS) (base : Path) (dv : Str) (trees : List Tree) (v : Str) (r : Rec) : Prop where
  describes : Describes E s base trees r.inv r.alg r.m r.vs
  isDir : look s (base ++ [v]) = some .dir
  stored : Stored E s (base ++ [v]) r
  type : r.inv.type = some (typeUri (if trees.length = 1 then dv else c!"1.1"))
  only : ∀ q, q ≠ [] → look s (base ++ v :: q) ≠ none → q = [inventoryFilename] ∨ q = [sidecarName r.alg] ∨
    ∃ ws, q <+: ws ∧ ws ≠ [] ∧ (∀ w ∈ v :: ws, SafeName w) ∧ pathOf (v :: ws) ∈ listed r.m

/-- An object that holds the trees as its versions, each with the inventory of that time. -/
structure Sound (E : Env) (s : FS) (base : Path) (dv : Str) (trees : List Tree) (recs : List Rec) : Prop where
  wf : s.WF
  isDir : look s base = some .dir
  length : recs.length = trees.length
  pos : recs ≠ []
  versions : ∀ k r, recs[k]? = some r → VersionSound E s base dv (trees.take (k + 1)) (styleName none (k + 1)) r
  mono : recs.Pairwise (fun a b => ∀ c ∈ listed a.m, c ∈ listed b.m)
  same : ∀ a ∈ recs, ∀ b ∈ recs, a.inv.id = b.inv.id ∧ a.inv.contentDirectory = b.inv.contentDirectory
  root : ∀ r, recs.getLast? = some r → Stored E s base r
  spec : dv ∈ supported
  declaration : look s (base ++ [declarationName dv]) = some (.file (utf8 (c!"ocfl_object_" ++ dv ++ c!"\n")))
  only : ∀ w q, look s (base ++ w :: q) ≠ none → (∃ k < trees.length, w = styleName none (k + 1)) ∨
    (q = [] ∧ (w = inventoryFilename ∨ w = declarationName dv ∨ ∃ r, recs.getLast? = some r ∧ w = sidecarName r.alg))

theorem VersionSound.frame {E : Env} {s s' : FS} {base : Path} {dv : Str} {trees : List Tree} {v : Str} {r : Rec}
    (h : VersionSound E s base dv trees v r)
    (hf : ∀ w q, (w = v ∨ w ∈ Dict.keys r.vs) → look s' (base ++ w :: q) = look s (base ++ w :: q)) :
    VersionSound E s' base dv trees v r := by
  refine ⟨h.describes.frame (fun w hw q _ => hf w q (Or.inr hw)), by rw [hf v [] (Or.inl rfl)]; exact h.isDir, ?_, h.type, ?_⟩
  · obtain ⟨h1, d, h2, h3⟩ := h.stored
    refine ⟨?_, d, h2, ?_⟩
    · rw [List.append_assoc] at h1 ⊢
      rw [show base ++ ([v] ++ [inventoryFilename]) = base ++ v :: [inventoryFilename] from rfl, hf v _ (Or.inl rfl)]
      exact h1
    · rw [List.append_assoc] at h3 ⊢
      rw [show base ++ ([v] ++ [sidecarName r.alg]) = base ++ v :: [sidecarName r.alg] from rfl, hf v _ (Or.inl rfl)]
      exact h3
  · intro q hq hl
    rw [hf v q (Or.inl rfl)] at hl
    exact h.only q hq hl

/-- Changes outside the object do not matter. -/
theorem Sound.outside {E : Env} {s s' : FS} {base : Path} {dv : Str} {trees : List Tree} {recs : List Rec}
    (h : Sound E s base dv trees recs) (hw : s'.WF) (hf : ∀ q, base <+: q → look s' q = look s q) :
    Sound E s' base dv trees recs := by
  have hf' : ∀ q, look s' (base ++ q) = look s (base ++ q) := fun q => hf _ (List.prefix_append _ _)
  refine ⟨hw, by rw [hf base List.prefix_rfl]; exact h.isDir, h.length, h.pos, ?_, h.mono, h.same, ?_, h.spec,
    by rw [hf']; exact h.declaration, ?_⟩
  · intro k r hk
    exact (h.versions k r hk).frame (fun w q _ => hf' _)
  · intro r hr
    obtain ⟨h1, d, h2, h3⟩ := h.root r hr
    exact ⟨by rw [hf']; exact h1, d, h2, by rw [hf']; exact h3⟩
  · intro w q hl
    rw [hf'] at hl
    exact h.only w q hl

theorem Spec.SameFiles.ne_none {s s' : FS} {p p' : Path} (h : SameFiles s p s' p') {q : Path} (hn : look s' (p' ++ q) ≠ none) :
    look s (p ++ q) ≠ none := by
  cases hl : look s' (p' ++ q) with
  | none => exact absurd hl hn
  | some x => cases x with
    | dir => rw [h.dirs q hl]; simp
    | file b => rw [(h.files q b).mp hl]; simp

theorem Describes.copied {E : Env} {s s' : FS} {base base' : Path} {trees : List Tree} {inv : Inv} {alg : Str} {m : DigestMap}
    {vs : Dict Str VBlock} (h : Describes E s base trees inv alg m vs) (hf : SameFiles s base s' base') :
    Describes E s' base' trees inv alg m vs := by
  refine ⟨h.parsed, h.contentDirectory, ?_, h.states, ?_, h.ok⟩
  · intro d c hl
    obtain ⟨v, ws, b, h1, h2, h3, h4, h5, h6⟩ := h.content d c hl
    exact ⟨v, ws, b, h1, h2, h3, h4, (hf.files _ _).mpr h5, h6⟩
  · intro fx a fm hfx hm d c hl
    obtain ⟨segs, b, h1, h2, h3, h4, h5⟩ := h.fixity fx a fm hfx hm d c hl
    exact ⟨segs, b, h1, h2, h3, (hf.files _ _).mpr h4, h5⟩

theorem Stored.copied {E : Env} {s s' : FS} {base base' : Path} {q : Path} {r : Rec} (h : Stored E s (base ++ q) r)
    (hf : SameFiles s base s' base') : Stored E s' (base' ++ q) r := by
  obtain ⟨h1, d, h2, h3⟩ := h
  rw [List.append_assoc] at h1 h3
  refine ⟨?_, d, h2, ?_⟩ <;> rw [List.append_assoc]
  · exact (hf.files _ _).mpr h1
  · exact (hf.files _ _).mpr h3

/-- An object can be copied. -/
theorem Sound.copied {E : Env} {s s' : FS} {base base' : Path} {dv : Str} {trees : List Tree} {recs : List Rec}
    (h : Sound E s base dv trees recs) (hw : s'.WF) (hf : SameFiles s base s' base') : Sound E s' base' dv trees recs := by
  have hdecl := (hf.files _ _).mpr h.declaration
  refine ⟨hw, by simpa using look_parent hw hdecl, h.length, h.pos, ?_, h.mono, h.same, ?_, h.spec, hdecl, ?_⟩
  · intro k r hk
    have hv := h.versions k r hk
    have hst := hv.stored.copied hf
    refine ⟨hv.describes.copied hf, by simpa using look_parent hw hst.1, hst, hv.type, ?_⟩
    intro q hq hl
    exact hv.only q hq (hf.ne_none hl)
  · intro r hr
    have := h.root r hr
    rw [← List.append_nil base] at this
    simpa using this.copied hf
  · intro w q hl
    exact h.only w q (hf.ne_none hl)

/-- A queued file is in the manifest. -/
theorem queue_listed {E : Env} {s : FS} {src : Path} {nv0 nv : NV} {head alg : Str} {srcs : List Str}
    (ha : NV.Added (srcEnv E s src) nv0 head srcs nv) (halg : nv0.inv.digestAlgorithm = some alg)
    {e : Str × Str} (he : e ∈ nv.filesToCopy) : e.2 ∈ listed nv.inv.manifestD := by
  obtain ⟨d, hd, _⟩ := ha.digests _ (ha.queueDone e he)
  exact mem_listed.mpr ⟨d, (ha.paths d e.2).mpr (Or.inr ⟨e.1, he, hd⟩)⟩

/-- What appears in the new version directory. -/
theorem new_only {s' : FS} {base : Path} {head alg : Str} {nv : NV} {m : DigestMap} (hh : SafeName head)
    (hq : QueueReady head nv.filesToCopy) (hm : ∀ e ∈ nv.filesToCopy, e.2 ∈ listed m)
    (hnew : ∀ q, base ++ [head] <+: q → q ≠ base ++ [head] → ¬ InventoryFile (base ++ [head]) alg q →
      (∀ e ∈ nv.filesToCopy, ¬ q <+: FS.resolve base e.2) → look s' q = none) :
    ∀ q, q ≠ [] → look s' (base ++ head :: q) ≠ none → q = [inventoryFilename] ∨ q = [sidecarName alg] ∨
      ∃ ws, q <+: ws ∧ ws ≠ [] ∧ (∀ w ∈ head :: ws, SafeName w) ∧ pathOf (head :: ws) ∈ listed m := by
  intro q hne hl
  by_cases h1 : q = [inventoryFilename]
  · exact Or.inl h1
  by_cases h2 : q = [sidecarName alg]
  · exact Or.inr (Or.inl h2)
  refine Or.inr (Or.inr ?_)
  by_contra hcon
  refine hl (hnew _ ⟨q, by simp⟩ ?_ ?_ ?_)
  · intro he
    have := congrArg List.length he
    simp at this
    exact hne this
  · rintro (he | he)
    · rw [List.append_assoc, List.append_cancel_left_eq] at he
      exact h1 (List.cons.inj he).2
    · rw [List.append_assoc, List.append_cancel_left_eq] at he
      exact h2 (List.cons.inj he).2
  · intro e he hp
    obtain ⟨cd, ws, k1, k2, k3, k4, _⟩ := hq.dst hh base he
    rw [k4, List.prefix_append_right_inj, List.cons_prefix_cons] at hp
    exact hcon ⟨cd :: ws, hp.2, by simp, k2, by rw [← k3]; exact hm e he⟩

/-- The first version. -/
theorem sound_create {E : Env} (hhash : HashLib E.raw) (hword : WordClass E.isWord) (hcwd : ∀ w ∈ E.cwd, SafeName w) {o : Obj}
    (ho : GoodSettings o) {srcdir objdir : Str} {metadata : Option VBlock} (hmeta : GoodMeta metadata) {s s' : FS} (hw : s.WF)
    (hvac : Vacant s (absComps E.cwd objdir)) (hfile : ∃ r b, FileBelow s (absComps E.cwd srcdir) r b)
    (hnames : NamesAllowed o (FileBelow s (absComps E.cwd srcdir))) {inv : Inv}
    (hr : run (create E o srcdir metadata (some objdir)) s = (s', .ok inv)) :
    ∃ r, r.inv = inv ∧ r.alg = o.digestAlgorithm ∧
      Sound E s' (absComps E.cwd objdir) o.specVersion [FileBelow s (absComps E.cwd srcdir)] [r] := by
  obtain ⟨src, nv, hp, rfl, _, hrun⟩ := create_inv hr
  obtain ⟨nv0, srcs, hff⟩ := prepareFirst_ok hw ho hmeta hp
  have hrun := hrun objdir rfl
  have hcd : nv0.inv.contentDirectoryToUse ≠ [] := by rw [hff.contentDirectory]; exact ho.contentDirectory.1
  have hx := hexNames_srcEnv hhash s src
  have hq : QueueReady (styleName none 1) nv.filesToCopy := hff.ground.queueReady hff.added hff.source.names hx hcd
  have hsrceq := hff.src_eq
  have hsource := hff.source
  rw [← hsrceq] at hfile hnames ⊢
  have hnl : nv0.norm = none → ∀ p ∈ srcs, '\n' ∉ p := by rw [hff.norm]; exact hsource.newlines hnames
  have hne := hsource.ne_nil hfile
  generalize hbase : absComps E.cwd objdir = base at hvac ⊢
  have hC : Created E o base src (styleName none 1) nv s s' := by
    have := writeFirst_ok_inv hword hcwd (o := o) ho.specVersion (src := src) (nv := nv) (objdir := objdir) hw hq
      (by rw [hbase]; exact hvac.1) (by
        intro e he hpre
        obtain ⟨r, b, hf, hj⟩ := (hsource.files e.1).mp (hff.added.queueDone e he)
        rw [hbase, hj, resolve_join src ((treeOK_below hw src).names r b hf).2] at hpre
        obtain ⟨t, ht⟩ := hpre
        have hl := hf.2
        rw [← ht] at hl
        by_cases ht0 : t = []
        · subst ht0
          rw [List.append_nil] at hl
          rcases hvac.1 with h | h <;> (rw [h] at hl; cases hl)
        · rw [hvac.2 t ht0] at hl; cases hl) hrun
    rw [hbase] at this
    exact this
  have hd := describes_new hhash (s' := s') (base := base) (trees := []) (b := metadata.getD {}) hw hff.ground hcd
    (by intro d c hl; exact absurd hl (Lists_nil _ _)) (by intro k t hk; simp at hk)
    (by
      intro fx a fm hfx hm d c hl
      obtain ⟨_, k2⟩ := hff.ground.fixity fx hfx
      have := (k2 a fm hm).2.2.2.2 c (mem_listed.mpr ⟨d, hl⟩)
      simp [listed] at this) (by simp) hsource hff.added hnl (Or.inl hne) hC.files
  have halg : nv0.inv.digestAlgorithm = some o.digestAlgorithm := hff.ground.algorithm
  have hh : SafeName (styleName none 1) := styleName_safe _ _
  have hv : (styleName none 1).head? = some 'v' := styleName_head _ _
  have hlist : ∀ e ∈ nv.filesToCopy, e.2 ∈ listed nv.inv.manifestD := fun e he => queue_listed hff.added halg he
  -- nothing else is in the object
  have hnone : ∀ q, q ≠ [] → base ++ q ≠ base ++ [styleName none 1] → ¬ InventoryFile base o.digestAlgorithm (base ++ q) →
      ¬ InventoryFile (base ++ [styleName none 1]) o.digestAlgorithm (base ++ q) → base ++ q ≠ base ++ [declarationName o.specVersion] →
      (∀ e ∈ nv.filesToCopy, ¬ (base ++ q) <+: FS.resolve base e.2) → look s' (base ++ q) = none := by
    intro q h1 h2 h3 h4 h5 h6
    rw [hC.rest _ (by intro he; exact h1 (List.append_right_eq_self.mp he)) h2 h3 h4 h5 h6]
    exact hvac.2 q h1
  obtain ⟨dg, hdg1, hdg2⟩ := hC.digest
  have hlen1 : ∀ {q : Path} {w x : Str}, q ≠ [] → base ++ w :: q ≠ base ++ [x] := by
    intro q w x hq he
    rw [List.append_cancel_left_eq] at he
    exact hq (List.cons.inj he).2
  have honly := new_only (s' := s') (base := base) (alg := o.digestAlgorithm) hh hq hlist (by
    intro q hp hne' hni hnf
    obtain ⟨t, rfl⟩ := hp
    have ht : t ≠ [] := by rintro rfl; simp at hne'
    have e : base ++ [styleName none 1] ++ t = base ++ (styleName none 1 :: t) := by simp
    rw [e] at hne' hni hnf ⊢
    refine hnone _ (by simp) hne' ?_ hni ?_ hnf
    · rintro (h | h)
      · exact hlen1 ht h
      · exact hlen1 ht h
    · exact hlen1 ht)
  refine ⟨⟨nv.inv, o.digestAlgorithm, nv.inv.manifestD,
    Dict.set [] (styleName none 1) { metadata.getD {} with state := some (nv.inv.stateOf (styleName none 1)) }⟩, rfl, rfl, hC.wf, hC.isDir, rfl, by simp, ?_, List.pairwise_singleton _ _, ?_, ?_,
    ho.specVersion, hC.declaration, ?_⟩
  · intro k r hk
    have hk0 : k = 0 := by
      by_contra hne
      rw [List.getElem?_eq_none (by simp; omega)] at hk
      cases hk
    subst hk0
    cases hk
    refine ⟨hd, hC.headDir, ⟨hC.inventory _ (Or.inr rfl), dg, hdg1, hdg2 _ (Or.inr rfl)⟩, ?_, honly⟩
    rw [hff.added.keeps.2.1, hff.type]; rfl
  · intro a ha b hb
    rw [List.mem_singleton.mp ha, List.mem_singleton.mp hb]
    exact ⟨rfl, rfl⟩
  · intro r hr
    cases hr
    exact ⟨hC.inventory _ (Or.inl rfl), dg, hdg1, hdg2 _ (Or.inl rfl)⟩
  · intro w q hl
    by_cases hw1 : w = styleName none 1
    · exact Or.inl ⟨0, by simp, hw1⟩
    right
    by_contra hcon
    refine hl (hnone _ (by simp) ?_ ?_ ?_ ?_ ?_)
    · intro he
      rw [List.append_cancel_left_eq] at he
      exact hw1 (List.cons.inj he).1
    · rintro (he | he)
      · rw [List.append_cancel_left_eq] at he
        obtain ⟨h1, h2⟩ := List.cons.inj he
        exact hcon ⟨h2, Or.inl h1⟩
      · rw [List.append_cancel_left_eq] at he
        obtain ⟨h1, h2⟩ := List.cons.inj he
        exact hcon ⟨h2, Or.inr (Or.inr ⟨_, rfl, h1⟩)⟩
    · rintro (he | he)
      · rw [List.append_assoc, List.append_cancel_left_eq] at he
        exact hw1 (List.cons.inj he).1
      · rw [List.append_assoc, List.append_cancel_left_eq] at he
        exact hw1 (List.cons.inj he).1
    · intro he
      rw [List.append_cancel_left_eq] at he
      obtain ⟨h1, h2⟩ := List.cons.inj he
      exact hcon ⟨h2, Or.inr (Or.inl h1)⟩
    · intro e he hp
      obtain ⟨cd, ws, _, _, _, k4, _⟩ := hq.dst hh base he
      rw [k4, List.prefix_append_right_inj, List.cons_prefix_cons] at hp
      exact hw1 hp.1

theorem specVersion_uri {inv : Inv} {sv : Str} (h : inv.type = some (typeUri sv)) (hs : sv ∈ supported) : inv.specVersion = some sv := by
  unfold Inv.specVersion
  rw [h]
  have : sv = c!"1.0" ∨ sv = c!"1.1" := by simpa [supported] using hs
  rcases this with rfl | rfl <;> decide

/-- A later version. -/
theorem Sound.update {E : Env} (hlib : E.lib.Lawful) (hhash : HashLib E.raw) {o : Obj}
    (halg : o.digestAlgorithm = c!"sha512" ∨ o.digestAlgorithm = c!"sha256") {srcdir objdir : Str} {metadata : Option VBlock}
    (hmeta : GoodMeta metadata) {abort : Bool} {s s' : FS} {base : Path} {dv : Str} {trees : List Tree} {recs : List Rec}
    (h : Sound E s base dv trees recs) (hno : NoCollision E.raw (InTrees trees)) (hlim : trees.length + 1 ≤ 99999)
    (hbase : absComps E.cwd objdir = base) (hnames : NamesAllowed o (FileBelow s (absComps E.cwd srcdir))) {inv : Inv}
    (hr : run (addVersionWithContent E o objdir (some srcdir) metadata abort) s = (s', .ok (some inv))) :
    ∃ r, r.inv = inv ∧ r.alg = o.digestAlgorithm ∧
      Sound E s' base dv (trees ++ [FileBelow s (absComps E.cwd srcdir)]) (recs ++ [r]) := by
  have hw := h.wf
  -- the last inventory
  obtain ⟨front, rl, hrecs⟩ : ∃ front rl, recs = front ++ [rl] := ⟨recs.dropLast, recs.getLast h.pos, (List.dropLast_append_getLast h.pos).symm⟩
  have hlast : recs.getLast? = some rl := by rw [hrecs]; simp
  have hpos : 1 ≤ trees.length := by
    rw [← h.length, hrecs]; simp
  have hidx : recs[trees.length - 1]? = some rl := by
    rw [← h.length, hrecs]; simp
  have hvl := h.versions _ rl hidx
  have htake : trees.take (trees.length - 1 + 1) = trees := by
    rw [Nat.sub_add_cancel hpos]; exact List.take_length
  rw [htake] at hvl
  have hdl := hvl.describes
  -- the reading part
  unfold addVersionWithContent at hr
  obtain ⟨s0, r0, h0, hr⟩ := run_bind_inv hr
  rw [run_look] at h0
  obtain ⟨hs0, hprep⟩ := Prod.mk.inj h0
  clear h0
  subst hs0
  cases r0 with
  | none => cases hr
  | some r0 =>
  obtain ⟨base', src, nv⟩ := r0
  obtain ⟨sd, hsd, nv0, inv0, alg, m, vs, style, n, inv1, hst, hadd⟩ := prepareUpdate_started hlib hprep
  cases hsd
  have hbb : base' = base := hst.base_eq.trans hbase
  subst hbb
  have hinv0 : inv0 = rl.inv.sorted := by
    have := hst.parse
    rw [parse_written hlib hdl.parsed (h.root rl hlast).1] at this
    cases this
    rfl
  subst hinv0
  have hds := hdl.sorted
  have ealg : alg = rl.alg := by
    have := hst.parsed.good.algorithm
    rw [hds.parsed.good.algorithm] at this
    cases this
    rfl
  subst ealg
  obtain ⟨m1, vs1, hd1, hlist1, hkeys1, hcd1, hty1, hid1⟩ := hds.recode hhash hno halg hst.change
  have g := ground_next hd1.parsed (sv := c!"1.1") (by decide) hmeta hlim hst.next
  have hsrceq := hst.src_eq
  rw [← hsrceq] at hnames ⊢
  obtain ⟨srcs, hsource, hadded⟩ := addFromSrcdir_ok hw hst.src_dir g.building ⟨_, g.manifest⟩ g.queue hadd
  -- what next_version gave
  obtain ⟨_, type, htype, hnv0⟩ := nextVersion_ok hd1.parsed.numbered hst.next
  have hcd0 : nv0.inv.contentDirectory = rl.inv.contentDirectory := by rw [hnv0]; exact hcd1
  have hid0 : nv0.inv.id = rl.inv.id := by rw [hnv0]; exact hid1
  have hfx0 : nv0.inv.fixity = inv1.fixity := by rw [hnv0]; rfl
  have hty0 : nv0.inv.type = some (typeUri c!"1.1") := by
    have e : nv0.inv.type = type := by rw [hnv0]; rfl
    rw [e]
    rcases htype with ⟨h1, h2⟩ | ⟨_, _, _, _, h2⟩
    · obtain ⟨sv, hsv, htsv⟩ : ∃ sv ∈ supported, rl.inv.type = some (typeUri sv) := by
        refine ⟨_, ?_, hvl.type⟩
        split
        · exact h.spec
        · decide
      have ht : inv1.type = some (typeUri sv) := by rw [hty1]; exact htsv
      rw [specVersion_uri ht hsv] at h1
      cases h1
      rw [h2, ht]
    · rw [h2]; rfl
  have hold0 : nv0.oldDigestAlgorithm = some rl.alg := by rw [hnv0]
  have hnorm0 : nv0.norm = o.norm := by rw [hnv0]
  have hcdu0 : nv0.inv.contentDirectoryToUse = inv1.contentDirectoryToUse := by
    unfold Inv.contentDirectoryToUse
    rw [hcd0, hcd1]
    rfl
  have hcd : nv0.inv.contentDirectoryToUse ≠ [] := by rw [hcdu0]; exact hd1.contentDirectory
  have hx := hexNames_srcEnv hhash s src
  have hq : QueueReady (styleName none (trees.length + 1)) nv.filesToCopy := g.queueReady hadded hsource.names hx hcd
  have hh : SafeName (styleName none (trees.length + 1)) := styleName_safe _ _
  have hv : (styleName none (trees.length + 1)).head? = some 'v' := styleName_head _ _
  have hhead : nv.inv.head = some (styleName none (trees.length + 1)) := by rw [hadded.head.1]; exact g.head
  have holdn : nv.oldDigestAlgorithm = some rl.alg := by rw [hadded.old]; exact hold0
  have hnalg : nv.inv.digestAlgorithm = some o.digestAlgorithm := by rw [hadded.head.2.1]; exact g.algorithm
  -- the writing part
  obtain ⟨s2, inv2, hwr, hr⟩ := run_bind_inv hr
  have hr : (s2, Except.ok (some inv2)) = (s', (.ok (some inv) : Py (Option Inv))) := hr
  cases hr
  have hslash : '/' ∉ rl.alg := by
    rcases hdl.parsed.good.algName with h | h <;> (rw [h]; decide)
  obtain ⟨rfl, W⟩ := writeNewVersion_ok_inv hw h.isDir hhead hh hv hq (by
      intro old ho
      rw [holdn] at ho
      cases ho
      exact hslash) (by
      intro e he hn
      obtain ⟨r, b, hf, hj⟩ := (hsource.files e.1).mp (hadded.queueDone e he)
      rw [hj, resolve_join src ((treeOK_below hw src).names r b hf).2, hf.2] at hn
      cases hn) hwr
  -- what is not touched
  have hrm : ∀ q, removedSidecar base' nv q → q = base' ++ [sidecarName rl.alg] := by
    rintro q ⟨old, h1, _, rfl⟩
    rw [holdn] at h1
    cases h1
    rfl
  have hkeep : ∀ w q, w ≠ styleName none (trees.length + 1) → (q = [] → w.head? ≠ some 'i') →
      look s' (base' ++ w :: q) = look s (base' ++ w :: q) := by
    intro w q h1 h2
    have hne : ∀ x : Str, x.head? = some 'i' → base' ++ w :: q ≠ base' ++ [x] := by
      intro x hx' he
      rw [List.append_cancel_left_eq] at he
      obtain ⟨e1, e2⟩ := List.cons.inj he
      exact h2 e2 (by rw [e1]; exact hx')
    refine W.rest _ ?_ ?_ ?_
    · rintro (he | he)
      · exact hne _ rfl he
      · exact hne _ rfl he
    · intro he
      exact hne _ rfl (hrm _ he)
    · intro hp
      rw [show base' ++ [styleName none (trees.length + 1)] = base' ++ (styleName none (trees.length + 1) :: []) from rfl,
        List.prefix_append_right_inj, List.cons_prefix_cons] at hp
      exact h1 hp.1.symm
  have hkeepv : ∀ i q, i ≤ trees.length → look s' (base' ++ styleName none i :: q) = look s (base' ++ styleName none i :: q) := by
    intro i q hi
    refine hkeep _ q ?_ ?_
    · intro he
      have := styleName_inj he
      omega
    · intro _
      rw [styleName_head]
      decide
  -- the old inventories still describe the content
  have hd1' : Describes E s' base' trees inv1 o.digestAlgorithm m1 vs1 := by
    refine hd1.frame (fun v hv' q _ => ?_)
    obtain ⟨i, _, hi, rfl⟩ := (hd1.parsed.good.names.2.2.2 v).mp hv'
    exact hkeepv i q hi
  have hdn := describes_new hhash (s' := s') (base := base') (b := { metadata.getD {} with state := some [] }) hw g hcd
    (by rw [hcdu0]; exact hd1'.content) hd1'.states (by rw [hfx0]; exact hd1'.fixity) hd1'.ok hsource hadded
    (by rw [hnorm0]; exact hsource.newlines hnames) (Or.inr ⟨[], rfl⟩) W.files
  have hlist : ∀ e ∈ nv.filesToCopy, e.2 ∈ listed nv.inv.manifestD := fun e he => queue_listed hadded g.algorithm he
  have honly := new_only (s' := s') (base := base') (alg := o.digestAlgorithm) hh hq hlist W.new
  obtain ⟨dg, hdg1, hdg2⟩ := W.digest
  have hmono : ∀ c ∈ listed rl.m, c ∈ listed nv.inv.manifestD := by
    intro c hc
    obtain ⟨d, hd⟩ := mem_listed.mp hc
    have : c ∈ listed m1 := by
      rw [hlist1]
      exact mem_listed.mpr ⟨d, lists_sorted.mpr hd⟩
    obtain ⟨d', hd'⟩ := mem_listed.mp this
    exact mem_listed.mpr ⟨d', (hadded.paths d' c).mpr (Or.inl (by rw [g.manifestD]; exact hd'))⟩
  have hlen : recs.length = trees.length := h.length
  refine ⟨⟨nv.inv, o.digestAlgorithm, nv.inv.manifestD, Dict.set vs1 (styleName none (trees.length + 1))
    { { metadata.getD {} with state := some [] } with state := some (nv.inv.stateOf (styleName none (trees.length + 1))) }⟩,
    rfl, rfl, W.wf, ?_, by simp [hlen], by simp, ?_, ?_, ?_, ?_, h.spec, ?_, ?_⟩
  · rw [W.rest base' ?_ ?_ ?_]
    · exact h.isDir
    · rintro (he | he)
      · exact concat_ne_self he.symm
      · exact concat_ne_self he.symm
    · intro he
      exact concat_ne_self (hrm _ he).symm
    · intro hp
      have := hp.length_le
      rw [List.length_append, List.length_singleton] at this
      omega
  · intro k r hk
    by_cases hlt : k < recs.length
    · rw [List.getElem?_append_left hlt] at hk
      have hvk := h.versions k r hk
      rw [List.take_append_of_le_length (by omega)]
      refine hvk.frame ?_
      rintro w q (rfl | hw')
      · exact hkeepv _ q (by omega)
      · obtain ⟨i, _, hi, rfl⟩ := (hvk.describes.parsed.good.names.2.2.2 w).mp hw'
        refine hkeepv i q ?_
        rw [List.length_take] at hi
        omega
    · rw [List.getElem?_append_right (by omega)] at hk
      have hk0 : k = trees.length := by
        by_contra hne
        rw [List.getElem?_eq_none (by simp; omega)] at hk
        cases hk
      subst hk0
      rw [hlen, Nat.sub_self] at hk
      cases hk
      have ht : (trees ++ [FileBelow s src]).take (trees.length + 1) = trees ++ [FileBelow s src] := by
        rw [List.take_of_length_le (by simp)]
      rw [ht]
      exact ⟨hdn, W.headDir, ⟨W.inventory _ (Or.inr rfl), dg, hdg1, hdg2 _ (Or.inr rfl)⟩,
        by rw [hadded.keeps.2.1, hty0, if_neg (by rw [List.length_append, List.length_singleton]; omega)], honly⟩
  · rw [List.pairwise_append]
    refine ⟨h.mono, List.pairwise_singleton _ _, ?_⟩
    intro a ha b hb c hc
    rw [List.mem_singleton.mp hb]
    refine hmono c ?_
    have hm := h.mono
    rw [hrecs] at hm ha
    rw [List.pairwise_append] at hm
    rcases List.mem_append.mp ha with ha | ha
    · exact hm.2.2 a ha rl (by simp) c hc
    · rw [List.mem_singleton.mp ha] at hc
      exact hc
  · have hnew : ∀ a ∈ recs, a.inv.id = nv.inv.id ∧ a.inv.contentDirectory = nv.inv.contentDirectory := by
      intro a ha
      obtain ⟨h1, h2⟩ := h.same a ha rl (by rw [hrecs]; simp)
      exact ⟨by rw [h1, hadded.keeps.1, hid0], by rw [h2, hadded.keeps.2.2.1, hcd0]⟩
    intro a ha b hb
    rcases List.mem_append.mp ha with ha | ha <;> rcases List.mem_append.mp hb with hb | hb
    · exact h.same a ha b hb
    · rw [List.mem_singleton.mp hb]; exact hnew a ha
    · rw [List.mem_singleton.mp ha]; exact ⟨(hnew b hb).1.symm, (hnew b hb).2.symm⟩
    · rw [List.mem_singleton.mp ha, List.mem_singleton.mp hb]; exact ⟨rfl, rfl⟩
  · intro r hr'
    rw [List.getLast?_concat] at hr'
    cases hr'
    exact ⟨W.inventory _ (Or.inl rfl), dg, hdg1, hdg2 _ (Or.inl rfl)⟩
  · rw [hkeep _ [] (by
      intro he
      have := congrArg List.head? he
      rw [styleName_head] at this
      cases this) (by intro _ hc; cases hc)]
    exact h.declaration
  · intro w q hl
    by_cases hwh : w = styleName none (trees.length + 1)
    · exact Or.inl ⟨trees.length, by simp, hwh⟩
    by_cases hi : q = [] ∧ w.head? = some 'i'
    · obtain ⟨rfl, hi⟩ := hi
      by_cases hw1 : w = inventoryFilename
      · exact Or.inr ⟨rfl, Or.inl hw1⟩
      by_cases hw2 : w = sidecarName o.digestAlgorithm
      · exact Or.inr ⟨rfl, Or.inr (Or.inr ⟨_, List.getLast?_concat, hw2⟩)⟩
      exfalso
      have hni : ¬ InventoryFile base' o.digestAlgorithm (base' ++ [w]) := by
        rintro (he | he)
        · rw [List.append_cancel_left_eq] at he; exact hw1 (List.cons.inj he).1
        · rw [List.append_cancel_left_eq] at he; exact hw2 (List.cons.inj he).1
      by_cases hrem : removedSidecar base' nv (base' ++ [w])
      · exact hl (W.removed _ hrem (by
          intro he; rw [List.append_cancel_left_eq] at he; exact hw2 (List.cons.inj he).1))
      · rw [W.rest _ hni hrem (not_under (by
          intro he; rw [List.append_cancel_left_eq] at he; exact hwh (List.cons.inj he).1))] at hl
        rcases h.only w [] hl with ⟨k, _, rfl⟩ | ⟨_, hw' | hw' | ⟨r, hr1, hr2⟩⟩
        · rw [styleName_head] at hi; cases hi
        · exact hw1 hw'
        · rw [hw'] at hi; cases hi
        · rw [hlast] at hr1
          cases hr1
          refine hrem ⟨rl.alg, holdn, ?_, by rw [hr2]⟩
          rw [hnalg]
          intro he
          exact hw2 (by rw [hr2, Option.some.inj he])
    · rw [hkeep w q hwh (fun h1 h2 => hi ⟨h1, h2⟩)] at hl
      rcases h.only w q hl with ⟨k, hk, rfl⟩ | ⟨rfl, hw' | hw' | ⟨r, hr1, hr2⟩⟩
      · exact Or.inl ⟨k, by simp; omega, rfl⟩
      · exact absurd ⟨rfl, by rw [hw']; rfl⟩ hi
      · exact Or.inr ⟨rfl, Or.inr (Or.inl hw')⟩
      · exact absurd ⟨rfl, by rw [hr2]; rfl⟩ hi

end Ocfl
