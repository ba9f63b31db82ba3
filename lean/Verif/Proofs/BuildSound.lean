import Verif.Proofs.MetaAt
import Verif.Proofs.BuildDirs

/-!
# What `build` leaves
-/

namespace Ocfl

open Spec FS Prog Ocfl.Inv

/-- What writing a version while building leaves. -/
structure BuiltVersion (E : Env) (alg : Str) (base src : Path) (head : Str) (nv : NV) (s s' : FS) : Prop where
  wf : s'.WF
  headDir : look s' (base ++ [head]) = some .dir
  files : ∀ e ∈ nv.filesToCopy, ∃ b, look s (FS.resolve src e.1) = some (.file b) ∧ look s' (FS.resolve base e.2) = some (.file b)
  digest : ∃ d, fileDigest E.raw alg (utf8 (inventoryText E nv.inv)) = some d ∧
    look s' (base ++ [head] ++ [sidecarName alg]) = some (.file (sidecarLine d))
  inventory : look s' (base ++ [head] ++ [inventoryFilename]) = some (.file (utf8 (inventoryText E nv.inv)))
  rest : ∀ q, ¬ base ++ [head] <+: q → look s' q = look s q
  new : ∀ q, base ++ [head] <+: q → q ≠ base ++ [head] → ¬ InventoryFile (base ++ [head]) alg q →
    (∀ e ∈ nv.filesToCopy, ¬ q <+: FS.resolve base e.2) → look s' q = none

theorem run_putBuilt_inv {E : Env} {o : Obj} {base src : Path} {nv : NV} {head : Str} {s s' : FS} (hw : s.WF)
    (hb : look s base = some .dir) (hh : SafeName head) (hq : QueueReady head nv.filesToCopy) (habs : look s (base ++ [head]) = none)
    (hsrc : ∀ e ∈ nv.filesToCopy, ¬ base <+: FS.resolve src e.1)
    (hr : run (Prog.bind (writeInventoryAndSidecar E o base (some nv.inv) head) (fun _ => copyAll base src nv.filesToCopy)) s = (s', .ok ())) :
    BuiltVersion E o.digestAlgorithm base src head nv s s' := by
  obtain ⟨s1, _, h1, hr⟩ := run_bind_inv hr
  obtain ⟨i1, -⟩ := run_writeInv_inv (VDir.version hh) hw hb h1
  have hsafe : ∀ w ∈ base, SafeName w := look_names hw hb
  have hdisj : ∀ e ∈ nv.filesToCopy, ∀ e' ∈ nv.filesToCopy, FS.resolve src e.1 ≠ FS.resolve base e'.2 := by
    intro e he e' he' heq
    refine hsrc e he ?_
    rw [heq]
    exact (List.prefix_append _ _).trans (hq.apart hh base he').2.2.2.1
  have c2 := run_copyAll_inv hh hq i1.wf hsafe hdisj hr
  have k1 : ∀ q, ¬ base ++ [head] <+: q → look s1 q = look s q := by
    intro q hn
    refine i1.rest q ?_ ?_ ?_
    · rintro rfl; exact hn (List.prefix_append _ _)
    · rintro rfl; exact hn (List.prefix_append _ _)
    · rintro rfl; exact hn List.prefix_rfl
  have keep : ∀ q b, look s1 q = some (.file b) → (∀ e ∈ nv.filesToCopy, q ≠ FS.resolve base e.2) → look s' q = some (.file b) := by
    intro q b hl hne
    rw [c2.rest q ?_, hl]
    intro e he hpre
    have := prefix_dropLast hpre (hne e he)
    rcases c2.clear e he q this with h | h <;> rw [hl] at h <;> cases h
  have keepd : ∀ q, look s1 q = some .dir → look s' q = some .dir := by
    intro q hl
    by_cases hall : ∀ e ∈ nv.filesToCopy, ¬ q <+: FS.resolve base e.2
    · rw [c2.rest q hall, hl]
    · simp only [not_forall, not_not] at hall
      obtain ⟨e, he, hpre⟩ := hall
      by_cases hqe : q = FS.resolve base e.2
      · exfalso
        rw [hqe] at hl
        exact c2.notDir e he hl
      · exact c2.dirs e he q (prefix_dropLast hpre hqe)
  refine ⟨c2.wf, keepd _ i1.isDir, ?_, ?_, keep _ _ i1.inventory (fun e he h => (hq.apart hh base he).1 _ h.symm), ?_, ?_⟩
  · intro e he
    obtain ⟨b, hb1, hb2⟩ := c2.files e he
    refine ⟨b, ?_, hb2⟩
    rw [← k1 _ (fun h => hsrc e he ((List.prefix_append _ _).trans h))]
    exact hb1
  · obtain ⟨d, hd, hl⟩ := i1.digest
    exact ⟨d, hd, keep _ _ hl (fun e he h => (hq.apart hh base he).1 _ h.symm)⟩
  · intro q hn
    rw [← k1 q hn]
    by_cases hqb : q <+: base
    · have : look s1 q = some .dir := by
        rw [k1 q hn]
        by_cases he : q = base
        · rw [he]; exact hb
        · exact look_prefix hw hqb he hb
      rw [keepd q this, this]
    · refine c2.rest q ?_
      intro e he hpre
      obtain ⟨cd, ws, _, _, _, h4', _⟩ := hq.dst hh base he
      rw [h4'] at hpre
      rcases prefix_split hpre with h | h
      · exact hqb h
      · exact hn h
  · intro q hp hne hni hnf
    rw [c2.rest q hnf, i1.rest q (fun h => hni (Or.inl h)) (fun h => hni (Or.inr h)) hne]
    exact look_below_none hw hp (Ne.symm hne) (by rw [habs]; simp)

/-- An object without anything but its versions. -/
structure Built (E : Env) (s : FS) (base : Path) (dv alg : Str) (trees : List Tree) (recs : List Rec) : Prop where
  wf : s.WF
  isDir : look s base = some .dir
  length : recs.length = trees.length
  versions : ∀ k r, recs[k]? = some r → VersionSound E s base dv (trees.take (k + 1)) (styleName none (k + 1)) r
  mono : recs.Pairwise (fun a b => ∀ c ∈ listed a.m, c ∈ listed b.m)
  same : ∀ a ∈ recs, ∀ b ∈ recs, a.inv.id = b.inv.id ∧ a.inv.contentDirectory = b.inv.contentDirectory
  alg : ∀ r ∈ recs, r.alg = alg
  only : ∀ w q, look s (base ++ w :: q) ≠ none → ∃ k < trees.length, w = styleName none (k + 1)

/-- One more version. -/
theorem Built.step {E : Env} (hhash : HashLib E.raw) {s s' : FS} {base : Path} {dv alg : Str} {trees : List Tree} {recs : List Rec}
    (h : Built E s base dv alg trees recs) {src : Path} {nv0 nv : NV} {m : DigestMap} {vs : Dict Str VBlock} {b : VBlock} {srcs : List Str}
    (g : Ground nv0 alg m vs none trees.length b) (hcd : nv0.inv.contentDirectoryToUse ≠ [])
    (hcontent : ContentOK E s' base alg nv0.inv.contentDirectoryToUse m (Dict.keys vs) trees)
    (hstates : StatesOK E alg vs trees) (hfix : FixityContent E s' base nv0.inv.fixity) (hok : ∀ t ∈ trees, t.OK)
    (hsource : SourceOf s src srcs) (ha : NV.Added (srcEnv E s src) nv0 (styleName none (trees.length + 1)) srcs nv)
    (hnl : nv0.norm = none → ∀ p ∈ srcs, '\n' ∉ p) (hst : srcs ≠ [] ∨ ∃ st, b.state = some st)
    (hq : QueueReady (styleName none (trees.length + 1)) nv.filesToCopy)
    (W : BuiltVersion E alg base src (styleName none (trees.length + 1)) nv s s')
    (htype : nv0.inv.type = some (typeUri (if trees.length = 0 then dv else c!"1.1")))
    (hmono : ∀ a ∈ recs, ∀ c ∈ listed a.m, c ∈ listed m)
    (hsame : ∀ a ∈ recs, a.inv.id = nv0.inv.id ∧ a.inv.contentDirectory = nv0.inv.contentDirectory) :
    ∃ r, r.inv = nv.inv ∧ Built E s' base dv alg (trees ++ [FileBelow s src]) (recs ++ [r]) := by
  have hd := describes_new hhash h.wf g hcd hcontent hstates hfix hok hsource ha hnl hst W.files
  have hh : SafeName (styleName none (trees.length + 1)) := styleName_safe _ _
  have hlist : ∀ e ∈ nv.filesToCopy, e.2 ∈ listed nv.inv.manifestD := fun e he => queue_listed ha g.algorithm he
  have honly := new_only (s' := s') (base := base) (alg := alg) hh hq hlist W.new
  obtain ⟨dg, hdg1, hdg2⟩ := W.digest
  have hlen := h.length
  have hkeep : ∀ w q, w ≠ styleName none (trees.length + 1) → look s' (base ++ w :: q) = look s (base ++ w :: q) := by
    intro w q h1
    refine W.rest _ ?_
    intro hp
    rw [show base ++ [styleName none (trees.length + 1)] = base ++ (styleName none (trees.length + 1) :: []) from rfl,
      List.prefix_append_right_inj, List.cons_prefix_cons] at hp
    exact h1 hp.1.symm
  have hkeepv : ∀ i q, i ≤ trees.length → look s' (base ++ styleName none i :: q) = look s (base ++ styleName none i :: q) := by
    intro i q hi
    refine hkeep _ q ?_
    intro he
    have := styleName_inj he
    omega
  refine ⟨⟨nv.inv, alg, nv.inv.manifestD, Dict.set vs (styleName none (trees.length + 1))
    { b with state := some (nv.inv.stateOf (styleName none (trees.length + 1))) }⟩, rfl, W.wf, ?_, by simp [hlen], ?_, ?_, ?_, ?_, ?_⟩
  · rw [W.rest base ?_]
    · exact h.isDir
    · intro hp
      have := hp.length_le
      rw [List.length_append, List.length_singleton] at this
      omega
  · intro k r hk
    by_cases hlt : k < recs.length
    · rw [List.getElem?_append_left hlt] at hk
      have hvk := h.versions k r hk
      rw [List.take_append_of_le_length (by omega)]
      refine hvk.frame ?_
      rintro w q (rfl | hw')
      · exact hkeepv _ q (by omega)
      · obtain ⟨i, _, hi, rfl⟩ := (hvk.describes.parsed.good.names.2.2.2 w).mp hw'
        refine hkeepv i q ?_
        rw [List.length_take] at hi
        omega
    · rw [List.getElem?_append_right (by omega)] at hk
      have hk0 : k = trees.length := by
        by_contra hne
        rw [List.getElem?_eq_none (by simp; omega)] at hk
        cases hk
      subst hk0
      rw [hlen, Nat.sub_self] at hk
      cases hk
      have ht : (trees ++ [FileBelow s src]).take (trees.length + 1) = trees ++ [FileBelow s src] := by
        rw [List.take_of_length_le (by simp)]
      rw [ht]
      refine ⟨hd, W.headDir, ⟨W.inventory, dg, hdg1, hdg2⟩, ?_, honly⟩
      rw [ha.keeps.2.1, htype, List.length_append, List.length_singleton]
      simp only [Nat.add_eq_right]
  · rw [List.pairwise_append]
    refine ⟨h.mono, List.pairwise_singleton _ _, ?_⟩
    intro a hmem b' hb c hc
    rw [List.mem_singleton.mp hb]
    obtain ⟨d, hd'⟩ := mem_listed.mp (hmono a hmem c hc)
    exact mem_listed.mpr ⟨d, (ha.paths d c).mpr (Or.inl (by rw [g.manifestD]; exact hd'))⟩
  · have hnew : ∀ a ∈ recs, a.inv.id = nv.inv.id ∧ a.inv.contentDirectory = nv.inv.contentDirectory := by
      intro a hmem
      obtain ⟨h1, h2⟩ := hsame a hmem
      exact ⟨by rw [h1, ha.keeps.1], by rw [h2, ha.keeps.2.2.1]⟩
    intro a ha b hb
    rcases List.mem_append.mp ha with ha | ha <;> rcases List.mem_append.mp hb with hb | hb
    · exact h.same a ha b hb
    · rw [List.mem_singleton.mp hb]; exact hnew a ha
    · rw [List.mem_singleton.mp ha]; exact ⟨(hnew b hb).1.symm, (hnew b hb).2.symm⟩
    · rw [List.mem_singleton.mp ha, List.mem_singleton.mp hb]; exact ⟨rfl, rfl⟩
  · intro r hr
    rcases List.mem_append.mp hr with hr | hr
    · exact h.alg r hr
    · rw [List.mem_singleton.mp hr]
  · intro w q hl
    by_cases hwh : w = styleName none (trees.length + 1)
    · exact ⟨trees.length, by simp, hwh⟩
    rw [hkeep w q hwh] at hl
    obtain ⟨k, hk, rfl⟩ := h.only w q hl
    exact ⟨k, by simp; omega, rfl⟩

/-- The last inventory. -/
theorem Built.last {E : Env} {s : FS} {base : Path} {dv alg : Str} {trees : List Tree} {recs : List Rec} (h : Built E s base dv alg trees recs)
    (hpos : trees ≠ []) : ∃ front r, recs = front ++ [r] ∧ VersionSound E s base dv trees (styleName none trees.length) r := by
  have hne : recs ≠ [] := by
    intro he
    have := h.length
    rw [he] at this
    exact hpos (List.length_eq_zero_iff.mp this.symm)
  have hrecs := (List.dropLast_append_getLast hne).symm
  have hl : 1 ≤ trees.length := List.length_pos_iff.mpr hpos
  have hidx : recs[trees.length - 1]? = some (recs.getLast hne) := by
    rw [← h.length, ← List.getLast?_eq_getElem?, List.getLast?_eq_getLast_of_ne_nil hne]
  have hvl := h.versions _ _ hidx
  rw [Nat.sub_add_cancel hl, List.take_length] at hvl
  exact ⟨_, _, hrecs, hvl⟩

/-- Two directories of which neither contains the other. -/
def ApartDirs (a b : Path) : Prop := ¬ a <+: b ∧ ¬ b <+: a

theorem ApartDirs.below {a b : Path} (h : ApartDirs a b) (q : Path) : ¬ b <+: a ++ q := by
  intro hp
  rcases List.prefix_or_prefix_of_prefix hp (List.prefix_append a q) with h' | h'
  · exact h.2 h'
  · exact h.1 h'

theorem versionTrees_succ (s : FS) (src : Path) (k : Nat) :
    versionTrees s src (k + 1) = versionTrees s src k ++ [FileBelow s (src ++ [unpaddedName (k + 1)])] := by
  unfold versionTrees
  rw [List.range_succ, List.map_append]
  rfl

theorem versionTrees_length (s : FS) (src : Path) (k : Nat) : (versionTrees s src k).length = k := by simp [versionTrees]

/-- The new version before anything is added. -/
def buildStart (o : Obj) (vdir : Str) (metadata : VBlock) (inv : Option Inv) : Py NV :=
  if vdir = c!"v1" then
    match o.id with
    | none => .error .objectException
    | some i => NV.firstVersion i o.specVersion (some o.digestAlgorithm) (some o.contentDirectory) (some metadata) o.dedupe
        (o.fixity.getD []) o.norm
  else
    match inv with
    | none => .error .attributeError
    | some inv => NV.nextVersion inv c!"1.1" (some metadata) o.norm o.forwardDelta o.dedupe false none

theorem buildPrepare_ok {E : Env} {o : Obj} {srcdir vdir : Str} {metadata : VBlock} {inv : Option Inv} {s : FS} {src : Path} {nv : NV}
    (h : buildPrepare E o srcdir vdir metadata inv s = .ok (src, nv)) :
    src = absComps E.cwd (osPathJoin srcdir vdir) ∧ look s src = some .dir ∧
      ∃ nv0, buildStart o vdir metadata inv = .ok nv0 ∧ addFromSrcdir E s src nv0 = .ok nv := by
  unfold buildPrepare at h
  unfold buildStart
  split at h
  · rename_i hv
    rw [if_pos hv]
    unfold prepareFirst at h
    split at h
    · cases h
    rename_i id hid
    split at h
    · cases h
    rename_i src' hsrc
    obtain ⟨hs1, hs2⟩ := fswOpen_ok hsrc
    split at h
    · cases h
    rename_i nv0 hfirst
    split at h
    · cases h
    rename_i nv' hadd
    cases h
    rw [hid]
    exact ⟨hs1, hs2, nv0, hfirst, hadd⟩
  · rename_i hv
    rw [if_neg hv]
    split at h
    · cases h
    rename_i src' hsrc
    obtain ⟨hs1, hs2⟩ := fswOpen_ok hsrc
    split at h
    · cases h
    rename_i inv'
    split at h
    · cases h
    rename_i nv0 hnext
    split at h
    · cases h
    rename_i nv' hadd
    cases h
    exact ⟨hs1, hs2, nv0, hnext, hadd⟩

/-- The inventories that building writes one after the other: they depend on the settings, the metadata and the files. -/
inductive Prepared (E : Env) (o : Obj) (metadata : Nat → VBlock) (s : FS) (src : Path) : List Inv → Prop where
  | nil : Prepared E o metadata s src []
  | snoc {l : List Inv} {nv0 nv : NV} (before : Prepared E o metadata s src l)
      (start : buildStart o (unpaddedName (l.length + 1)) (metadata (l.length + 1)) l.getLast? = .ok nv0)
      (isDir : look s (src ++ [unpaddedName (l.length + 1)]) = some .dir)
      (add : addFromSrcdir E s (src ++ [unpaddedName (l.length + 1)]) nv0 = .ok nv) : Prepared E o metadata s src (l ++ [nv.inv])

/-- The invariant of the loop of `build`: `k` versions are done. -/
structure BuildState (E : Env) (o : Obj) (metadata : Nat → VBlock) (base src : Path) (s0 s : FS) (k : Nat) (inv : Option Inv)
    (recs : List Rec) : Prop where
  built : Built E s base o.specVersion o.digestAlgorithm (versionTrees s0 src k) recs
  inv_eq : inv = recs.getLast?.map (·.inv)
  elsewhere : ∀ q, ¬ base <+: q → look s q = look s0 q
  said : ∀ r, recs.getLast? = some r → r.inv.id = o.id ∧ ∀ i < k, metaAt r.inv (styleName none (i + 1)) = some (metadata (i + 1))
  wf0 : s0.WF
  prepared : Prepared E o metadata s0 src (recs.map (·.inv))

theorem fileBelow_congr {s s' : FS} {dir : Path} (h : ∀ q, look s' (dir ++ q) = look s (dir ++ q)) : FileBelow s' dir = FileBelow s dir := by
  funext r b
  unfold FileBelow
  rw [h]

/-- One round of the loop. -/
theorem BuildState.step {E : Env} (hhash : HashLib E.raw) (hcwd : ∀ w ∈ E.cwd, SafeName w) {o : Obj} (ho : GoodSettings o)
    {metadata : Nat → VBlock} {base : Path} {srcdir : Str} (hapart : ApartDirs (absComps E.cwd srcdir) base) {s0 s s' : FS} {k : Nat}
    {inv : Option Inv} {recs : List Rec} (h : BuildState E o metadata base (absComps E.cwd srcdir) s0 s k inv recs)
    (hmeta : GoodMeta (some (metadata (k + 1)))) (hlim : k + 1 ≤ 99999)
    (hfile : k = 0 → ∃ r b, FileBelow s0 (absComps E.cwd srcdir ++ [unpaddedName (k + 1)]) r b)
    (hnames : NamesAllowed o (FileBelow s0 (absComps E.cwd srcdir ++ [unpaddedName (k + 1)]))) {src : Path} {nv : NV}
    (hprep : buildPrepare E o srcdir (unpaddedName (k + 1)) (metadata (k + 1)) inv s = .ok (src, nv))
    (hr : run (Prog.bind (writeInventoryAndSidecar E o base (some nv.inv) (unpaddedName (k + 1)))
      (fun _ => copyAll base src nv.filesToCopy)) s = (s', .ok ())) :
    ∃ r, BuildState E o metadata base (absComps E.cwd srcdir) s0 s' (k + 1) (some nv.inv) (recs ++ [r]) := by
  have hw := h.built.wf
  have hb := h.built
  have hlenT := versionTrees_length s0 (absComps E.cwd srcdir) k
  have hname : SafeName (unpaddedName (k + 1)) := styleName_safe none (k + 1)
  have hjoin : absComps E.cwd (osPathJoin srcdir (unpaddedName (k + 1))) = absComps E.cwd srcdir ++ [unpaddedName (k + 1)] :=
    absComps_osPathJoin _ _ hname
  have htree : FileBelow s (absComps E.cwd srcdir ++ [unpaddedName (k + 1)]) = FileBelow s0 (absComps E.cwd srcdir ++ [unpaddedName (k + 1)]) := by
    refine fileBelow_congr (fun q => h.elsewhere _ ?_)
    rw [List.append_assoc]
    exact hapart.below _
  rw [← htree] at hnames hfile
  have habs : look s (base ++ [styleName none (k + 1)]) = none := by
    by_contra hne
    obtain ⟨i, hi, he⟩ := hb.only _ [] hne
    have := styleName_inj he
    omega
  have hx := hexNames_srcEnv hhash s src
  -- what is common to the first and later versions
  have finish : ∀ {nv0 : NV} {m : DigestMap} {vs : Dict Str VBlock} {b : VBlock} {srcs : List Str},
      src = absComps E.cwd srcdir ++ [unpaddedName (k + 1)] → Ground nv0 o.digestAlgorithm m vs none k b →
      nv0.inv.contentDirectoryToUse ≠ [] → nv0.norm = o.norm → SourceOf s src srcs →
      NV.Added (srcEnv E s src) nv0 (styleName none (k + 1)) srcs nv →
      (srcs ≠ [] ∨ ∃ st, b.state = some st) →
      nv0.inv.type = some (typeUri (if k = 0 then o.specVersion else c!"1.1")) →
      (∀ a ∈ recs, ∀ c ∈ listed a.m, c ∈ listed m) →
      (∀ a ∈ recs, a.inv.id = nv0.inv.id ∧ a.inv.contentDirectory = nv0.inv.contentDirectory) →
      nv0.inv.id = o.id → (∀ i < k + 1, metaAt nv0.inv (styleName none (i + 1)) = some (metadata (i + 1))) →
      (∀ s', (∀ i q, i ≤ k → look s' (base ++ styleName none i :: q) = look s (base ++ styleName none i :: q)) →
        ContentOK E s' base o.digestAlgorithm nv0.inv.contentDirectoryToUse m (Dict.keys vs) (versionTrees s0 (absComps E.cwd srcdir) k) ∧
        StatesOK E o.digestAlgorithm vs (versionTrees s0 (absComps E.cwd srcdir) k) ∧ FixityContent E s' base nv0.inv.fixity ∧
        ∀ t ∈ versionTrees s0 (absComps E.cwd srcdir) k, t.OK) →
      ∃ r, BuildState E o metadata base (absComps E.cwd srcdir) s0 s' (k + 1) (some nv.inv) (recs ++ [r]) := by
    intro nv0 m vs b srcs hsrc g hcd hnorm hsource hadded hst htype hmono hsame hid hmetas hdesc
    have hq : QueueReady (styleName none (k + 1)) nv.filesToCopy := g.queueReady hadded hsource.names hx hcd
    have W := run_putBuilt_inv (head := styleName none (k + 1)) hw hb.isDir (styleName_safe _ _) hq habs (by
      intro e he
      obtain ⟨r, b, hf, hj⟩ := (hsource.files e.1).mp (hadded.queueDone e he)
      rw [hj, resolve_join src ((treeOK_below hw src).names r b hf).2, hsrc, List.append_assoc]
      exact hapart.below _) hr
    have hframe : ∀ i q, i ≤ k → look s' (base ++ styleName none i :: q) = look s (base ++ styleName none i :: q) := by
      intro i q hi
      refine W.rest _ ?_
      intro hp
      rw [show base ++ [styleName none (k + 1)] = base ++ (styleName none (k + 1) :: []) from rfl,
        List.prefix_append_right_inj, List.cons_prefix_cons] at hp
      have := styleName_inj hp.1
      omega
    obtain ⟨d1, d2, d3, d4⟩ := hdesc s' hframe
    have key := hb.step hhash (s' := s') (src := src) (nv0 := nv0) (nv := nv) (m := m) (vs := vs) (b := b) (srcs := srcs)
    rw [hlenT] at key
    obtain ⟨r, hri, hbuilt⟩ := key g hcd d1 d2 d3 d4 hsource hadded
      (by rw [hnorm]; rw [← hsrc] at hnames; exact hsource.newlines hnames) hst hq W htype hmono hsame
    refine ⟨r, ?_, ?_, ?_, ?_, h.wf0, ?_⟩
    · rw [versionTrees_succ, ← htree, ← hsrc]
      exact hbuilt
    · rw [List.getLast?_concat, Option.map_some, hri]
    · intro q hn
      rw [W.rest q (fun hp => hn ((List.prefix_append _ _).trans hp)), h.elsewhere q hn]
    · intro r' hr'
      rw [List.getLast?_concat] at hr'
      cases hr'
      rw [hri, id_added hadded]
      refine ⟨hid, fun i hi => ?_⟩
      rw [metaAt_added hadded]
      exact hmetas i hi
    · rw [List.map_append, List.map_singleton, hri]
      have hlen : (recs.map (·.inv)).length = k := by rw [List.length_map, hb.length, hlenT]
      obtain ⟨_, hdir, nv1, hstart, hadd⟩ := buildPrepare_ok hprep
      have hdir0 : look s0 (absComps E.cwd srcdir ++ [unpaddedName (k + 1)]) = some .dir := by
        rw [← h.elsewhere _ (hapart.below _), ← hsrc]; exact hdir
      refine h.prepared.snoc (nv0 := nv1) ?_ ?_ ?_
      · rw [hlen, List.getLast?_map, ← h.inv_eq]; exact hstart
      · rw [hlen]; exact hdir0
      · rw [hsrc] at hdir hadd
        rw [hlen, ← addFromSrcdir_congr hw h.wf0 hdir hdir0 (by rw [htree]; exact fun _ _ => Iff.rfl)]
        exact hadd
  have hblock : ({ metadata (k + 1) with state := none } : VBlock) = metadata (k + 1) := by
    have := hmeta.noState _ rfl
    cases hm : metadata (k + 1)
    rw [hm] at this
    simp_all
  unfold buildPrepare at hprep
  cases k with
  | zero =>
    rw [if_pos (show unpaddedName (0 + 1) = c!"v1" by decide)] at hprep
    obtain ⟨nv0, srcs, hff⟩ := prepareFirst_ok hw ho hmeta hprep
    have hrecs : recs = [] := List.length_eq_zero_iff.mp (by rw [hb.length, hlenT])
    subst hrecs
    have hsrc := hff.src_eq
    rw [hjoin] at hsrc
    have hne := hff.source.ne_nil (by rw [hsrc]; exact hfile rfl)
    refine finish hsrc hff.ground (by rw [hff.contentDirectory]; exact ho.contentDirectory.1) hff.norm hff.source hff.added
      (Or.inl hne) (by rw [hff.type]; rfl) (by simp) (by simp) hff.id ?_ ?_
    · intro i hi
      have hi0 : i = 0 := by omega
      subst hi0
      unfold metaAt Inv.versionsD
      rw [hff.ground.versions]
      show Option.map _ (Dict.get? (Dict.set [] (styleName none (0 + 1)) (metadata (0 + 1))) _) = _
      rw [Dict.get?_set, if_pos rfl]
      exact congrArg some hblock
    · intro s' _
      refine ⟨by intro d c hl; exact absurd hl (Lists_nil _ _), by intro k t hk; simp [versionTrees] at hk, ?_, by simp [versionTrees]⟩
      intro fx a fm hfx hm d c hl
      obtain ⟨_, k2⟩ := hff.ground.fixity fx hfx
      have := (k2 a fm hm).2.2.2.2 c (mem_listed.mpr ⟨d, hl⟩)
      simp [listed] at this
  | succ j =>
    rw [if_neg (by
      intro he
      have := unpaddedName_inj (m := j + 1 + 1) (n := 1) he
      omega)] at hprep
    split at hprep
    · cases hprep
    rename_i src' hopen
    obtain ⟨hsrc, hsd⟩ := fswOpen_ok hopen
    obtain ⟨front, rl, hrecs, hvl⟩ := hb.last (by
      intro he
      have := congrArg List.length he
      rw [hlenT] at this
      cases this)
    have hlast : recs.getLast? = some rl := by rw [hrecs]; simp
    rw [h.inv_eq, hlast] at hprep
    dsimp only [Option.map_some] at hprep
    split at hprep
    · cases hprep
    rename_i nv0 hnext
    split at hprep
    · cases hprep
    rename_i nv' hadd
    cases hprep
    have hdl := hvl.describes
    have halgl : rl.alg = o.digestAlgorithm := hb.alg rl (by rw [hrecs]; simp)
    rw [halgl] at hdl
    have hp := hdl.parsed
    rw [hlenT] at hp
    have g := ground_next hp (sv := c!"1.1") (by decide) hmeta hlim hnext
    obtain ⟨srcs, hsource, hadded⟩ := addFromSrcdir_ok hw hsd g.building ⟨_, g.manifest⟩ g.queue hadd
    obtain ⟨_, type, htype, hnv0⟩ := nextVersion_ok hp.numbered hnext
    have hcd0 : nv0.inv.contentDirectory = rl.inv.contentDirectory := by rw [hnv0]; rfl
    have hid0 : nv0.inv.id = rl.inv.id := by rw [hnv0]; rfl
    have hfx0 : nv0.inv.fixity = rl.inv.fixity := by rw [hnv0]; rfl
    have hcdu0 : nv0.inv.contentDirectoryToUse = rl.inv.contentDirectoryToUse := by
      unfold Inv.contentDirectoryToUse
      rw [hcd0]
    have hty0 : nv0.inv.type = some (typeUri c!"1.1") := by
      have e : nv0.inv.type = type := by rw [hnv0]; rfl
      rw [e]
      rcases htype with ⟨h1, h2⟩ | ⟨_, _, _, _, h2⟩
      · obtain ⟨sv, hsv, htsv⟩ : ∃ sv ∈ supported, rl.inv.type = some (typeUri sv) := by
          refine ⟨_, ?_, hvl.type⟩
          split
          · exact ho.specVersion
          · decide
        rw [specVersion_uri htsv hsv] at h1
        cases h1
        rw [h2, htsv]
      · rw [h2]; rfl
    obtain ⟨hsaid1, hsaid2⟩ := h.said rl hlast
    refine finish (by rw [hsrc, hjoin]) g (by rw [hcdu0]; exact hdl.contentDirectory) (by rw [hnv0]) hsource hadded
      (Or.inr ⟨[], rfl⟩) (by rw [hty0, if_neg (by omega)]) ?_ ?_ (by rw [hid0, hsaid1]) ?_ ?_
    · intro a ha c hc
      have hm := hb.mono
      rw [hrecs] at hm ha
      rw [List.pairwise_append] at hm
      rcases List.mem_append.mp ha with ha | ha
      · exact hm.2.2 a ha rl (by simp) c hc
      · rw [List.mem_singleton.mp ha] at hc
        exact hc
    · intro a ha
      rw [hid0, hcd0]
      exact hb.same a ha rl (by rw [hrecs]; simp)
    · intro i hi
      rw [hnv0]
      unfold metaAt withVersion
      show Option.map _ (Dict.get? (Dict.set rl.inv.versionsD _ _) _) = _
      rw [Dict.get?_set]
      by_cases he : i = j + 1
      · subst he
        rw [if_pos rfl]
        simp only [Option.map_some, Option.getD_some]
        exact congrArg some hblock
      · rw [if_neg (fun h => he (by have := styleName_inj h; omega))]
        exact hsaid2 i (by omega)
    · intro s' hframe
      have hd' : Describes E s' base (versionTrees s0 (absComps E.cwd srcdir) (j + 1)) rl.inv o.digestAlgorithm rl.m rl.vs := by
        refine hdl.frame (fun v hv' q _ => ?_)
        obtain ⟨i, _, hi, rfl⟩ := (hdl.parsed.good.names.2.2.2 v).mp hv'
        rw [hlenT] at hi
        exact hframe i q hi
      exact ⟨by rw [hcdu0]; exact hd'.content, hd'.states, by rw [hfx0]; exact hd'.fixity, hd'.ok⟩

/-- The loop. -/
theorem BuildState.loop {E : Env} (hhash : HashLib E.raw) (hcwd : ∀ w ∈ E.cwd, SafeName w) {o : Obj} (ho : GoodSettings o)
    {metadata : Nat → VBlock} {base : Path} {srcdir : Str} (hapart : ApartDirs (absComps E.cwd srcdir) base) {s0 : FS} {n : Nat}
    (hmeta : ∀ k < n, GoodMeta (some (metadata (k + 1)))) (hlim : n ≤ 99999)
    (hfile : ∃ r b, FileBelow s0 (absComps E.cwd srcdir ++ [c!"v1"]) r b)
    (hnames : ∀ t ∈ versionTrees s0 (absComps E.cwd srcdir) n, NamesAllowed o t) : ∀ (l : List (Nat × Str)) {s s' : FS} {k : Nat}
    {inv inv' : Option Inv} {recs : List Rec}, BuildState E o metadata base (absComps E.cwd srcdir) s0 s k inv recs → k + l.length = n →
    (∀ i x, l[i]? = some x → x = (k + i + 1, unpaddedName (k + i + 1))) →
    run (buildLoop E o srcdir metadata (some base) l inv) s = (s', .ok inv') →
    ∃ recs', BuildState E o metadata base (absComps E.cwd srcdir) s0 s' n inv' recs'
  | [], s, s', k, inv, inv', recs, h, hk, _, hr => by
    cases hr
    cases hk
    exact ⟨recs, h⟩
  | x :: l, s, s', k, inv, inv', recs, h, hk, hl, hr => by
    have hx := hl 0 x rfl
    subst hx
    unfold buildLoop at hr
    obtain ⟨s1, ⟨src, nv⟩, h1, hr⟩ := run_bind_inv hr
    rw [run_look] at h1
    obtain ⟨hs1, hprep⟩ := Prod.mk.inj h1
    subst hs1
    obtain ⟨s2, _, h2, hr⟩ := run_bind_inv hr
    rw [List.length_cons] at hk
    obtain ⟨r, hstep⟩ := h.step hhash hcwd ho hapart (hmeta k (by omega)) (by omega) (by rintro rfl; exact hfile)
      (hnames _ (List.mem_map.mpr ⟨k, List.mem_range.mpr (by omega), rfl⟩)) hprep h2
    refine BuildState.loop hhash hcwd ho hapart hmeta hlim hfile hnames l hstep (by omega) ?_ hr
    intro i x hi
    have := hl (i + 1) x (by simpa using hi)
    rw [this, show k + (i + 1) = k + 1 + i by omega]

/-- What a successful `build` leaves, and how the inventories came about. -/
theorem sound_build_prepared {E : Env} (hhash : HashLib E.raw) (hword : WordClass E.isWord) (hcwd : ∀ w ∈ E.cwd, SafeName w) {o : Obj}
    (ho : GoodSettings o) {srcdir objdir : Str} {metadata : Nat → VBlock} {s s' : FS} (hw : s.WF) {n : Nat}
    (hsources : VersionSources s (absComps E.cwd srcdir) n) (hmeta : ∀ k < n, GoodMeta (some (metadata (k + 1))))
    (hvac : Vacant s (absComps E.cwd objdir)) (hout : ¬ absComps E.cwd srcdir <+: absComps E.cwd objdir)
    (hfile : ∃ r b, FileBelow s (absComps E.cwd srcdir ++ [c!"v1"]) r b)
    (hnames : ∀ t ∈ versionTrees s (absComps E.cwd srcdir) n, NamesAllowed o t) {inv : Option Inv}
    (hr : run (build E o srcdir metadata (some objdir)) s = (s', .ok inv)) :
    ∃ recs r, inv = some r.inv ∧ recs.getLast? = some r ∧
      Sound E s' (absComps E.cwd objdir) o.specVersion (versionTrees s (absComps E.cwd srcdir) n) recs ∧
      r.inv.id = o.id ∧ (∀ i < n, metaAt r.inv (styleName none (i + 1)) = some (metadata (i + 1))) ∧
      (∀ q, ¬ absComps E.cwd objdir <+: q → look s' q = look s q) ∧
      Prepared E o metadata s (absComps E.cwd srcdir) (recs.map (·.inv)) := by
  generalize hbase : absComps E.cwd objdir = base at hvac hout ⊢
  have hdir1 : look s (absComps E.cwd srcdir ++ [c!"v1"]) = some .dir := by
    obtain ⟨r, b, h1, h2⟩ := hfile
    exact look_above hw r h1 h2
  have hsd : look s (absComps E.cwd srcdir) = some .dir := look_above hw _ (by simp) hdir1
  have hapart : ApartDirs (absComps E.cwd srcdir) base := by
    refine ⟨hout, ?_⟩
    rintro ⟨t, ht⟩
    rw [← ht, List.append_assoc, hvac.2 _ (by simp)] at hdir1
    cases hdir1
  unfold build at hr
  split at hr
  · cases hr
  obtain ⟨s1, b1, h1, hr⟩ := run_bind_inv hr
  obtain ⟨s1', b1', h1', h1''⟩ := run_bind_inv h1
  obtain ⟨hb, w1, _, _, l1⟩ := run_openObjCreate hcwd hw h1'
  have e1 : (s1', (Except.ok (some b1') : Py (Option Path))) = (s1, .ok b1) := h1''
  cases e1
  rw [hbase] at hb
  subst hb
  have hd1 : look s1 b1' = some .dir := by
    rw [l1]
    split
    · rfl
    · rename_i h
      rcases hvac.1 with h' | h'
      · exact absurd ⟨rfl, h'⟩ h
      · exact h'
  have k1 : ∀ q, q ≠ b1' → look s1 q = look s q := by
    intro q hq
    rw [l1, if_neg]
    rintro ⟨h, _⟩; exact hq h
  have k1' : ∀ q, look s1 (absComps E.cwd srcdir ++ q) = look s (absComps E.cwd srcdir ++ q) := by
    intro q
    refine k1 _ ?_
    rintro he
    exact hapart.below q (by rw [he]; exact List.prefix_rfl)
  obtain ⟨s2, vs, h2, hr⟩ := run_bind_inv hr
  rw [run_look] at h2
  obtain ⟨hs2, hvs⟩ := Prod.mk.inj h2
  subst hs2
  have hsd1 : look s1 (absComps E.cwd srcdir) = some .dir := by
    have := k1' []
    rw [List.append_nil] at this
    rw [this]; exact hsd
  have hsources1 : VersionSources s1 (absComps E.cwd srcdir) n := by
    intro w
    rw [← hsources w]
    unfold VersionSource
    rw [k1']
  have hvs' : vs = (List.range n).map (fun k => (k + 1, unpaddedName (k + 1))) := by
    unfold fswOpen at hvs
    dsimp only at hvs
    rw [if_pos (by rw [isdir_iff]; exact hsd1)] at hvs
    dsimp only at hvs
    rw [versionDirs_sources w1 hsd1 hsources1] at hvs
    cases hvs
    rfl
  subst hvs'
  obtain ⟨s3, inv3, h3, hr⟩ := run_bind_inv hr
  have hinit : BuildState E o metadata b1' (absComps E.cwd srcdir) s s1 0 none [] := by
    refine ⟨⟨w1, hd1, rfl, by simp, List.Pairwise.nil, by simp, by simp, ?_⟩, rfl, ?_, by simp, hw, .nil⟩
    · intro w q hl
      exfalso
      refine hl ?_
      rw [k1 _ (by simp), hvac.2 _ (by simp)]
    · intro q hq
      exact k1 q (by rintro rfl; exact hq List.prefix_rfl)
  obtain ⟨recs, B⟩ := BuildState.loop hhash hcwd ho hapart hmeta hsources.limit hfile hnames _ hinit (by simp) (by
    intro i x hi
    rw [List.getElem?_map] at hi
    cases hx : (List.range n)[i]? with
    | none => rw [hx] at hi; cases hi
    | some j =>
      rw [hx] at hi
      have := List.getElem?_eq_some_iff.mp hx
      obtain ⟨_, hj⟩ := this
      rw [List.getElem_range] at hj
      subst hj
      cases hi
      simp) h3
  have hb := B.built
  have hlenT := versionTrees_length s (absComps E.cwd srcdir) n
  obtain ⟨s4, _, h4, hr⟩ := run_bind_inv hr
  obtain ⟨hd3, hnd3, rfl⟩ := run_writeDeclaration_inv hword ho.specVersion h4
  obtain ⟨s5, _, h5, hr⟩ := run_bind_inv hr
  cases hr
  have hD : b1' ++ [declarationName o.specVersion] ≠ [] := by simp
  have hsafe : ∀ w ∈ b1', SafeName w := look_names w1 hd1
  have w4 : FS.WF (Dict.set s3 (b1' ++ [declarationName o.specVersion]) (.file (utf8 (c!"ocfl_object_" ++ o.specVersion ++ c!"\n")))) := by
    refine WF_set hb.wf hD (by rw [List.dropLast_concat]; exact hd3) ?_ (fun h => absurd h hnd3)
    intro w hm
    rcases List.mem_append.mp hm with hm | hm
    · exact hsafe w hm
    · rw [List.mem_singleton.mp hm]; exact declaration_safe ho.specVersion
  have hd4 : look (Dict.set s3 (b1' ++ [declarationName o.specVersion]) (.file (utf8 (c!"ocfl_object_" ++ o.specVersion ++ c!"\n")))) b1' = some .dir := by
    rw [look_set hD, if_neg (Ne.symm concat_ne_self)]; exact hd3
  have hn0 : 1 ≤ n := by
    have : VersionSource s (absComps E.cwd srcdir) c!"v1" 1 := ⟨hdir1, versionNo_iff.mpr (by decide)⟩
    exact (hsources.number this).2.1.trans (hsources.number this).2.2
  obtain ⟨front, rl, hrecs, hvl⟩ := hb.last (by
    intro he
    have := congrArg List.length he
    rw [hlenT] at this
    have : n = 0 := this
    omega)
  have hlast : recs.getLast? = some rl := by rw [hrecs]; simp
  have hinv : inv = some rl.inv := by rw [B.inv_eq, hlast]; rfl
  subst hinv
  obtain ⟨i5, -⟩ := run_writeInv_inv VDir.root w4 hd4 h5
  rw [List.append_nil] at i5
  have hi : (inventoryFilename : Str).head? = some 'i' := rfl
  have hsi : (sidecarName o.digestAlgorithm : Str).head? = some 'i' := rfl
  have hkeep : ∀ w q, w ≠ declarationName o.specVersion ∨ q ≠ [] → w ≠ inventoryFilename ∨ q ≠ [] → w ≠ sidecarName o.digestAlgorithm ∨ q ≠ [] →
      look s' (b1' ++ w :: q) = look s3 (b1' ++ w :: q) := by
    have hne : ∀ {w x : Str} {q : Path}, w ≠ x ∨ q ≠ [] → b1' ++ w :: q ≠ b1' ++ [x] := by
      rintro w x q h he
      rw [List.append_cancel_left_eq] at he
      obtain ⟨e1, e2⟩ := List.cons.inj he
      rcases h with h | h
      · exact h e1
      · exact h e2
    intro w q n1 n2 n3
    rw [i5.rest _ (hne n2) (hne n3) (by simp), look_set hD, if_neg (hne n1)]
  have hkeepv : ∀ i q, look s' (b1' ++ styleName none i :: q) = look s3 (b1' ++ styleName none i :: q) := by
    intro i q
    have hs := styleName_head none i
    refine hkeep _ q (Or.inl ?_) (Or.inl ?_) (Or.inl ?_) <;> (intro he; rw [he] at hs; cases hs)
  have halg : rl.alg = o.digestAlgorithm := hb.alg rl (by rw [hrecs]; simp)
  have hout' : ∀ q, ¬ b1' <+: q → look s' q = look s q := by
    intro q hq
    rw [i5.rest q, look_set hD, if_neg, B.elsewhere q hq]
    all_goals rintro rfl
    · exact hq (List.prefix_append _ _)
    · exact hq (List.prefix_append _ _)
    · exact hq (List.prefix_append _ _)
    · exact hq List.prefix_rfl
  refine ⟨recs, rl, rfl, hlast, ⟨i5.wf, i5.isDir, hb.length, by rw [hrecs]; simp, ?_, hb.mono, hb.same, ?_, ho.specVersion, ?_, ?_⟩,
    (B.said rl hlast).1, (B.said rl hlast).2, hout', B.prepared⟩
  · intro k r hk
    have hvk := hb.versions k r hk
    refine hvk.frame ?_
    rintro w q (rfl | hw')
    · exact hkeepv _ q
    · obtain ⟨i, _, hi, rfl⟩ := (hvk.describes.parsed.good.names.2.2.2 w).mp hw'
      exact hkeepv i q
  · intro r hr
    rw [hlast] at hr
    cases hr
    obtain ⟨dg, hdg1, hdg2⟩ := i5.digest
    exact ⟨i5.inventory, dg, by rw [halg]; exact hdg1, by rw [halg]; exact hdg2⟩
  · rw [i5.rest _ (Ne.symm (declaration_ne hi (by decide))) (Ne.symm (declaration_ne hsi (by decide))) concat_ne_self,
      look_set hD, if_pos rfl]
  · intro w q hl
    by_cases hq : q = []
    · by_cases h1 : w = inventoryFilename
      · exact Or.inr ⟨hq, Or.inl h1⟩
      by_cases h2 : w = declarationName o.specVersion
      · exact Or.inr ⟨hq, Or.inr (Or.inl h2)⟩
      by_cases h3 : w = sidecarName o.digestAlgorithm
      · exact Or.inr ⟨hq, Or.inr (Or.inr ⟨rl, hlast, by rw [halg]; exact h3⟩)⟩
      rw [hkeep w q (Or.inl h2) (Or.inl h1) (Or.inl h3)] at hl
      exact Or.inl (hb.only w q hl)
    · rw [hkeep w q (Or.inr hq) (Or.inr hq) (Or.inr hq)] at hl
      exact Or.inl (hb.only w q hl)

/-- What a successful `build` leaves. -/
theorem sound_build {E : Env} (hhash : HashLib E.raw) (hword : WordClass E.isWord) (hcwd : ∀ w ∈ E.cwd, SafeName w) {o : Obj}
    (ho : GoodSettings o) {srcdir objdir : Str} {metadata : Nat → VBlock} {s s' : FS} (hw : s.WF) {n : Nat}
    (hsources : VersionSources s (absComps E.cwd srcdir) n) (hmeta : ∀ k < n, GoodMeta (some (metadata (k + 1))))
    (hvac : Vacant s (absComps E.cwd objdir)) (hout : ¬ absComps E.cwd srcdir <+: absComps E.cwd objdir)
    (hfile : ∃ r b, FileBelow s (absComps E.cwd srcdir ++ [c!"v1"]) r b)
    (hnames : ∀ t ∈ versionTrees s (absComps E.cwd srcdir) n, NamesAllowed o t) {inv : Option Inv}
    (hr : run (build E o srcdir metadata (some objdir)) s = (s', .ok inv)) :
    ∃ recs r, inv = some r.inv ∧ recs.getLast? = some r ∧
      Sound E s' (absComps E.cwd objdir) o.specVersion (versionTrees s (absComps E.cwd srcdir) n) recs ∧
      r.inv.id = o.id ∧ (∀ i < n, metaAt r.inv (styleName none (i + 1)) = some (metadata (i + 1))) ∧
      ∀ q, ¬ absComps E.cwd objdir <+: q → look s' q = look s q := by
  obtain ⟨recs, r, h1, h2, h3, h4, h5, h6, _⟩ := sound_build_prepared hhash hword hcwd ho hw hsources hmeta hvac hout hfile hnames hr
  exact ⟨recs, r, h1, h2, h3, h4, h5, h6⟩

end Ocfl
