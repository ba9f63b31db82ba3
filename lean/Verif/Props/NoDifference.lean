import Verif.Proofs.NoDifference
import Verif.Proofs.Crash
import Verif.Props.Crash
import Verif.Props.HistoryLimits
import Verif.Props.ChangeDigest

/-!
# C26: an update without changes is not written
-/

namespace Ocfl

open Spec FS Prog Ocfl.Inv

/-- An update that was prepared, and the report on it. -/
theorem prepareUpdate_diff {E : Env} (hlib : E.lib.Lawful) {o : Obj} {objdir : Str} {srcdir : Option Str}
    {metadata : Option VBlock} {s : FS} {x : Option (Path × Path × NV)}
    (h : prepareUpdate E o objdir srcdir metadata true s = .ok x) :
    ∃ sd, srcdir = some sd ∧ ∃ src nv0 nv inv0 alg m vs style n inv1 r,
      Started E o objdir sd (some o.digestAlgorithm) o.fixity metadata false s (absComps E.cwd objdir) src nv0 inv0 alg m vs style n inv1 ∧
      addFromSrcdir E s src nv0 = .ok nv ∧ nv.diffWithPrevious = .ok r ∧
      (x = none ∧ r = [] ∨ x = some (absComps E.cwd objdir, src, nv) ∧ r ≠ []) := by
  unfold prepareUpdate at h
  split at h
  · cases h
  · rename_i base' src' nv0 hst
    obtain ⟨sd, rfl, inv0, alg, m, vs, style, n, inv1, hs⟩ := startNewVersion_ok hlib hst
    have hb := hs.base_eq
    subst hb
    split at h
    · cases h
    · rename_i nv hadd
      rw [if_pos rfl] at h
      split at h
      · cases h
      · rename_i hd
        cases h
        exact ⟨sd, rfl, src', nv0, nv, inv0, alg, m, vs, style, n, inv1, [], hs, hadd, hd, Or.inl ⟨rfl, rfl⟩⟩
      · rename_i a l hd
        cases h
        exact ⟨sd, rfl, src', nv0, nv, inv0, alg, m, vs, style, n, inv1, a :: l, hs, hadd, hd, Or.inr ⟨rfl, by simp⟩⟩

/-- A version that was written is new. -/
theorem writeNewVersion_new {E : Env} {o : Obj} {base src : Path} {nv : NV} {head : Str} {s s' : FS} {inv : Inv} (hw : s.WF)
    (hb : look s base = some .dir) (hhead : nv.inv.head = some head) (hh : SafeName head) (hv : head.head? = some 'v')
    (hq : QueueInside head nv.filesToCopy) (hold : ∀ old, nv.oldDigestAlgorithm = some old → '/' ∉ old)
    (hr : run (writeNewVersion E o base src nv) s = (s', .ok inv)) :
    look s (base ++ [head]) = none ∧ look s' (base ++ [head]) = some .dir := by
  have hsb := look_names hw hb
  rw [writeNewVersion_eq hhead] at hr
  obtain ⟨s4, _, h4, hr⟩ := run_bind_inv hr
  obtain ⟨hw4, hb4, hvc⟩ := putVersion_complete hw hb hh hq hold h4
  refine ⟨?_, ?_⟩
  rotate_left
  · obtain ⟨s5, _, h5, hr⟩ := run_bind_inv hr
    have hr : (s5, Except.ok nv.inv) = (s', (.ok inv : Py Inv)) := hr
    cases hr
    have := (only_writeInvRoot (E := E) (o := o) (base := base) (inv := some nv.inv)).run_frame (s := s4) (q := base ++ [head])
      (hrootframe hv List.prefix_rfl)
    rw [h5] at this
    rw [this]
    exact look_prefix hw4 (q := base ++ [head, inventoryFilename]) ⟨[inventoryFilename], by simp⟩ (by simp) hvc.inventory
  unfold putVersion at h4
  obtain ⟨s1, _, h1, h4⟩ := run_bind_inv h4
  obtain ⟨w1, r1, k1⟩ := run_removeOldSidecar_inv hold hw h1
  obtain ⟨s2, _, h2, h4⟩ := run_bind_inv h4
  rw [resolve_name base hh] at h2
  have hnr : ∀ {q}, (∀ alg, q ≠ base ++ [sidecarName alg]) → ¬ removedSidecar base nv q := by
    rintro q hq ⟨old, _, _, rfl⟩; exact hq old rfl
  have habs1 : look s1 (base ++ [head]) = none := by
    by_contra hne
    rw [run_makedir_exists hne] at h2
    cases h2
  have habs : look s (base ++ [head]) = none := by
    rw [← k1 _ (hnr (fun alg => Ne.symm (sidecar_ne_head hv)))]; exact habs1
  exact habs

/-- **C26**: an update with `abort_if_no_difference` that comes to an end without an exception gives
`None` exactly if the source directory has the logical paths of the last version, each with the digest
it has there; then nothing is written, otherwise there is a new version directory. If the update changes
the algorithm, the digests compared are those of the stored content files under the new algorithm (for
manifests without two digests for the same content, see C19). -/
theorem C26_partial {E : Env} (hlib : E.lib.Lawful) (hhash : HashLib E.raw) {o : Obj} {objdir : Str} {srcdir : Option Str}
    {metadata : Option VBlock} {s s' : FS} (hw : s.WF) {x : Option Inv}
    (hr : run (addVersionWithContent E o objdir srcdir metadata true) s = (s', .ok x)) :
    ∃ sd inv alg head, srcdir = some sd ∧ parseInventory E (absComps E.cwd objdir) s = .ok inv ∧ inv.digestAlgorithm = some alg ∧
      inv.head = some head ∧
      (x = none → s' = s) ∧
      (x ≠ none → ∃ v, v ∉ Dict.keys inv.versionsD ∧ look s (absComps E.cwd objdir ++ [v]) = none ∧
        look s' (absComps E.cwd objdir ++ [v]) = some .dir) ∧
      (o.digestAlgorithm = alg →
        (x = none ↔ ∀ d p, SourceLists E s (absComps E.cwd sd) alg d p ↔ Lists (inv.stateOf head) d p)) ∧
      (o.digestAlgorithm ≠ alg → TellsApart E s (absComps E.cwd objdir) o.digestAlgorithm inv.manifestD →
        (x = none ↔ ∀ d p, SourceLists E s (absComps E.cwd sd) o.digestAlgorithm d p ↔
          ∃ c b, Resolves inv.manifestD (inv.stateOf head) p c ∧ look s (FS.resolve (absComps E.cwd objdir) c) = some (.file b) ∧
            fileDigest E.raw o.digestAlgorithm b = some d)) := by
  unfold addVersionWithContent at hr
  obtain ⟨s0, r0, h0, hr⟩ := run_bind_inv hr
  rw [run_look] at h0
  obtain ⟨hs0, hprep⟩ := Prod.mk.inj h0
  clear h0
  subst hs0
  obtain ⟨sd, rfl, src, nv0, nv, inv0, alg, m, vs, style, n, inv1, r, hst, hadd, hdiff, hx⟩ := prepareUpdate_diff hlib hprep
  have hg := hst.parsed.good
  have hnone : x = none ↔ r = [] := by
    rcases hx with ⟨rfl, hx⟩ | ⟨rfl, hx⟩
    · cases hr
      simp [hx]
    · obtain ⟨s2, inv2, hwr, hr⟩ := run_bind_inv hr
      have hr : (s2, Except.ok (some inv2)) = (s', (.ok x : Py (Option Inv))) := hr
      cases hr
      simp [hx]
  have hd := hst.diff hw hadd hdiff
  have hsrc := hst.src_eq
  rw [hsrc] at hd
  have hd : r = [] ↔ ∀ d p, SourceLists E s (absComps E.cwd sd) o.digestAlgorithm d p ↔ Lists (inv1.stateOf (styleName style n)) d p := hd
  refine ⟨sd, inv0, alg, styleName style n, rfl, hst.parse, hg.algorithm, hg.head, ?_, ?_, ?_, ?_⟩
  · intro hxn
    rcases hx with ⟨rfl, hx⟩ | ⟨rfl, hx⟩
    · cases hr; rfl
    · exact absurd (hnone.mp hxn) hx
  · intro hxn
    rcases hx with ⟨rfl, hx⟩ | ⟨rfl, hx⟩
    · exact absurd (hnone.mpr hx) hxn
    · obtain ⟨s2, inv2, hwr, hr⟩ := run_bind_inv hr
      have hr : (s2, Except.ok (some inv2)) = (s', (.ok x : Py (Option Inv))) := hr
      cases hr
      obtain ⟨h1, h2, h3, h4, h5⟩ := hst.confined
      have hc := hst.confined_source hhash hw hadd
      obtain ⟨k1, k2⟩ := writeNewVersion_new hw hst.base_dir hc.head_eq (styleName_safe _ _) (styleName_head _ _) hc.queue (by
        intro old ho
        rw [hc.old, h3] at ho
        cases ho
        exact h4) hwr
      exact ⟨_, hst.fresh, k1, k2⟩
  · intro he
    rw [hnone, hd, he]
    obtain ⟨_, _, _, h4, _⟩ := changeDigest_ok hst.change
    have h6 : inv1.versions = inv0.versions := by
      have := (h4 he).2
      rw [changeFixity_eq] at this
      exact this
    have : inv1.stateOf (styleName style n) = inv0.stateOf (styleName style n) := by
      rw [stateOf_versionsD, stateOf_versionsD]
      unfold Inv.versionsD
      rw [h6]
    rw [this]
  · intro hne hta
    rw [hg.manifestD] at hta ⊢
    obtain ⟨f, hrec, hren, _⟩ := changeDigest_recoded hg hne hst.change hta
    rw [hnone, hd]
    have hlist : ∀ d p, Lists (inv1.stateOf (styleName style n)) d p ↔
        ∃ c b, Resolves m (inv0.stateOf (styleName style n)) p c ∧ look s (FS.resolve (absComps E.cwd objdir) c) = some (.file b) ∧
            fileDigest E.raw o.digestAlgorithm b = some d := by
      intro d p
      rw [stateOf_versionsD inv1, stateOf_versionsD inv0, hg.versionsD, hrec.state, lists_recode]
      constructor
      · rintro ⟨d0, rfl, hl⟩
        have hk := hg.stateKeys hl
        obtain ⟨ps, hps⟩ := Dict.exists_of_mem_keys hk
        have hm := Dict.mem_of_get? hps
        obtain ⟨hn, hf⟩ := newDigest_ok.mp (hren _ hm)
        obtain ⟨c, hc⟩ := List.exists_mem_of_ne_nil _ hn
        obtain ⟨b, hb1, hb2⟩ := digestAt_ok.mp (hf c hc)
        exact ⟨c, b, ⟨d0, hl, ps, hm, hc⟩, hb1, hb2⟩
      · rintro ⟨c, b, ⟨d0, hl, ps, hm, hc⟩, hb1, hb2⟩
        obtain ⟨hn, hf⟩ := newDigest_ok.mp (hren _ hm)
        obtain ⟨b', hb1', hb2'⟩ := digestAt_ok.mp (hf c hc)
        rw [hb1] at hb1'
        cases hb1'
        rw [hb2] at hb2'
        exact ⟨d0, Option.some.inj hb2', hl⟩
    constructor
    · intro h d p
      rw [h, hlist]
    · intro h d p
      rw [h, hlist]

/-- **C26**, for objects made by the library: `None` exactly if the source tree is the tree of the last
version, file by file, also if the update would change the digest algorithm. -/
theorem C26_history {E : Env} (hlib : E.lib.Lawful) (hhash : HashLib E.raw) (hword : WordClass E.isWord)
    (hcwd : ∀ w ∈ E.cwd, SafeName w) {o : Obj} (halg : o.digestAlgorithm = c!"sha512" ∨ o.digestAlgorithm = c!"sha256")
    {objdir srcdir : Str} {metadata : Option VBlock} {trees : List Tree} {t : Tree} {s s' : FS}
    (h : History E (absComps E.cwd objdir) (trees ++ [t]) s)
    (hno : NoCollision E.raw (InTrees ((trees ++ [t]) ++ [FileBelow s (absComps E.cwd srcdir)]))) (hlen : (trees ++ [t]).length ≤ 99999) {x : Option Inv}
    (hr : run (addVersionWithContent E o objdir (some srcdir) metadata true) s = (s', .ok x)) :
    (x = none ↔ ∀ r b, FileBelow s (absComps E.cwd srcdir) r b ↔ t r b) ∧ (x = none → s' = s) := by
  have hno' := NoCollision.mono hno (fun b hb => InTrees.append hb)
  obtain ⟨dv, recs, hs⟩ := history_sound hlib hhash hword hcwd h hno' hlen
  obtain ⟨rl, hlast, hdl, hstored, _, _⟩ := hs.last
  obtain ⟨_, _, _, _, _, _, _, _, hsame, _⟩ := C26_partial hlib hhash hs.wf hr
  refine ⟨?_, hsame⟩
  clear hsame
  unfold addVersionWithContent at hr
  obtain ⟨s0, r0, h0, hr⟩ := run_bind_inv hr
  rw [run_look] at h0
  obtain ⟨hs0, hprep⟩ := Prod.mk.inj h0
  clear h0
  subst hs0
  obtain ⟨sd, hsd, src, nv0, nv, inv0, alg, m, vs, style, n, inv1, r, hst, hadd, hdiff, hx⟩ := prepareUpdate_diff hlib hprep
  cases hsd
  have hnone : x = none ↔ r = [] := by
    rcases hx with ⟨rfl, hx⟩ | ⟨rfl, hx⟩
    · cases hr
      simp [hx]
    · obtain ⟨s2, inv2, hwr, hr⟩ := run_bind_inv hr
      have hr : (s2, Except.ok (some inv2)) = (s', (.ok x : Py (Option Inv))) := hr
      cases hr
      simp [hx]
  have hinv0 : inv0 = rl.inv.sorted := by
    have := hst.parse
    rw [parse_written hlib hdl.parsed hstored.1] at this
    cases this
    rfl
  subst hinv0
  have hds := hdl.sorted
  have ealg : alg = rl.alg := by
    have := hst.parsed.good.algorithm
    rw [hds.parsed.good.algorithm] at this
    cases this
    rfl
  subst ealg
  have ehead : styleName style n = styleName none (trees ++ [t]).length := by
    have := hst.parsed.good.head
    rw [hds.parsed.good.head] at this
    exact (Option.some.inj this).symm
  obtain ⟨m1, vs1, hd1, _⟩ := hds.recode hhash hno' halg hst.change
  have hd := hst.diff hs.wf hadd hdiff
  have hsrc := hst.src_eq
  rw [hsrc, ehead, hd1.parsed.good.stateIn] at hd
  rw [List.length_append, List.length_singleton] at hd
  have hd : r = [] ↔ ∀ d p, SourceLists E s (absComps E.cwd srcdir) o.digestAlgorithm d p ↔ Lists (stateIn vs1 (styleName none (trees.length + 1))) d p := hd
  have hstate := (hd1.states trees.length t (by simp)).2
  have hok := treeOK_below hs.wf (absComps E.cwd srcdir)
  have hokt : t.OK := hd1.ok t (by simp)
  rw [hnone, hd]
  have key : ∀ (t1 t2 : Tree), t1.OK → t2.OK → (∀ b, (∃ r, t1 r b) ∨ (∃ r, t2 r b) → InTrees ((trees ++ [t]) ++ [FileBelow s (absComps E.cwd srcdir)]) b) →
      (∀ d p, (∃ r b, t1 r b ∧ p = pathOf r ∧ fileDigest E.raw o.digestAlgorithm b = some d) →
        ∃ r b, t2 r b ∧ p = pathOf r ∧ fileDigest E.raw o.digestAlgorithm b = some d) → ∀ r b, t1 r b → t2 r b := by
    intro t1 t2 ok1 ok2 hin hh r b hrb
    obtain ⟨d, hd⟩ : ∃ d, fileDigest E.raw o.digestAlgorithm b = some d := ⟨_, fileDigest_known E.raw halg b⟩
    obtain ⟨r', b', h1, h2, h3⟩ := hh d (pathOf r) ⟨r, b, hrb, rfl, hd⟩
    have e := pathOf_inj' (ok1.names r b hrb) (ok2.names r' b' h1) h2
    subst e
    have : b = b' := noCollision_digest hno halg (hin b (.inl ⟨r, hrb⟩)) (hin b' (.inr ⟨r, h1⟩)) (hd.trans h3.symm)
    subst this
    exact h1
  have hin1 : ∀ b r, FileBelow s (absComps E.cwd srcdir) r b → InTrees ((trees ++ [t]) ++ [FileBelow s (absComps E.cwd srcdir)]) b :=
    fun b r hb => ⟨_, by simp, r, hb⟩
  have hin2 : ∀ b r, t r b → InTrees ((trees ++ [t]) ++ [FileBelow s (absComps E.cwd srcdir)]) b :=
    fun b r hb => ⟨t, by simp, r, hb⟩
  constructor
  · intro hall r b
    constructor
    · exact key _ _ hok hokt (by rintro b (⟨r, hb⟩ | ⟨r, hb⟩); exact hin1 b r hb; exact hin2 b r hb)
        (fun d p hdp => (hstate d p).mp ((hall d p).mp hdp)) r b
    · exact key _ _ hokt hok (by rintro b (⟨r, hb⟩ | ⟨r, hb⟩); exact hin2 b r hb; exact hin1 b r hb)
        (fun d p hdp => (hall d p).mpr ((hstate d p).mpr hdp)) r b
  · intro hall d p
    rw [hstate]
    constructor
    · rintro ⟨r, b, h1, h2, h3⟩
      exact ⟨r, b, (hall r b).mp h1, h2, h3⟩
    · rintro ⟨r, b, h1, h2, h3⟩
      exact ⟨r, b, (hall r b).mpr h1, h2, h3⟩

/-! ### Examples and a counterexample -/

/-- The files below a directory with their relative paths, as a list. -/
def treeList (s : FS) (dir : Path) : List (Path × Bytes) :=
  s.filterMap (fun e => match e.2 with
    | .file b => if dir <+: e.1 ∧ e.1 ≠ dir then some (e.1.drop dir.length, b) else none
    | .dir => none)

theorem mem_treeList {s : FS} (hw : s.WF) {dir : Path} (hd : dir ≠ []) {r : Path} {b : Bytes} : (r, b) ∈ treeList s dir ↔ FileBelow s dir r b := by
  unfold treeList FileBelow
  rw [List.mem_filterMap]
  constructor
  · rintro ⟨⟨q, x⟩, hm, he⟩
    cases x with
    | dir => cases he
    | file b' =>
      dsimp only at he
      split at he
      · rename_i hc
        cases he
        obtain ⟨⟨t, rfl⟩, hne⟩ := hc
        rw [List.drop_left]
        refine ⟨?_, ?_⟩
        · rintro rfl; exact hne (by simp)
        · rw [look_ne (by intro e; exact hd (List.append_eq_nil_iff.mp e).1)]
          exact Dict.get?_of_mem hw.nk hm
      · cases he
  · rintro ⟨hne, hl⟩
    rw [look_ne (by intro e; exact hd (List.append_eq_nil_iff.mp e).1)] at hl
    refine ⟨(dir ++ r, .file b), Dict.mem_of_get? hl, ?_⟩
    dsimp only
    rw [if_pos ⟨List.prefix_append _ _, fun e => hne (List.append_right_eq_self.mp e)⟩, List.drop_left]

/-- What the update says. -/
def updateVerdict (p : Prog (Option Inv)) (s : FS) : Option Bool :=
  match (run p s).2 with
  | .ok x => some x.isSome
  | .error _ => none

theorem updateVerdict_none {p : Prog (Option Inv)} {s : FS} (h : updateVerdict p s = some false) : ∃ s', run p s = (s', .ok none) := by
  unfold updateVerdict at h
  split at h
  · rename_i x hx
    cases x with
    | none => exact ⟨(run p s).1, by rw [← hx]⟩
    | some i => cases h
  · cases h

theorem updateVerdict_some {p : Prog (Option Inv)} {s : FS} (h : updateVerdict p s = some true) : ∃ s' inv, run p s = (s', .ok (some inv)) := by
  unfold updateVerdict at h
  split at h
  · rename_i x hx
    cases x with
    | some i => exact ⟨(run p s).1, i, by rw [← hx]⟩
    | none => cases h
  · cases h

/-- An update from the unchanged source directory, with or without a change of the algorithm, writes
nothing; from a changed one, it adds a version. -/
example : (∃ s', run demoUpdate demoMade = (s', .ok none)) ∧ (∃ s', run demoRehash demoMade = (s', .ok none)) ∧
    (∃ s' inv, run demoUpdate demoChanged = (s', .ok (some inv))) ∧ (∃ s' inv, run demoRehash demoChanged = (s', .ok (some inv))) :=
  ⟨updateVerdict_none (by decide +kernel), updateVerdict_none (by decide +kernel), updateVerdict_some (by decide +kernel),
    updateVerdict_some (by decide +kernel)⟩

/-- The object of `demoCopied`, in which two digests stand for the same content, and that content in the
source directory. -/
def demoCopiedBoth : FS := Dict.set demoCopied [c!"w", c!"src", c!"d", c!"b"] (.file [1, 2, 3])

theorem demoCopiedBoth_wf : demoCopiedBoth.WF where
  nk := by decide +kernel
  noRoot := by decide +kernel
  parent := by decide +kernel
  names := by decide +kernel

/-- Is the source directory what `extract` gives, and is there a new version all the same? -/
def needless (s : FS) : Bool :=
  decide (updateVerdict demoRehash s = some true) && succeeded (run (extract demoEnv c!"obj" c!"head" c!"out") s) &&
  (treeList (run (extract demoEnv c!"obj" c!"head" c!"out") s).1 [c!"w", c!"out"]).all (fun e => decide (e ∈ treeList s [c!"w", c!"src"])) &&
  (treeList s [c!"w", c!"src"]).all (fun e => decide (e ∈ treeList (run (extract demoEnv c!"obj" c!"head" c!"out") s).1 [c!"w", c!"out"]))

theorem needless_spec {s : FS} (hw : s.WF) (hw' : (run (extract demoEnv c!"obj" c!"head" c!"out") s).1.WF) (h : needless s = true) :
    ∃ s' md s'' inv, run (extract demoEnv c!"obj" c!"head" c!"out") s = (s', .ok md) ∧
    (∀ r b, FileBelow s' (absComps demoEnv.cwd c!"out") r b ↔ FileBelow s (absComps demoEnv.cwd c!"src") r b) ∧
    run demoRehash s = (s'', .ok (some inv)) := by
  unfold needless at h
  simp only [Bool.and_eq_true, decide_eq_true_eq, List.all_eq_true] at h
  obtain ⟨⟨⟨h1, h2⟩, h3⟩, h4⟩ := h
  obtain ⟨s'', inv, hu⟩ := updateVerdict_some h1
  obtain ⟨md, he⟩ := succeeded_ok h2
  refine ⟨_, md, s'', inv, he, ?_, hu⟩
  intro r b
  have e1 : absComps demoEnv.cwd c!"out" = [c!"w", c!"out"] := by decide
  have e2 : absComps demoEnv.cwd c!"src" = [c!"w", c!"src"] := by decide
  rw [e1, e2, ← mem_treeList hw' (by simp), ← mem_treeList hw (by simp)]
  exact ⟨fun h => h3 _ h, fun h => h4 _ h⟩

/-- **C26** fails for an object in which two digests stand for the same content, when the algorithm is
changed: extracting the head gives exactly the source directory, but the update adds a version. -/
theorem C26_violated : ∃ s : FS, s.WF ∧ ∃ s' md s'' inv, run (extract demoEnv c!"obj" c!"head" c!"out") s = (s', .ok md) ∧
    (∀ r b, FileBelow s' (absComps demoEnv.cwd c!"out") r b ↔ FileBelow s (absComps demoEnv.cwd c!"src") r b) ∧
    run demoRehash s = (s'', .ok (some inv)) :=
  ⟨demoCopiedBoth, demoCopiedBoth_wf, needless_spec demoCopiedBoth_wf
    { nk := by decide +kernel, noRoot := by decide +kernel, parent := by decide +kernel, names := by decide +kernel } (by decide +kernel)⟩

/-- The hypotheses of `C26_history` hold of the example. -/
example : ∃ x s', run demoUpdate demoMade = (s', .ok x) ∧ (x = none ↔ ∀ r b, FileBelow demoMade (absComps demoEnv.cwd c!"src") r b ↔
    FileBelow demoFS (absComps demoEnv.cwd c!"src") r b) := by
  obtain ⟨s', h⟩ : ∃ s', run demoUpdate demoMade = (s', .ok none) := updateVerdict_none (by decide +kernel)
  refine ⟨none, s', h, (C26_history (trees := []) demoEnv_lawful demoRaw_hash demoWord_class demoEnv_cwd (.inr rfl) demo_history1 ?_ (by decide) h).1⟩
  refine noCollision_of (l := filesBelow demoFS [c!"w", c!"src"] ++ filesBelow demoMade [c!"w", c!"src"]) ?_ (by decide +kernel)
  intro t ht r b hb
  rcases List.mem_append.mp ht with ht | ht <;> (cases List.mem_singleton.mp ht)
  · exact List.mem_append_left _ (mem_filesBelow hb)
  · exact List.mem_append_right _ (mem_filesBelow hb)

end Ocfl
