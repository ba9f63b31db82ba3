import Verif.Proofs.BuildSucceeds
import Verif.Props.Apart
import Verif.Props.Build
import Verif.Props.CreateSucceeds

/-!
# When `build` succeeds
-/

namespace Ocfl

open Spec FS Prog

/-- **C114**: `build` cannot fail in the middle of an object. If the `Object` has an identifier and settings that
the library supports, the source has the version directories `v1`, ..., `v<n>` with a file in the first, the parent
of the object directory is there and nothing is in the way, then `build` returns an inventory; and every version of
the object that it leaves can be read back: `extract` succeeds and gives exactly the files of the version directory.

The two conditions on the name of the content directory are missing from the documentation, `C114_violated`. -/
theorem C114_partial {E : Env} (hlib : E.lib.Lawful) (hhash : HashLib E.raw) (hword : WordClass E.isWord) (hcwd : ∀ w ∈ E.cwd, SafeName w)
    {o : Obj} (ho : GoodSettings o) (hid : o.id ≠ none) (hnorm : o.norm = none ∨ o.norm = some c!"md5" ∨ o.norm = some c!"uri")
    (hci : o.contentDirectory ≠ inventoryFilename) (hcs : o.contentDirectory ≠ sidecarName o.digestAlgorithm)
    {srcdir objdir : Str} {metadata : Nat → VBlock} {s : FS} (hw : s.WF) {n : Nat}
    (hsources : VersionSources s (absComps E.cwd srcdir) n) (hmeta : ∀ k < n, GoodMeta (some (metadata (k + 1))))
    (hvac : Vacant s (absComps E.cwd objdir)) (hout : ¬ absComps E.cwd srcdir <+: absComps E.cwd objdir)
    (hpar : look s (absComps E.cwd (osPathSplit objdir).1) = some .dir)
    (hfile : ∃ r b, FileBelow s (absComps E.cwd srcdir ++ [c!"v1"]) r b)
    (hnames : ∀ t ∈ versionTrees s (absComps E.cwd srcdir) n, NamesAllowed o t) :
    ∃ s' inv, run (build E o srcdir metadata (some objdir)) s = (s', .ok inv) ∧
      (NoCollision E.raw (InTrees (versionTrees s (absComps E.cwd srcdir) n)) → ∀ k < n, ∀ dstdir,
        ¬ absComps E.cwd objdir <+: absComps E.cwd dstdir → look s' (dstParent E dstdir) = some .dir → Vacant s' (absComps E.cwd dstdir) →
          ∃ s'' md, run (extract E objdir (unpaddedName (k + 1)) dstdir) s' = (s'', .ok md) ∧
            ∀ r b, FileBelow s'' (absComps E.cwd dstdir) r b ↔ FileBelow s (absComps E.cwd srcdir ++ [unpaddedName (k + 1)]) r b) := by
  obtain ⟨s', inv, hr⟩ := build_succeeds hhash hword hcwd ho hid hnorm hci hcs hw hsources hmeta hvac hout hpar hfile hnames
  refine ⟨s', inv, hr, ?_⟩
  intro hno k hk dstdir hout' hp hv
  obtain ⟨s'', md, h1, h2, _⟩ := C22_partial hlib hhash hword hcwd (.build hw ho hsources hmeta rfl hvac hout hfile hnames hr) hno
    (by rw [versionTrees_length]; exact hsources.limit)
    (k := k) (t := FileBelow s (absComps E.cwd srcdir ++ [unpaddedName (k + 1)]))
    (by unfold versionTrees; rw [List.getElem?_map, List.getElem?_range hk]; rfl) (Or.inl rfl) hout' hp hv
  exact ⟨s'', md, h1, h2⟩

/-- **C114**, refusals: without an identifier or a parent for the object directory, `build` raises and changes nothing. -/
theorem C114_refuses {E : Env} {o : Obj} {srcdir objdir : Str} {metadata : Nat → VBlock} {s : FS}
    (h : o.id = none ∨ look s (absComps E.cwd (osPathSplit objdir).1) ≠ some .dir) :
    run (build E o srcdir metadata (some objdir)) s = (s, .error .objectException) := by
  unfold build
  by_cases hid : o.id = none
  · rw [if_pos hid]; rfl
  · rw [if_neg hid]
    have hp : look s (absComps E.cwd (osPathSplit objdir).1) ≠ some .dir := h.resolve_left hid
    show run (Prog.bind (Prog.bind (openObjCreate E objdir) _) _) s = _
    rw [run_bind, run_bind, openObjCreate_missing hp]

/-- Without a source directory `build` raises as well, but unlike `create` only after it made the object directory:
an empty directory is left behind. -/
theorem C114_source {E : Env} (hcwd : ∀ w ∈ E.cwd, SafeName w) {o : Obj} (hid : o.id ≠ none) {srcdir objdir : Str} {metadata : Nat → VBlock} {s : FS}
    (hw : s.WF) (hsrc : look s (absComps E.cwd srcdir) ≠ some .dir) (hne : absComps E.cwd srcdir ≠ absComps E.cwd objdir)
    (hpar : look s (absComps E.cwd (osPathSplit objdir).1) = some .dir) (hvac : Vacant s (absComps E.cwd objdir)) :
    ∃ s' e, run (build E o srcdir metadata (some objdir)) s = (s', .error e) ∧ look s' (absComps E.cwd objdir) = some .dir ∧
      ∀ q, q ≠ absComps E.cwd objdir → look s' q = look s q := by
  obtain ⟨s1, h1⟩ := run_openObjCreate_ok hcwd hw hpar
  obtain ⟨_, _, _, _, l1⟩ := run_openObjCreate hcwd hw h1
  have k1 : ∀ q, q ≠ absComps E.cwd objdir → look s1 q = look s q := by
    intro q hq
    rw [l1, if_neg]
    rintro ⟨h, _⟩; exact hq h
  have hb1 : run (Prog.bind (openObjCreate E objdir) (fun b => Prog.ret (.ok (some b)))) s = (s1, .ok (some (absComps E.cwd objdir))) := by
    rw [run_bind_ok h1]; rfl
  cases ho : fswOpen E.cwd srcdir s1 with
  | ok src =>
    obtain ⟨e1, e2⟩ := fswOpen_ok ho
    rw [e1, k1 _ hne] at e2
    exact absurd e2 hsrc
  | error e =>
    refine ⟨s1, e, ?_, ?_, k1⟩
    · unfold build
      rw [if_neg hid]
      show run (Prog.bind (Prog.bind (openObjCreate E objdir) (fun b => Prog.ret (.ok (some b)))) _) s = _
      rw [run_bind_ok hb1, run_bind, run_look, ho]
    · rw [l1]
      split
      · rfl
      · rename_i h
        rcases hvac.1 with h' | h'
        · exact absurd ⟨rfl, h'⟩ h
        · exact h'

/-- **C112** without the assumption that `build` returns: an object that is taken apart can be built again, with any
settings, and the second object has the same versions. -/
theorem C112_again {E : Env} (hlib : E.lib.Lawful) (hhash : HashLib E.raw) (hword : WordClass E.isWord)
    (hcwd : ∀ w ∈ E.cwd, SafeName w) {objdir dstdir : Str} {trees : List Tree} {s : FS}
    (h : History E (absComps E.cwd objdir) trees s) (hno : NoCollision E.raw (InTrees trees)) (hlen : trees.length ≤ 99999)
    (hout : ¬ absComps E.cwd objdir <+: absComps E.cwd dstdir)
    (hdst : look s (absComps E.cwd dstdir) = some .dir) (hempty : ∀ r, r ≠ [] → look s (absComps E.cwd dstdir ++ r) = none)
    {o : Obj} (ho : GoodSettings o) (hid : o.id ≠ none) (hnorm : o.norm = none ∨ o.norm = some c!"md5" ∨ o.norm = some c!"uri")
    (hci : o.contentDirectory ≠ inventoryFilename) (hcs : o.contentDirectory ≠ sidecarName o.digestAlgorithm)
    {metadata : Nat → VBlock} (hmeta : ∀ k < trees.length, GoodMeta (some (metadata (k + 1)))) {objdir2 : Str}
    (hap : ¬ absComps E.cwd dstdir <+: absComps E.cwd objdir2) (hap' : ¬ absComps E.cwd objdir2 <+: absComps E.cwd dstdir)
    (hvac : Vacant s (absComps E.cwd objdir2)) (hpar : look s (absComps E.cwd (osPathSplit objdir2).1) = some .dir)
    (hpar' : ¬ absComps E.cwd dstdir <+: absComps E.cwd (osPathSplit objdir2).1)
    (hnames : ∀ t ∈ trees, NamesAllowed o t) :
    ∃ s1 s2 inv, run (takeApart E objdir dstdir trees.length) s = (s1, .ok ()) ∧
      run (build E o dstdir metadata (some objdir2)) s1 = (s2, .ok inv) ∧ History E (absComps E.cwd objdir2) trees s2 := by
  obtain ⟨hne, hfirst⟩ := history_first hlib hhash hword hcwd h hno hlen
  obtain ⟨s1, hr, hT⟩ := run_takeApart hlib hhash hword hcwd h hno hlen hout hdst hempty trees.length (Nat.le_refl _)
  have hpos : 0 < trees.length := List.length_pos_iff.mpr hne
  obtain ⟨r, b, hrb⟩ := hfirst trees[0] (List.getElem?_eq_getElem hpos)
  have hfile : ∃ r b, FileBelow s1 (absComps E.cwd dstdir ++ [c!"v1"]) r b :=
    ⟨r, b, (hT.files 0 hpos _ (List.getElem?_eq_getElem hpos) r b).mpr hrb⟩
  have hn1 : ∀ t ∈ versionTrees s1 (absComps E.cwd dstdir) trees.length, NamesAllowed o t := by rw [hT.trees]; exact hnames
  have hvac1 : Vacant s1 (absComps E.cwd objdir2) := by
    refine ⟨by rw [hT.frame _ hap]; exact hvac.1, fun r hr => ?_⟩
    rw [hT.frame]
    · exact hvac.2 r hr
    · intro hp
      rcases List.prefix_or_prefix_of_prefix hp (List.prefix_append (absComps E.cwd objdir2) r) with h' | h'
      · exact hap h'
      · exact hap' h'
  obtain ⟨s2, inv, hb⟩ := build_succeeds hhash hword hcwd ho hid hnorm hci hcs hT.wf (hT.sources hlen) hmeta hvac1 hap
    (by rw [hT.frame _ hpar']; exact hpar) hfile hn1
  have hbuild : History E (absComps E.cwd objdir2) (versionTrees s1 (absComps E.cwd dstdir) trees.length) s2 :=
    .build hT.wf ho (hT.sources hlen) hmeta rfl hvac1 hap hfile hn1 hb
  rw [hT.trees] at hbuild
  exact ⟨s1, s2, inv, hr, hb, hbuild⟩

/-! ## Examples -/

/-- The object of two versions is taken apart and built again with the other algorithm. -/
example : ∃ s1 s2 inv, run (takeApart demoEnv c!"obj" c!"parts" 2) partsFS = (s1, .ok ()) ∧
    run (build demoEnv partsObj c!"parts" (fun _ => demoMeta) (some c!"obj2")) s1 = (s2, .ok inv) ∧
    History demoEnv (absComps demoEnv.cwd c!"obj2") demoTrees s2 :=
  C112_again demoLibraries.json demoLibraries.hash demoLibraries.word demoEnv_cwd parts_history demo_noCollision
    (by decide) parts_out parts_dir (empty_of (by decide +kernel)) partsObj_good (by decide) (Or.inr (Or.inr rfl)) (by decide) (by decide)
    (fun _ _ => demoMeta_good) parts_apart (by decide +kernel) (vacant_of partsFS_wf (by decide +kernel)) (by decide +kernel)
    (by decide +kernel) (fun _ _ h => by cases h)

example : ∃ s' e, run (build demoEnv demoObj c!"none" buildMeta (some c!"obj")) demoFS = (s', .error e) ∧ look s' [c!"w", c!"obj"] = some .dir := by
  obtain ⟨s', e, h1, h2, _⟩ := C114_source demoEnv_cwd (o := demoObj) (by decide) (srcdir := c!"none") (objdir := c!"obj") (metadata := buildMeta)
    demoFS_wf (by decide +kernel) (by decide +kernel) (by decide +kernel) demo_vacant_obj
  exact ⟨s', e, h1, h2⟩

example : run (build demoEnv { demoObj with id := none } c!"vs" buildMeta (some c!"obj")) buildFS = (buildFS, .error .objectException) :=
  C114_refuses (Or.inl rfl)

theorem buildFS_sources : VersionSources buildFS (absComps demoEnv.cwd c!"vs") 3 := by
  intro w
  constructor
  · rintro ⟨m, hm⟩
    have := build_sources hm
    simp only [List.mem_cons, List.not_mem_nil, or_false, Prod.mk.injEq] at this
    rcases this with ⟨rfl, _⟩ | ⟨rfl, _⟩ | ⟨rfl, _⟩
    · exact ⟨0, by decide, by decide⟩
    · exact ⟨1, by decide, by decide⟩
    · exact ⟨2, by decide, by decide⟩
  · rintro ⟨k, hk, rfl⟩
    have : k = 0 ∨ k = 1 ∨ k = 2 := by omega
    rcases this with rfl | rfl | rfl
    · exact ⟨1, by decide +kernel, versionNo_iff.mpr rfl⟩
    · exact ⟨2, by decide +kernel, versionNo_iff.mpr rfl⟩
    · exact ⟨3, by decide +kernel, versionNo_iff.mpr rfl⟩

/-- The source of three versions. -/
example : ∃ s' inv, run (build demoEnv demoObj c!"vs" buildMeta (some c!"obj")) buildFS = (s', .ok inv) := by
  obtain ⟨s', inv, h, _⟩ := C114_partial demoLibraries.json demoLibraries.hash demoLibraries.word demoEnv_cwd demoObj_good (by decide)
    (Or.inr (Or.inr rfl)) (by decide) (by decide) buildFS_wf buildFS_sources (fun k _ => buildMeta_good (k + 1))
    (objdir := c!"obj") (vacant_of buildFS_wf (by decide +kernel)) (by decide +kernel) (by decide +kernel) ⟨[c!"a"], [1, 2, 3], by decide, by decide +kernel⟩
    (fun _ _ h => by cases h)
  exact ⟨s', inv, h⟩

/-- **C114** fails if the content directory is called `inventory.json`: `build` raises in the middle and leaves a
version directory with an inventory and without content. -/
theorem C114_violated : ∃ (E : Env) (o : Obj) (s s' : FS) (e : PyErr), Libraries E ∧ GoodSettings o ∧ o.id ≠ none ∧ s.WF ∧
    VersionSources s (absComps E.cwd c!"vs") 3 ∧ Vacant s (absComps E.cwd c!"obj") ∧
    run (build E o c!"vs" buildMeta (some c!"obj")) s = (s', .error e) ∧
    (look s' (absComps E.cwd c!"obj" ++ [c!"v1", inventoryFilename])).isSome = true := by
  have hs : (match (run (build demoEnv inTheWay c!"vs" buildMeta (some c!"obj")) buildFS).2 with | .ok _ => false | .error _ => true) = true := by
    decide +kernel
  cases hr : run (build demoEnv inTheWay c!"vs" buildMeta (some c!"obj")) buildFS with
  | mk s' r =>
    have e1 : s' = (run (build demoEnv inTheWay c!"vs" buildMeta (some c!"obj")) buildFS).1 := by rw [hr]
    rw [hr] at hs
    cases r with
    | ok r => cases hs
    | error e =>
      refine ⟨demoEnv, inTheWay, buildFS, s', e, demoLibraries, inTheWay_good, by decide, buildFS_wf, buildFS_sources,
        vacant_of buildFS_wf (by decide +kernel), hr, ?_⟩
      rw [e1]; decide +kernel

end Ocfl
