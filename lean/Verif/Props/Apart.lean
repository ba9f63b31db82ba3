import Verif.Proofs.Apart
import Verif.Props.LibraryValid

/-!
# Taking an object apart and building it again
-/

namespace Ocfl

open Spec FS Prog

theorem history_first {E : Env} (hlib : E.lib.Lawful) (hhash : HashLib E.raw) (hword : WordClass E.isWord)
    (hcwd : ∀ w ∈ E.cwd, SafeName w) {base : Path} {trees : List Tree} {s : FS} (h : History E base trees s)
    (hno : NoCollision E.raw (InTrees trees)) (hlen : trees.length ≤ 99999) : trees ≠ [] ∧ ∀ t, trees[0]? = some t → ∃ r b, t r b := by
  have hpos : ∀ {base' : Path} {ts : List Tree} {s' : FS}, History E base' ts s' → (∃ rest, trees = ts ++ rest) → ts ≠ [] := by
    rintro base' ts s' h' ⟨rest, rfl⟩
    obtain ⟨dv, recs, hs⟩ := history_sound hlib hhash hword hcwd h'
      (NoCollision.mono hno (fun b ⟨t, ht, r, hr⟩ => ⟨t, List.mem_append_left _ ht, r, hr⟩)) (by simp at hlen; omega)
    have h1 := hs.length
    have h2 := hs.pos
    rintro rfl
    exact h2 (List.eq_nil_of_length_eq_zero h1)
  exact ⟨hpos h ⟨[], by simp⟩, History.first h hpos⟩

/-- **C112**: a client that extracts the versions of an object one after the other into an empty directory ends with
the version directories of a source for `build`: they are `v1`, ..., `v<n>`, each with the files of its version, and
nothing outside the directory was changed. If `build` then makes a second object from them, with any settings,
every version of the second object extracts to the same files as that version of the first. -/
theorem C112 {E : Env} (hlib : E.lib.Lawful) (hhash : HashLib E.raw) (hword : WordClass E.isWord)
    (hcwd : ∀ w ∈ E.cwd, SafeName w) {objdir dstdir : Str} {trees : List Tree} {s : FS}
    (h : History E (absComps E.cwd objdir) trees s) (hno : NoCollision E.raw (InTrees trees)) (hlen : trees.length ≤ 99999)
    (hout : ¬ absComps E.cwd objdir <+: absComps E.cwd dstdir)
    (hdst : look s (absComps E.cwd dstdir) = some .dir) (hempty : ∀ r, r ≠ [] → look s (absComps E.cwd dstdir ++ r) = none) :
    ∃ s1, run (takeApart E objdir dstdir trees.length) s = (s1, .ok ()) ∧
      VersionSources s1 (absComps E.cwd dstdir) trees.length ∧
      (∀ k t, trees[k]? = some t → ∀ r b, FileBelow s1 (absComps E.cwd dstdir ++ [unpaddedName (k + 1)]) r b ↔ t r b) ∧
      (∀ q, ¬ absComps E.cwd dstdir <+: q → look s1 q = look s q) ∧
      ∀ (o : Obj) (metadata : Nat → VBlock) (objdir2 : Str) (s2 : FS) (inv : Option Inv), GoodSettings o →
        (∀ k < trees.length, GoodMeta (some (metadata (k + 1)))) → Vacant s1 (absComps E.cwd objdir2) →
        ¬ absComps E.cwd dstdir <+: absComps E.cwd objdir2 → (∀ t ∈ trees, NamesAllowed o t) →
        run (build E o dstdir metadata (some objdir2)) s1 = (s2, .ok inv) →
        History E (absComps E.cwd objdir2) trees s2 ∧
        ∀ k t, trees[k]? = some t → ∀ dstdir2, ¬ absComps E.cwd objdir2 <+: absComps E.cwd dstdir2 →
          look s2 (dstParent E dstdir2) = some .dir → Vacant s2 (absComps E.cwd dstdir2) →
          ∃ s3 md, run (extract E objdir2 (unpaddedName (k + 1)) dstdir2) s2 = (s3, .ok md) ∧
            ∀ r b, FileBelow s3 (absComps E.cwd dstdir2) r b ↔ t r b := by
  obtain ⟨hne, hfirst⟩ := history_first hlib hhash hword hcwd h hno hlen
  obtain ⟨s1, hr, hT⟩ := run_takeApart hlib hhash hword hcwd h hno hlen hout hdst hempty trees.length (Nat.le_refl _)
  refine ⟨s1, hr, hT.sources hlen, ?_, hT.frame, ?_⟩
  · intro k t hk
    obtain ⟨hlt, _⟩ := List.getElem?_eq_some_iff.mp hk
    exact hT.files k hlt t hk
  · intro o metadata objdir2 s2 inv ho hm hvac hap hnames hb
    have hpos : 0 < trees.length := List.length_pos_iff.mpr hne
    obtain ⟨r, b, hrb⟩ := hfirst trees[0] (List.getElem?_eq_getElem hpos)
    have hbuild : History E (absComps E.cwd objdir2) (versionTrees s1 (absComps E.cwd dstdir) trees.length) s2 :=
      .build hT.wf ho (hT.sources hlen) hm rfl hvac hap
        ⟨r, b, (hT.files 0 hpos _ (List.getElem?_eq_getElem hpos) r b).mpr hrb⟩ (by rw [hT.trees]; exact hnames) hb
    rw [hT.trees] at hbuild
    refine ⟨hbuild, ?_⟩
    intro k t hk dstdir2 hout2 hp2 hvac2
    obtain ⟨s3, md, h1, h2, _⟩ := C22_partial hlib hhash hword hcwd hbuild hno hlen hk (Or.inl rfl) hout2 hp2 hvac2
    exact ⟨s3, md, h1, h2⟩

/-! ## Examples -/

/-- The object of two versions, beside an empty directory. -/
def partsFS : FS := Dict.set demoGrown [c!"w", c!"parts"] .dir

theorem partsFS_wf : partsFS.WF where
  nk := by decide +kernel
  noRoot := by decide +kernel
  parent := by decide +kernel
  names := by decide +kernel

theorem parts_history : History demoEnv (absComps demoEnv.cwd c!"obj") demoTrees partsFS := by
  refine .elsewhere demo_history partsFS_wf (fun q hq => ?_)
  unfold partsFS
  rw [FS.look_set (by decide), if_neg]
  rintro rfl
  exact absurd hq (by decide +kernel)

theorem parts_out : ¬ absComps demoEnv.cwd c!"obj" <+: absComps demoEnv.cwd c!"parts" := by decide +kernel

theorem parts_dir : look partsFS (absComps demoEnv.cwd c!"parts") = some .dir := by decide +kernel

theorem empty_of {s : FS} {p : Path} (h : ∀ e ∈ s, ¬ (p <+: e.1 ∧ e.1 ≠ p)) (r : Path) (hr : r ≠ []) : look s (p ++ r) = none := by
  by_contra hc
  obtain ⟨nd, hl⟩ := Option.ne_none_iff_exists'.mp hc
  refine h (_, nd) ?_ ⟨List.prefix_append _ _, by simpa using hr⟩
  unfold FS.look at hl
  rw [if_neg (by simp [hr])] at hl
  exact Dict.mem_of_get? hl

/-- An object of two versions is taken apart: the file that was changed between the versions is in both. -/
example : ∃ s1, run (takeApart demoEnv c!"obj" c!"parts" 2) partsFS = (s1, .ok ()) ∧
    FileBelow s1 [c!"w", c!"parts", c!"v1"] [c!"a.txt"] [1, 2, 3] ∧ FileBelow s1 [c!"w", c!"parts", c!"v2"] [c!"a.txt"] [9] := by
  obtain ⟨s1, hr, _, hf, _⟩ := C112 demoLibraries.json demoLibraries.hash demoLibraries.word demoEnv_cwd parts_history demo_noCollision
    (by decide) parts_out parts_dir (empty_of (by decide +kernel))
  have h0 : absComps demoEnv.cwd c!"parts" = [c!"w", c!"parts"] := by decide +kernel
  rw [h0] at hf
  exact ⟨s1, hr, (hf 0 _ rfl _ _).mpr ⟨by decide, by decide +kernel⟩, (hf 1 _ rfl _ _).mpr ⟨by decide, by decide +kernel⟩⟩

/-- The object of one version, beside an empty directory. -/
def partsFS1 : FS := Dict.set demoMade [c!"w", c!"parts"] .dir

theorem partsFS1_wf : partsFS1.WF where
  nk := by decide +kernel
  noRoot := by decide +kernel
  parent := by decide +kernel
  names := by decide +kernel

theorem parts_history1 : History demoEnv (absComps demoEnv.cwd c!"obj") [FileBelow demoFS (absComps demoEnv.cwd c!"src")] partsFS1 := by
  refine .elsewhere demo_history1 partsFS1_wf (fun q hq => ?_)
  unfold partsFS1
  rw [FS.look_set (by decide), if_neg]
  rintro rfl
  exact absurd hq (by decide +kernel)

def partsOut : FS := (run (takeApart demoEnv c!"obj" c!"parts" 1) partsFS1).1

theorem parts_noCollision : NoCollision demoEnv.raw (InTrees [FileBelow demoFS (absComps demoEnv.cwd c!"src")]) :=
  NoCollision.mono demo_noCollision (fun b ⟨t, ht, h⟩ => ⟨t, by rw [List.mem_singleton.mp ht]; simp [demoTrees], h⟩)

theorem parts_dir1 : look partsFS1 (absComps demoEnv.cwd c!"parts") = some .dir := by decide +kernel

theorem parts_empty1 (r : Path) (hr : r ≠ []) : look partsFS1 (absComps demoEnv.cwd c!"parts" ++ r) = none := empty_of (by decide +kernel) r hr

theorem parts_taken : TakenApart partsFS1 partsOut (absComps demoEnv.cwd c!"parts") [FileBelow demoFS (absComps demoEnv.cwd c!"src")] 1 := by
  obtain ⟨s1, hr, hT⟩ := run_takeApart demoLibraries.json demoLibraries.hash demoLibraries.word demoEnv_cwd parts_history1 parts_noCollision
    (by simp) parts_out parts_dir1 parts_empty1 1 (by simp)
  unfold partsOut
  rw [hr]
  exact hT

/-- The object built again with the other digest algorithm. -/
def partsObj : Obj := { demoObj with digestAlgorithm := c!"sha512" }

theorem partsObj_good : GoodSettings partsObj := ⟨by decide, by decide, Or.inl rfl, by decide, by rintro l hl; cases hl⟩

theorem parts_apart : ¬ absComps demoEnv.cwd c!"parts" <+: absComps demoEnv.cwd c!"obj2" := by decide +kernel

theorem parts_vacant : Vacant partsOut (absComps demoEnv.cwd c!"obj2") := by
  have h0 : look partsOut (absComps demoEnv.cwd c!"obj2") = none := by
    rw [parts_taken.frame _ parts_apart]
    decide +kernel
  exact ⟨Or.inl h0, fun r hr => look_below_none parts_taken.wf (List.prefix_append _ _) (by simpa using hr) (by rw [h0]; simp)⟩

theorem parts_built : ∃ s2 inv, run (build demoEnv partsObj c!"parts" (fun _ => demoMeta) (some c!"obj2")) partsOut = (s2, .ok inv) := by
  have hs : (match (run (build demoEnv partsObj c!"parts" (fun _ => demoMeta) (some c!"obj2")) partsOut).2 with | .ok _ => true | .error _ => false) = true := by
    decide +kernel
  cases hr : run (build demoEnv partsObj c!"parts" (fun _ => demoMeta) (some c!"obj2")) partsOut with
  | mk s' r =>
    rw [hr] at hs
    cases r with
    | error e => cases hs
    | ok r => exact ⟨s', r, rfl⟩

/-- An object made with SHA-256 is taken apart and built again with SHA-512. -/
example : ∃ s2, (∃ inv, run (build demoEnv partsObj c!"parts" (fun _ => demoMeta) (some c!"obj2")) partsOut = (s2, .ok inv)) ∧
    History demoEnv (absComps demoEnv.cwd c!"obj2") [FileBelow demoFS (absComps demoEnv.cwd c!"src")] s2 := by
  obtain ⟨s1, hr, _, _, _, h⟩ := C112 demoLibraries.json demoLibraries.hash demoLibraries.word demoEnv_cwd parts_history1 parts_noCollision
    (by simp) parts_out parts_dir1 parts_empty1
  have he : partsOut = s1 := by
    unfold partsOut
    rw [show run (takeApart demoEnv c!"obj" c!"parts" 1) partsFS1 = _ from hr]
  obtain ⟨s2, inv, hb⟩ := parts_built
  rw [← he] at h
  exact ⟨s2, ⟨inv, hb⟩, (h partsObj (fun _ => demoMeta) c!"obj2" s2 inv partsObj_good (fun _ _ => demoMeta_good) parts_vacant parts_apart
    (fun _ _ h => by cases h) hb).1⟩

end Ocfl
