import Verif.Proofs.UpdateSucceeds
import Verif.Proofs.Filled
import Verif.Props.LibraryValid
import Verif.Props.NoDifference

/-!
# When an update succeeds
-/

namespace Ocfl

open Spec FS Prog Inv

/-- An update that the validator lets through returns. -/
theorem update_returns {E : Env} (hE : Libraries E) (hcwd : ∀ w ∈ E.cwd, SafeName w) {objdir srcdir : Str} {trees : List Tree} {s : FS}
    (h : History E (absComps E.cwd objdir) trees s) (hno : NoCollision E.raw (InTrees trees)) (hlen : trees.length + 1 ≤ 99999)
    {o : Obj} (hsha : o.digestAlgorithm = c!"sha512" ∨ o.digestAlgorithm = c!"sha256") (hlax : o.lax = false) (hnorm : o.norm = none ∨ o.norm = some c!"md5" ∨ o.norm = some c!"uri")
    {metadata : Option VBlock} (hmeta : GoodMeta metadata) (hsrc : look s (absComps E.cwd srcdir) = some .dir)
    (hkeep : ∀ inv, parseInventory E (absComps E.cwd objdir) s = .ok inv →
      inv.contentDirectoryToUse ≠ inventoryFilename ∧ inv.contentDirectoryToUse ≠ sidecarName o.digestAlgorithm ∧
      (inv.digestAlgorithm = some o.digestAlgorithm ∨ ¬ absComps E.cwd srcdir <+: absComps E.cwd objdir))
    (hc : look s (absComps E.cwd objdir ++ [c!"0=ocfl_object_1.1"]) ≠ none ∨ trees.length ≤ 2) :
    ∀ abort, ∃ s' x, run (addVersionWithContent E o objdir (some srcdir) metadata abort) s = (s', .ok x) ∧ (abort = false → ∃ inv, x = some inv) := by
  obtain ⟨dv, recs, hs⟩ := history_sound hE.json hE.hash hE.word hcwd h hno (by omega)
  obtain ⟨rl, hlast⟩ : ∃ rl, recs.getLast? = some rl := by
    cases hr : recs.getLast? with
    | none => exact absurd (List.getLast?_eq_none_iff.mp hr) hs.pos
    | some rl => exact ⟨rl, rfl⟩
  have hlenr : recs.length ≠ 0 := fun he => hs.pos (List.eq_nil_of_length_eq_zero he)
  have hidx : recs[trees.length - 1]? = some rl := by rw [← hs.length, ← hlast, List.getLast?_eq_getElem?]
  have hdl := (hs.versions _ rl hidx).describes
  have hpos : 1 ≤ trees.length := by rw [← hs.length]; omega
  rw [show trees.take (trees.length - 1 + 1) = trees by rw [Nat.sub_add_cancel hpos]; exact List.take_length] at hdl
  obtain ⟨k2, k3, k1⟩ := hkeep _ (parse_written hE.json hdl.parsed (hs.root rl hlast).1)
  have halg : rl.alg = o.digestAlgorithm ∨ ((∀ e ∈ Dict.sorted rl.m, e.2 ≠ []) ∧ ¬ absComps E.cwd srcdir <+: absComps E.cwd objdir) := by
    rw [hdl.sorted.parsed.good.algorithm] at k1
    exact k1.imp Option.some.inj (fun h' => ⟨Filled.sorted
      (hs.filled_last hE.json (history_filled hE.json hE.hash hE.word hcwd h hno (by omega)) rl hlast), h'⟩)
  exact hs.update_succeeds hE.json hE.hash hnorm hmeta hno hlen hsrc
    ((C74 hE hcwd h hno (by omega) (cfg := { checkDigests := false, lax := o.lax }) hlax).mpr hc) hlast hsha halg k2 k3

/-- **C115**: `add_version_with_content` cannot fail in the middle of an update. For an object made by the library
and a source directory that exists, the update gives a new version exactly if the object declares version 1.1 of the
specification or was updated at most once; the new version then extracts to exactly the source files. Otherwise it
raises and changes nothing. If the update changes the digest algorithm, the source directory must not contain the
object (`C115_violated`).

What is missing: content directories called like the inventory or the sidecar. That objects of version 1.0 cannot be
updated twice is `C66_violated`. -/
theorem C115_partial {E : Env} (hE : Libraries E) (hcwd : ∀ w ∈ E.cwd, SafeName w) {objdir srcdir : Str} {trees : List Tree} {s : FS}
    (h : History E (absComps E.cwd objdir) trees s) (hno : NoCollision E.raw (InTrees trees)) (hlen : trees.length + 1 ≤ 99999)
    {o : Obj} (hsha : o.digestAlgorithm = c!"sha512" ∨ o.digestAlgorithm = c!"sha256") (hlax : o.lax = false) (hnorm : o.norm = none ∨ o.norm = some c!"md5" ∨ o.norm = some c!"uri")
    {metadata : Option VBlock} (hmeta : GoodMeta metadata) (hsrc : look s (absComps E.cwd srcdir) = some .dir)
    (hkeep : ∀ inv, parseInventory E (absComps E.cwd objdir) s = .ok inv →
      inv.contentDirectoryToUse ≠ inventoryFilename ∧ inv.contentDirectoryToUse ≠ sidecarName o.digestAlgorithm ∧
      (inv.digestAlgorithm = some o.digestAlgorithm ∨ ¬ absComps E.cwd srcdir <+: absComps E.cwd objdir)) :
    ((∃ s' inv, run (addVersionWithContent E o objdir (some srcdir) metadata false) s = (s', .ok (some inv))) ↔
      (look s (absComps E.cwd objdir ++ [c!"0=ocfl_object_1.1"]) ≠ none ∨ trees.length ≤ 2)) ∧
    (∀ s' e, run (addVersionWithContent E o objdir (some srcdir) metadata false) s = (s', .error e) → s' = s) ∧
    ∀ s' inv, run (addVersionWithContent E o objdir (some srcdir) metadata false) s = (s', .ok (some inv)) →
      NamesAllowed o (FileBelow s (absComps E.cwd srcdir)) → NoCollision E.raw (InTrees (trees ++ [FileBelow s (absComps E.cwd srcdir)])) →
      ∀ dstdir, ¬ absComps E.cwd objdir <+: absComps E.cwd dstdir → look s' (dstParent E dstdir) = some .dir → Vacant s' (absComps E.cwd dstdir) →
        ∃ s'' md, run (extract E objdir c!"head" dstdir) s' = (s'', .ok md) ∧
          ∀ r b, FileBelow s'' (absComps E.cwd dstdir) r b ↔ FileBelow s (absComps E.cwd srcdir) r b := by
  obtain ⟨dv, recs, hs⟩ := history_sound hE.json hE.hash hE.word hcwd h hno (by omega)
  have hgood : look s (absComps E.cwd objdir ++ [c!"0=ocfl_object_1.1"]) ≠ none ∨ trees.length ≤ 2 →
      ∃ s' inv, run (addVersionWithContent E o objdir (some srcdir) metadata false) s = (s', .ok (some inv)) := by
    intro hc
    obtain ⟨s', x, hx, hx'⟩ := update_returns hE hcwd h hno hlen hsha hlax hnorm hmeta hsrc hkeep hc false
    obtain ⟨inv, rfl⟩ := hx' rfl
    exact ⟨s', inv, hx⟩
  have hbad : ¬ (look s (absComps E.cwd objdir ++ [c!"0=ocfl_object_1.1"]) ≠ none ∨ trees.length ≤ 2) →
      ∃ e, run (addVersionWithContent E o objdir (some srcdir) metadata false) s = (s, .error e) := by
    intro hc
    rw [not_or] at hc
    have hd : look s (absComps E.cwd objdir ++ [c!"0=ocfl_object_1.0"]) ≠ none := by
      refine hs.declared.mpr ?_
      have hd1 := hs.declared (v := c!"1.1")
      have hsp : dv = c!"1.0" ∨ dv = c!"1.1" := by
        have := hs.spec
        have he : ∀ v ∈ supported, v = c!"1.0" ∨ v = c!"1.1" := by decide
        exact he dv this
      rcases hsp with h' | h'
      · exact h'.symm
      · exact absurd (hd1.mpr h'.symm) hc.1
    exact (C66_broken hE hcwd h hno (by omega) hd (by omega)).2 o hlax (some srcdir) metadata false
  refine ⟨⟨?_, hgood⟩, ?_, ?_⟩
  · rintro ⟨s', inv, hr⟩
    by_contra hc
    obtain ⟨e, he⟩ := hbad hc
    rw [he] at hr
    cases hr
  · intro s' e hr
    by_cases hc : look s (absComps E.cwd objdir ++ [c!"0=ocfl_object_1.1"]) ≠ none ∨ trees.length ≤ 2
    · obtain ⟨s'', inv, he⟩ := hgood hc
      rw [he] at hr
      cases hr
    · obtain ⟨e', he⟩ := hbad hc
      rw [he] at hr
      cases hr
      rfl
  · intro s' inv hr hnames hno' dstdir hout hp hv
    obtain ⟨s'', md, h1, h2, _⟩ := C22_partial hE.json hE.hash hE.word hcwd (.update h hsha hmeta rfl hnames hr) hno' (by simpa using hlen)
      (k := trees.length) (t := FileBelow s (absComps E.cwd srcdir)) (by simp) (Or.inr ⟨rfl, by simp⟩) hout hp hv
    exact ⟨s'', md, h1, h2⟩

/-- **C115** with `abort_if_no_difference`: the update gives `None` and changes nothing if the source directory has exactly the
files of the last version, and otherwise a new version. -/
theorem C115_abort {E : Env} (hE : Libraries E) (hcwd : ∀ w ∈ E.cwd, SafeName w) {objdir srcdir : Str} {trees : List Tree} {s : FS}
    {t : Tree}
    (h : History E (absComps E.cwd objdir) (trees ++ [t]) s) (hno : NoCollision E.raw (InTrees ((trees ++ [t]) ++ [FileBelow s (absComps E.cwd srcdir)]))) (hlen : (trees ++ [t]).length + 1 ≤ 99999)
    {o : Obj} (hsha : o.digestAlgorithm = c!"sha512" ∨ o.digestAlgorithm = c!"sha256") (hlax : o.lax = false) (hnorm : o.norm = none ∨ o.norm = some c!"md5" ∨ o.norm = some c!"uri")
    {metadata : Option VBlock} (hmeta : GoodMeta metadata) (hsrc : look s (absComps E.cwd srcdir) = some .dir)
    (hkeep : ∀ inv, parseInventory E (absComps E.cwd objdir) s = .ok inv →
      inv.contentDirectoryToUse ≠ inventoryFilename ∧ inv.contentDirectoryToUse ≠ sidecarName o.digestAlgorithm ∧
      (inv.digestAlgorithm = some o.digestAlgorithm ∨ ¬ absComps E.cwd srcdir <+: absComps E.cwd objdir))
    (hc : look s (absComps E.cwd objdir ++ [c!"0=ocfl_object_1.1"]) ≠ none ∨ (trees ++ [t]).length ≤ 2) :
    ((∀ r b, FileBelow s (absComps E.cwd srcdir) r b ↔ t r b) →
      run (addVersionWithContent E o objdir (some srcdir) metadata true) s = (s, .ok none)) ∧
    (¬ (∀ r b, FileBelow s (absComps E.cwd srcdir) r b ↔ t r b) →
      ∃ s' inv, run (addVersionWithContent E o objdir (some srcdir) metadata true) s = (s', .ok (some inv))) := by
  obtain ⟨s', x, hx, _⟩ := update_returns hE hcwd h (NoCollision.mono hno (fun b hb => InTrees.append hb)) hlen hsha hlax hnorm hmeta hsrc hkeep hc true
  obtain ⟨h1, h2⟩ := C26_history hE.json hE.hash hE.word hcwd hsha h hno (by omega) hx
  refine ⟨fun hsame => ?_, fun hdiff => ?_⟩
  · obtain rfl := h1.mpr hsame
    rw [hx, h2 rfl]
  · cases x with
    | none => exact absurd (h1.mp rfl) hdiff
    | some inv => exact ⟨s', inv, hx⟩

/-- The state after an update of the object with itself as the source and another digest algorithm. -/
def demoEaten : FS :=
  (run (addVersionWithContent demoEnv { demoObj with digestAlgorithm := c!"sha512" } c!"obj" (some c!"obj") (some demoMeta) false) demoMade).1

theorem eaten_failed : ∃ e, run (addVersionWithContent demoEnv { demoObj with digestAlgorithm := c!"sha512" } c!"obj" (some c!"obj") (some demoMeta) false)
    demoMade = (demoEaten, .error e) := by
  have hk : succeeded (run (addVersionWithContent demoEnv { demoObj with digestAlgorithm := c!"sha512" } c!"obj" (some c!"obj") (some demoMeta) false)
    demoMade) = false := by decide +kernel
  unfold demoEaten
  generalize run (addVersionWithContent demoEnv { demoObj with digestAlgorithm := c!"sha512" } c!"obj" (some c!"obj") (some demoMeta) false) demoMade = r at hk ⊢
  obtain ⟨s', r⟩ := r
  cases r with
  | error e => exact ⟨e, rfl⟩
  | ok _ => cases hk

/-- **C115 is false** if the source directory contains the object and the digest algorithm changes: the sidecar of the root
inventory is removed before it is copied as a source file. The call raises, and the object is left without sidecar and
with a version directory that its inventory does not know. -/
theorem C115_violated : ∃ (o : Obj) (s s' : FS) (e : PyErr), History demoEnv (absComps demoEnv.cwd c!"obj") [FileBelow demoFS (absComps demoEnv.cwd c!"src")] s ∧
    run (addVersionWithContent demoEnv o c!"obj" (some c!"obj") (some demoMeta) false) s = (s', .error e) ∧
    look s (absComps demoEnv.cwd c!"obj" ++ [sidecarName c!"sha256"]) ≠ none ∧ look s (absComps demoEnv.cwd c!"obj" ++ [c!"v2"]) = none ∧
    look s' (absComps demoEnv.cwd c!"obj" ++ [sidecarName c!"sha256"]) = none ∧ look s' (absComps demoEnv.cwd c!"obj" ++ [c!"v2"]) = some .dir := by
  obtain ⟨e, he⟩ := eaten_failed
  exact ⟨_, demoMade, demoEaten, e, demo_history1, he, by decide +kernel, by decide +kernel, by decide +kernel, by decide +kernel⟩

/-! ## Examples -/

theorem demoChanged_history : History demoEnv (absComps demoEnv.cwd c!"obj") [FileBelow demoFS (absComps demoEnv.cwd c!"src")] demoChanged :=
  .elsewhere demo_history1 demoChanged_wf demo_apart

/-- The object of one version, a source directory in which a file was changed, and an update with the algorithm that the object has. -/
example : ∃ s' inv, run (addVersionWithContent demoEnv demoObj c!"obj" (some c!"src") (some demoMeta) false) demoChanged = (s', .ok (some inv)) := by
  refine (C115_partial demoLibraries demoEnv_cwd demoChanged_history (NoCollision.mono demo_noCollision
    (fun b ⟨t, ht, h⟩ => ⟨t, by rw [List.mem_singleton.mp ht]; simp [demoTrees], h⟩)) (by simp) (o := demoObj) (by decide) rfl (Or.inr (Or.inr rfl))
    demoMeta_good (by decide +kernel) ?_).1.mpr (Or.inr (by simp))
  intro inv hp
  have hk : (match parseInventory demoEnv (absComps demoEnv.cwd c!"obj") demoChanged with
    | .ok inv => decide (inv.contentDirectoryToUse ≠ inventoryFilename ∧ inv.contentDirectoryToUse ≠ sidecarName demoObj.digestAlgorithm ∧
        inv.digestAlgorithm = some demoObj.digestAlgorithm)
    | .error _ => false) = true := by decide +kernel
  rw [hp] at hk
  have := of_decide_eq_true hk
  exact ⟨this.1, this.2.1, Or.inl this.2.2⟩

/-- The same update with another digest algorithm. -/
example (a : Str) (ha : a = c!"sha512" ∨ a = c!"sha256") : ∃ s' inv, run (addVersionWithContent demoEnv { demoObj with digestAlgorithm := a } c!"obj"
    (some c!"src") (some demoMeta) false) demoChanged = (s', .ok (some inv)) := by
  refine (C115_partial demoLibraries demoEnv_cwd demoChanged_history (NoCollision.mono demo_noCollision
    (fun b ⟨t, ht, h⟩ => ⟨t, by rw [List.mem_singleton.mp ht]; simp [demoTrees], h⟩)) (by simp) (o := { demoObj with digestAlgorithm := a }) ha rfl
    (Or.inr (Or.inr rfl)) demoMeta_good (by decide +kernel) ?_).1.mpr (Or.inr (by simp))
  intro inv hp
  have hk : (match parseInventory demoEnv (absComps demoEnv.cwd c!"obj") demoChanged with
    | .ok inv => decide (inv.contentDirectoryToUse ≠ inventoryFilename ∧ inv.contentDirectoryToUse ≠ sidecarName c!"sha512" ∧
        inv.contentDirectoryToUse ≠ sidecarName c!"sha256")
    | .error _ => false) = true := by decide +kernel
  rw [hp] at hk
  obtain ⟨h1, h2, h3⟩ := of_decide_eq_true hk
  refine ⟨h1, ?_, Or.inr (by decide +kernel)⟩
  rcases ha with rfl | rfl
  · exact h2
  · exact h3

/-- The same update with `abort_if_no_difference`: a file was changed, so that there is a new version. -/
example : ∃ s' inv, run (addVersionWithContent demoEnv demoObj c!"obj" (some c!"src") (some demoMeta) true) demoChanged = (s', .ok (some inv)) := by
  refine (C115_abort (trees := []) demoLibraries demoEnv_cwd demoChanged_history demo_noCollision (by simp) (o := demoObj) (by decide) rfl
    (Or.inr (Or.inr rfl)) demoMeta_good (by decide +kernel) ?_ (Or.inr (by simp))).2 ?_
  · intro inv hp
    have hk : (match parseInventory demoEnv (absComps demoEnv.cwd c!"obj") demoChanged with
      | .ok inv => decide (inv.contentDirectoryToUse ≠ inventoryFilename ∧ inv.contentDirectoryToUse ≠ sidecarName demoObj.digestAlgorithm ∧
          inv.digestAlgorithm = some demoObj.digestAlgorithm)
      | .error _ => false) = true := by decide +kernel
    rw [hp] at hk
    have := of_decide_eq_true hk
    exact ⟨this.1, this.2.1, Or.inl this.2.2⟩
  · intro h
    have h1 : look demoChanged (absComps demoEnv.cwd c!"src" ++ [c!"a.txt"]) = some (.file [9]) := by decide +kernel
    have h2 : look demoFS (absComps demoEnv.cwd c!"src" ++ [c!"a.txt"]) = some (.file [1, 2, 3]) := by decide +kernel
    have h3 := ((h [c!"a.txt"] [9]).mp ⟨by simp, h1⟩).2
    rw [h2] at h3
    cases h3

end Ocfl
