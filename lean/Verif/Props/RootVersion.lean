import Verif.Props.StorageLog

/-!
# C100: no object of a storage root is of a later version than the storage root
-/

namespace Ocfl
open Spec FS Prog Store

/-- An object of version `v` in the hierarchy of a storage root. -/
def ObjectOfVersion (s : FS) (root : Path) (ws : List Str) (v : Str) : Prop :=
  Reached s root ws ∧ ∃ b, look s (root ++ ws ++ [c!"0=ocfl_object_" ++ v]) = some (.file b)

/-- **C100** (partial): if `validate` finds a storage root that is not of version 1.0 and all its objects valid, then no object is of a later version
than the storage root. Missing: storage roots of version 1.0, see `C100_violated`. -/
theorem C100_partial {E : Env} (hE : Libraries E) (hraw : Spec.HexDigests E.raw) {reg : Dict Str LayoutObj} {s : FS} (hw : s.WF)
    {r r' : StorageRoot} (hlax : r.lax = false) (hlay : r.layout = none) (ht : r.traversalErrors = 0) {check : Bool} {n : Nat}
    (h : validate E reg true check s r = (r', .ok ⟨true, n, n⟩)) {rv : Str} {f : Node}
    (hroot : look s (absComps E.cwd r.root ++ [c!"0=ocfl_" ++ rv]) = some f) (hrv : rv ≠ c!"1.0")
    {ws : List Str} {v : Str} (ho : ObjectOfVersion s (absComps E.cwd r.root) ws v) : strLe v rv = true := by
  obtain ⟨_, ⟨rv', _, hd⟩, _, hall, _⟩ := (C55_partial hE hraw hw hlax hlay ht).mp ⟨r', n, h⟩
  have he : rv = rv' := List.append_cancel_left (hd.one (c!"ocfl_" ++ rv) (by
    rw [show c!"0=" ++ (c!"ocfl_" ++ rv) = c!"0=ocfl_" ++ rv from rfl, hroot]
    simp))
  have hs := hd.supported
  rw [← he] at hs
  unfold supported at hs
  simp only [List.mem_cons, List.not_mem_nil, or_false] at hs
  obtain ⟨hr, b, hb⟩ := ho
  obtain ⟨spec, j, alg, cd, m, vs, states, style, k, hv⟩ := hall ws hr (.inl ⟨_, b, hb⟩)
  have := hv.oneDeclaration (c!"ocfl_object_" ++ v) (by
    rw [show c!"0=" ++ (c!"ocfl_object_" ++ v) = c!"0=ocfl_object_" ++ v from rfl, hb]
    simp)
  rw [List.append_cancel_left this]
  have := hv.supported
  unfold supported at this
  simp only [List.mem_cons, List.not_mem_nil, or_false] at this
  have hrv' : rv = c!"1.1" := hs.resolve_left hrv
  rw [hrv']
  rcases this with h | h <;> rw [h] <;> decide

/-- A storage root of version 1.0, made by the library. -/
def oldStoreFS : FS := (run (initializeRoot demoEnv defaultRegistry flatStore (some c!"1.0") none) demoMade).1

/-- After an object of version 1.1 was added to it. -/
def oldStoreAdded : FS := (run (add demoEnv defaultRegistry demoEnc anyStore c!"obj") oldStoreFS).1

theorem oldStoreAdded_wf : oldStoreAdded.WF where
  nk := by decide +kernel
  noRoot := by decide +kernel
  parent := by decide +kernel
  names := by decide +kernel

theorem old_added : run (add demoEnv defaultRegistry demoEnc anyStore c!"obj") oldStoreFS = (oldStoreAdded, .ok (c!"info:x", c!"info:x")) := by
  unfold oldStoreAdded
  exact outcome_eq (by decide +kernel)

/-- **C100** fails: `add` puts an object of version 1.1 into a storage root of version 1.0, and `validate` finds nothing wrong with it. -/
theorem C100_violated : ∃ s' r' b c, run (add demoEnv defaultRegistry demoEnc anyStore c!"obj") oldStoreFS = (s', .ok (c!"info:x", c!"info:x")) ∧
    validate demoEnv defaultRegistry true true s' anyStore = (r', .ok ⟨true, 1, 1⟩) ∧
    look s' [c!"w", c!"root", c!"0=ocfl_1.0"] = some (.file b) ∧ look s' [c!"w", c!"root", c!"info:x", c!"0=ocfl_object_1.1"] = some (.file c) := by
  obtain ⟨r, h2⟩ := report_eq (x := validate demoEnv defaultRegistry true true oldStoreAdded anyStore) (y := .ok ⟨true, 1, 1⟩) (by decide +kernel)
  have h3 : look oldStoreAdded [c!"w", c!"root", c!"0=ocfl_1.0"] = some (.file (utf8 c!"ocfl_1.0\n")) := by decide +kernel
  have h4 : look oldStoreAdded [c!"w", c!"root", c!"info:x", c!"0=ocfl_object_1.1"] = some (.file (utf8 c!"ocfl_object_1.1\n")) := by decide +kernel
  exact ⟨oldStoreAdded, r, _, _, old_added, h2, h3, h4⟩

/-- In a storage root of version 1.1 the same object is in its place. -/
example : (∃ r, validate demoEnv defaultRegistry true true storeAdded anyStore = (r, .ok ⟨true, 1, 1⟩)) ∧
    absComps demoEnv.cwd anyStore.root = [c!"w", c!"root"] ∧
    look storeAdded [c!"w", c!"root", c!"0=ocfl_1.1"] = some (.file (utf8 c!"ocfl_1.1\n")) ∧
    ObjectOfVersion storeAdded [c!"w", c!"root"] [c!"info:x"] c!"1.1" := by
  refine ⟨report_eq (by decide +kernel), by decide +kernel, by decide +kernel, ⟨by simp, by decide +kernel, by simp, ?_⟩,
    utf8 c!"ocfl_object_1.1\n", by decide +kernel⟩
  intro a b e ha hb
  cases a with
  | nil => exact absurd rfl ha
  | cons x a =>
    cases b with
    | nil => exact absurd rfl hb
    | cons y b =>
      have := congrArg List.length e
      simp at this

end Ocfl
