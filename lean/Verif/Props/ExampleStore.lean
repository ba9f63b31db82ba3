import Verif.Model.StorageRoot
import Verif.Props.ExampleObject
import Verif.Props.LayoutConfig

/-!
# Storage roots for the examples
-/

namespace Ocfl

open Spec FS Prog Store

/-! ## Libraries -/

theorem demoRaw_hex : Spec.HexDigests demoRaw := by
  intro alg b
  constructor
  · intro c hc
    simp only [demoRaw, List.mem_append, List.mem_replicate, PyJson.hex4, List.mem_cons, List.not_mem_nil, or_false] at hc
    rcases hc with ((⟨_, hc⟩ | hc | hc | hc | hc) | hc | hc)
    · subst hc; decide
    all_goals (rw [hc]; exact digitChar_hex _ (Nat.mod_lt _ (by decide)))
  · intro b'
    simp [demoRaw, PyJson.hex4]

/-- Exchange the full stop and the comma. -/
def swapDot (c : Char) : Char := if c = '.' then ',' else if c = ',' then '.' else c

theorem swapDot_swapDot (c : Char) : swapDot (swapDot c) = c := by
  unfold swapDot
  split_ifs <;> simp_all

/-- An encoder that, as that of Pairtree, leaves no full stop. -/
def demoEnc (i : Str) : Str := (quotePlus i).map swapDot

theorem quotePlus_no_comma (s : Str) : ',' ∉ quotePlus s := by
  intro h
  unfold quotePlus at h
  rw [List.mem_flatMap] at h
  obtain ⟨c, _, h⟩ := h
  split at h
  · revert h; decide
  · split at h
    · rename_i hu
      simp at h; subst h; revert hu; decide
    · rw [List.mem_flatMap] at h
      obtain ⟨b, _, h⟩ := h
      have hb : b.toNat < 256 := b.toNat_lt
      have key : ∀ n, n < 16 → hexDigitUpper n ≠ ',' := by decide
      have k1 := key (b.toNat / 16) (by omega)
      have k2 := key (b.toNat % 16) (by omega)
      simp [pctUpper, Ne.symm k1, Ne.symm k2] at h

theorem mem_swapped {c : Char} {s : Str} (h : c ∈ s.map swapDot) : swapDot c ∈ s := by
  obtain ⟨d, hd, rfl⟩ := List.mem_map.mp h
  rw [swapDot_swapDot]
  exact hd

theorem demoEnc_noDot (i : Str) : '.' ∉ demoEnc i := fun h => quotePlus_no_comma i (mem_swapped h)

theorem demoEnc_good : GoodEncoder demoEnc where
  inj := fun i j h => by
    apply quotePlus_inj
    have := congrArg (List.map swapDot) h
    simpa [demoEnc, Function.comp_def, swapDot_swapDot] using this
  ne := fun i hi h => exEncoder_good.ne i hi (List.map_eq_nil_iff.mp h)
  noSep := fun i h => quotePlus_no_slash i (mem_swapped h)

/-- The layouts of the registry have good parameters. -/
theorem defaultRegistry_good : ∀ n l, getLayout defaultRegistry n = .ok l → GoodParams demoEnv.raw l := by
  intro n l h
  unfold getLayout at h
  split at h
  · cases h
  · rename_i l' hl
    cases h
    have hm := Dict.mem_of_get? hl
    have hall : ∀ e ∈ defaultRegistry, GoodParams demoEnv.raw e.2 := by
      unfold defaultRegistry
      simp only [List.forall_mem_cons, List.not_mem_nil, false_imp_iff, implies_true, and_true]
      exact ⟨trivial, trivial, trivial, ⟨⟨by decide, by decide, by decide⟩, by decide, by decide⟩,
        ⟨⟨by decide, by decide, by decide⟩, by decide, by decide⟩, trivial, trivial, by unfold GoodParams; decide, by unfold GoodParams; decide⟩
    exact hall _ hm

/-! ## Storage roots -/

/-- A storage root with the flat layout. -/
def flatStore : StorageRoot := { root := c!"root", layoutName := some c!"0002" }

/-- A storage root to be opened. -/
def anyStore : StorageRoot := { root := c!"root" }

/-- The object of `demoMade` and a new storage root. -/
def storeFS : FS := (run (initializeRoot demoEnv defaultRegistry flatStore none none) demoMade).1

/-- After the object was added. -/
def storeAdded : FS := (run (add demoEnv defaultRegistry demoEnc anyStore c!"obj") storeFS).1

/-- One content file of the object in the storage root has been changed. -/
def storeSpoilt : FS := Dict.set storeAdded [c!"w", c!"root", c!"info:x", c!"v1", c!"content", c!"a.txt"] (.file [9])

theorem storeFS_wf : storeFS.WF where
  nk := by decide +kernel
  noRoot := by decide +kernel
  parent := by decide +kernel
  names := by decide +kernel

theorem storeAdded_wf : storeAdded.WF where
  nk := by decide +kernel
  noRoot := by decide +kernel
  parent := by decide +kernel
  names := by decide +kernel

theorem storeSpoilt_wf : storeSpoilt.WF where
  nk := by decide +kernel
  noRoot := by decide +kernel
  parent := by decide +kernel
  names := by decide +kernel

/-- A storage root with the layout for UUIDs, made by the library. -/
def quadStore : StorageRoot := { root := c!"root", layoutName := some c!"nnnn-uuid-quadtree" }

def quadFS : FS := (run (initializeRoot demoEnv defaultRegistry quadStore none none) demoFS).1

/-- An object whose identifier is the name of the extensions directory, and a flat storage root. -/
def extObj : Obj := { demoObj with id := some c!"extensions" }

def extMade : FS := (run (initializeRoot demoEnv defaultRegistry flatStore none none)
  (run (create demoEnv extObj c!"src" (some demoMeta) (some c!"obj")) demoFS).1).1

def extAdded : FS := (run (add demoEnv defaultRegistry demoEnc anyStore c!"obj") extMade).1

end Ocfl
