import Verif.Proofs.NoDigests
import Verif.Props.ValidExtractDemo

/-!
# C96: what turning the digest checks off leaves out
-/

namespace Ocfl
open Spec Validator

/-- **C96** Without `check_digests` the report for an object is exactly the report with `check_digests`, with the entries
about digests of files left out; and the object is valid if and only if none of the entries that are left is an error. This
holds for every tree for which the check with digests ends without an exception. -/
theorem C96 {E : Env} {cfg : Config} {s : FS} {path : Str} {errors : Nat} {ok : Bool} {es : List Entry}
    (h : validateObject E { cfg with checkDigests := true } errors s path = .ok (ok, es)) :
    ∃ ok', validateObject E { cfg with checkDigests := false } errors s path = .ok (ok', withoutDigests es) ∧
      (ok = true ↔ errors = 0 ∧ ∀ e ∈ es, e.isError = false) ∧
      (ok' = true ↔ errors = 0 ∧ ∀ e ∈ es, e.isError = true → e.code ∈ digestCodes) := by
  obtain ⟨ok', h1, h2, h3⟩ := drops_object h
  refine ⟨ok', h1, h2.trans ?_, h3.trans ?_⟩
  · rw [Nat.add_eq_zero_iff, IV.numErrors, List.length_eq_zero_iff, List.filter_eq_nil_iff]
    simp
  · rw [Nat.add_eq_zero_iff, IV.numErrors, List.length_eq_zero_iff, List.filter_eq_nil_iff]
    unfold withoutDigests
    refine and_congr_right fun _ => forall_congr' fun e => ?_
    rw [List.mem_filter]
    constructor
    · intro hc he hk
      by_contra hn
      exact hc ⟨he, by simpa using hn⟩ hk
    · rintro hc ⟨he, hn⟩ hk
      exact absurd (hc he hk) (by simpa using hn)

/-- **C96** A valid object is valid without `check_digests` too, with the same warnings. -/
theorem C96_valid {E : Env} {cfg : Config} {s : FS} {path : Str} {errors : Nat} {es : List Entry}
    (h : validateObject E { cfg with checkDigests := true } errors s path = .ok (true, es)) :
    validateObject E { cfg with checkDigests := false } errors s path = .ok (true, withoutDigests es) := by
  obtain ⟨ok', h1, h2, h3⟩ := C96 h
  have h2 := h2.mp rfl
  rw [h1, h3.mpr ⟨h2.1, fun e he hk => by rw [h2.2 e he] at hk; cases hk⟩]

/-! ## Examples -/

/-- The object of `oneFS` with other content, without the right digest in the sidecar, and with a file too much. -/
def damagedFS : FS :=
  objectOf [declared, ([c!"inventory.json"], textOf (oneInv c!"v1" [c!"g"])), ([c!"inventory.json.sha512"], .file (utf8 c!"abc inventory.json\n")),
    ([c!"stray"], .file []), ([c!"v1"], .dir), ([c!"v1", c!"content"], .dir), ([c!"v1", c!"content", c!"f"], .file [2])]

theorem damagedFS_report : validateObject demoEnv { checkDigests := true } 0 damagedFS c!"obj" =
    .ok (false, [⟨false, c!"W007a"⟩, ⟨false, c!"W007b"⟩, ⟨true, c!"E060"⟩, ⟨true, c!"E001a"⟩, ⟨false, c!"W010"⟩, ⟨true, c!"E092a"⟩]) := by
  decide +kernel

example : validateObject demoEnv { checkDigests := false } 0 damagedFS c!"obj" =
    .ok (false, [⟨false, c!"W007a"⟩, ⟨false, c!"W007b"⟩, ⟨true, c!"E001a"⟩, ⟨false, c!"W010"⟩]) := by
  obtain ⟨ok', h, _, h'⟩ := C96 (cfg := {}) damagedFS_report
  rw [h]
  have : ok' = false := by
    cases ok' with
    | false => rfl
    | true => exact absurd (h'.mp rfl).2 (by decide +kernel)
  rw [this]
  decide +kernel

/-- A valid object. -/
example : ∃ es, validateObject demoEnv { checkDigests := false } 0 (oneFS c!"v1" [c!"g", c!"d/h"]) c!"obj" = .ok (true, es) := by
  obtain ⟨es, h⟩ := oneFS_valid
  exact ⟨_, C96_valid (cfg := {}) h⟩

end Ocfl
