import Verif.Py.Basic

/-!
# Specification: version directory names

Independent of the model of `ocfl/object_utils.py`.
-/

namespace Ocfl.Spec

open Ocfl

/-- The recommended, unpadded name of version `n`: `v3`. -/
def unpaddedName (n : Nat) : Str := 'v' :: Nat.toDigits 10 n

/-- The name of version `n` with its number left-padded with zeros to `w` digits: `v0003`. -/
def paddedName (w n : Nat) : Str := 'v' :: List.leftpad w '0' (Nat.toDigits 10 n)

/-- `d` is a `v`, then decimal digits `ds` that spell the number `n`, then possibly a newline
(which Python's `$` overlooks). Digits may come from any Unicode digit block. -/
def Spells (d ds : Str) (n : Nat) : Prop :=
  ds ≠ [] ∧ (∀ c ∈ ds, ∃ v, digitVal c = some v) ∧
  n = ds.foldl (fun acc c => 10 * acc + (digitVal c).getD 0) 0 ∧
  (d = 'v' :: ds ∨ d = 'v' :: ds ++ ['\n'])

end Ocfl.Spec
