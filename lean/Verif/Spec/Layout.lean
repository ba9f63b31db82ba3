import Verif.Py.Basic

/-!
# Specification: paths in a storage root

Independent of the model of the layouts.
-/

namespace Ocfl.Spec

open Ocfl

/-- `w` can be used as the name of one directory and does not lead elsewhere. -/
def SafeName (w : Str) : Prop := w ≠ [] ∧ w ≠ c!"." ∧ w ≠ c!".." ∧ '/' ∉ w

instance (w : Str) : Decidable (SafeName w) := by unfold SafeName; infer_instance

/-- The path `p` is made of the names `ws`, all of them safe: it lies below the storage root. -/
def Below (p : Str) (ws : List Str) : Prop :=
  ws ≠ [] ∧ (∀ w ∈ ws, SafeName w) ∧ p = joinWith '/' ws

/-- The object at `p` lies strictly below the object at `q`. -/
def NestedIn (p q : Str) : Prop := ∃ rest, p = q ++ '/' :: rest

/-- A digest function as `hashlib` provides it: lower-case hexadecimal of fixed length. -/
def HexDigests (raw : Str → Bytes → Str) : Prop :=
  ∀ alg b, (∀ c ∈ raw alg b, c ∈ c!"0123456789abcdef") ∧ ∀ b', (raw alg b').length = (raw alg b).length

/-- The configurations extension 0003 allows: a digest algorithm that can be computed, both
numbers zero or both positive, and no more characters used than the digest has. -/
def ValidNTuple (raw : Str → Bytes → Str) (alg : Str) (tupleSize numberOfTuples : Nat) : Prop :=
  (alg = c!"sha512" ∨ alg = c!"sha256" ∨ alg = c!"sha1" ∨ alg = c!"md5") ∧
  (tupleSize = 0 ↔ numberOfTuples = 0) ∧ tupleSize * numberOfTuples ≤ (raw alg []).length

/-- The first components of a path cut `s` into pieces of `n` characters, starting at the
beginning. -/
def Cuts (n : Nat) (pieces : List Str) (s : Str) : Prop :=
  (∀ w ∈ pieces, w.length = n) ∧ ∃ rest, s = pieces.flatten ++ rest

/-- A canonical UUID: 32 lower-case hexadecimal digits in groups of 8, 4, 4, 4, 12. -/
def CanonicalUuid (s : Str) : Prop :=
  ∃ a b c d e : Str, s = a ++ '-' :: b ++ '-' :: c ++ '-' :: d ++ '-' :: e ∧
    a.length = 8 ∧ b.length = 4 ∧ c.length = 4 ∧ d.length = 4 ∧ e.length = 12 ∧
    ∀ x ∈ a ++ b ++ c ++ d ++ e, x ∈ c!"0123456789abcdef"

/-- The names in a path: what stands between separators. -/
def namesOf (path : Str) : List Str := (splitOn '/' path).filter (fun w => w ≠ [])

end Ocfl.Spec
