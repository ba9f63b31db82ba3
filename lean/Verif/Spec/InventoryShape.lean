import Verif.Spec.InventoryRules

/-!
# Specification: JSON documents on which the inventory validator does not raise
-/

namespace Ocfl.Spec
open Ocfl

/-- A list or an object, which Python cannot hash. -/
def Unhashable (j : Json) : Prop := (∃ l, j = .arr l) ∨ (∃ d, j = .obj d)

/-- In the object `j` every list has only strings. -/
def ListsOfStrings (j : Json) : Prop := ∀ d l, Member j d (.arr l) → ∀ x ∈ l, ∃ s, x = .str s

/-- An object with a manifest, whose version blocks are objects and whose lists of paths are lists
of strings. Nothing is said about any other value. -/
structure Shape (lax : Bool) (inv : Json) : Prop where
  manifest : ∃ m, Member inv c!"manifest" m ∧ ListsOfStrings m
  digestAlgorithm : lax = true → ∀ x, Member inv c!"digestAlgorithm" x → ¬ Unhashable x
  version : ∀ vs v b, Member inv c!"versions" vs → Member vs v b → ∃ d, b = .obj d
  state : ∀ vs v b st, Member inv c!"versions" vs → Member vs v b → Member b c!"state" st → ListsOfStrings st
  fixity : ∀ fx alg b d l, Member inv c!"fixity" fx → Member fx alg b → Member b d (.arr l) → ∀ x ∈ l, ¬ Unhashable x

end Ocfl.Spec
