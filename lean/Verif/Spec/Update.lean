import Verif.Spec.FS
import Verif.Spec.InventoryRules
import Verif.Model.NewVersion
import Verif.Model.Object

/-!
# Specification: what a new version may do to the storage
-/

namespace Ocfl.Spec

open Ocfl FS

/-- The name of the sidecar for an algorithm. -/
def sidecarName (alg : Str) : Str := c!"inventory.json." ++ alg

/-- A path of plain names: no empty name, no `.` and no `..`. -/
def PlainPath (p : Str) : Prop := ∃ ws : List Str, ws ≠ [] ∧ (∀ w ∈ ws, SafeName w) ∧ p = pathOf ws

/-- A call whose paths cannot climb: the content path if one is given, otherwise the source path from
which one is made. -/
def PlainCall : NV.Op → Prop
  | .add s _ none => PlainPath s
  | .add _ _ (some c) => PlainPath c
  | .delete _ => True
  | .rename _ _ => True

/-- The root inventory of the object in `base`, or its sidecar for one of the algorithms. -/
def RootInventory (base : Path) (algs : List Str) (q : Path) : Prop :=
  q = base ++ [c!"inventory.json"] ∨ ∃ a ∈ algs, q = base ++ [sidecarName a]

/-- Between `s` and `s'`, apart from the root inventory and its sidecars for the algorithms: what was
there is unchanged, and what has appeared lies in the directory `head` of the object in `base`. -/
structure OnlyAdds (s s' : FS) (base : Path) (head : Str) (algs : List Str) : Prop where
  kept : ∀ q, ¬ RootInventory base algs q → look s q ≠ none → look s' q = look s q
  added : ∀ q, ¬ RootInventory base algs q → look s q = none → look s' q ≠ none → base ++ [head] <+: q

/-- The directory of the new version has an inventory with its sidecar, and the root inventory holds a
first part of the same text (or all of it). -/
def Replacing (E : Env) (s : FS) (base : Path) (head alg : Str) : Prop :=
  ∃ text d n, look s (base ++ [head, c!"inventory.json"]) = some (.file text) ∧ fileDigest E.raw alg text = some d ∧
    look s (base ++ [head, sidecarName alg]) = some (.file (utf8 (d ++ c!" inventory.json\n"))) ∧
    look s (base ++ [c!"inventory.json"]) = some (.file (text.take n))

/-- The root inventory is as it was and so are the sidecars, unless the algorithm changes. -/
def RootKept (s s' : FS) (base : Path) (sameAlg : Prop) : Prop :=
  look s' (base ++ [c!"inventory.json"]) = look s (base ++ [c!"inventory.json"]) ∧
    (sameAlg → ∀ a, look s' (base ++ [sidecarName a]) = look s (base ++ [sidecarName a]))

end Ocfl.Spec
