import Verif.Spec.State
import Verif.Spec.VersionDir
import Verif.Model.Inventory

/-! # Specification: version histories

The model is used here only for the types of version blocks. -/

namespace Ocfl.Spec
open Ocfl

/-- The name of version `n` in one of the naming styles: unpadded, or padded to `w` digits. -/
def styleName : Option Nat → Nat → Str
  | none, n => unpaddedName n
  | some w, n => paddedName w n

/-- The largest version number that a naming style leaves room for (five digits unpadded is what
the parser accepts). -/
def styleLimit : Option Nat → Nat
  | none => 99999
  | some w => 10 ^ (w - 1) - 1

/-- The naming styles the library offers. -/
def StyleOK : Option Nat → Prop
  | none => True
  | some w => 2 ≤ w ∧ w ≤ 5

/-- The block stored for given metadata and state. -/
def blockOf (metadata : Option VBlock) (state : Option DigestMap) : VBlock :=
  match state with
  | none => metadata.getD {}
  | some st => { metadata.getD {} with state := some st }

/-- The versions block after adding versions with the given metadata and states, numbering from
`n`. -/
def history (style : Option Nat) (n : Nat) : List (Option VBlock × Option DigestMap) → List (Str × VBlock)
  | [] => []
  | (m, s) :: rest => (styleName style n, blockOf m s) :: history style (n + 1) rest

/-- `v` names version number `n` of an inventory. -/
def VersionNo (v : Str) (n : Nat) : Prop := ∃ ds, Spells v ds n ∧ ds.length ≤ 5 ∧ n ≠ 0

end Ocfl.Spec
