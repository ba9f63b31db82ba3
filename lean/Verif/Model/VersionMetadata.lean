import Verif.Model.Inventory

/-!
# Model of `ocfl/version_metadata.py`
-/

namespace Ocfl

/-- `VersionMetadata`, `ocfl/version_metadata.py` lines 17-40. -/
structure VMeta where
  id : Option Str := none
  created : Option Str := none
  message : Option Str := none
  name : Option Str := none
  address : Option Str := none
  /-- `self.version`, set by `from_inventory` only -/
  version : Option Str := none
  deriving DecidableEq, Repr

namespace VMeta

/-- `as_dict()`, `ocfl/version_metadata.py` lines 80-98; `now` is `datetime_to_str()`. -/
def asDict (now : Str) (m : VMeta) : VBlock where
  created := match m.created with
    | none => some now
    | some [] => some now
    | some c => some c
  message := m.message
  user := if m.name.isSome ∨ m.address.isSome then some { name := m.name, address := m.address } else none

/-- The `user` part of `from_inventory`, `ocfl/version_metadata.py` lines 74-78. -/
def readUser (u : Option User) (m : VMeta) : VMeta :=
  match u with
  | none => m
  | some u =>
    { m with name := match u.name with | none => m.name | some n => some n
             address := match u.address with | none => m.address | some a => some a }

/-- `from_inventory(inventory, version)`, `ocfl/version_metadata.py` lines 42-78: the object after
the call (the identifier is set before anything can fail) and the outcome. -/
def fromInventory (inv : Inv) (version : Option Str) (m : VMeta) : VMeta × Py Unit :=
  let m := { m with id := inv.id }
  match inv.versions with
  | none => (m, .error .inventoryException)
  | some vs =>
    match version.orElse (fun _ => inv.head) with
    | none => (m, .error .inventoryException)
    | some v =>
      match Dict.get? vs v with
      | none => (m, .error .inventoryException)
      | some b =>
        let m := { m with version := some v }
        let m := match b.created with | none => m | some c => { m with created := some c }
        let m := match b.message with | none => m | some x => { m with message := some x }
        (readUser b.user m, .ok ())

end VMeta
end Ocfl
