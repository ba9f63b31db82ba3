import Verif.Model.NewVersion
import Verif.Model.VersionMetadata

/-!
# The metadata properties of `Version` and `NewVersion`

Simplification: the values set are strings (Python takes anything).
-/

namespace Ocfl
namespace Inv

/-- Change the block of a version in place; a version that does not exist has a fresh `dict`, which is lost
(`versiondata`, `ocfl/inventory.py` lines 295-300). -/
def setBlock (inv : Inv) (vdir : Str) (f : VBlock → VBlock) : Inv :=
  match inv.versionData vdir with
  | none => inv
  | some b => { inv with versions := some (Dict.set inv.versionsD vdir (f b)) }

/-- `Version.created` getter, `ocfl/inventory.py` lines 587-590. -/
def created (inv : Inv) (vdir : Str) : Option Str := (inv.versionData vdir).bind (·.created)

/-- `Version.created` setter, `ocfl/inventory.py` lines 592-595. -/
def setCreated (inv : Inv) (vdir value : Str) : Inv := inv.setBlock vdir (fun b => { b with created := some value })

/-- `Version.message` getter, `ocfl/inventory.py` lines 597-600. -/
def message (inv : Inv) (vdir : Str) : Option Str := (inv.versionData vdir).bind (·.message)

/-- `Version.message` setter, `ocfl/inventory.py` lines 602-605. -/
def setMessage (inv : Inv) (vdir value : Str) : Inv := inv.setBlock vdir (fun b => { b with message := some value })

/-- `Version.user` with `user_address`, `ocfl/inventory.py` lines 635-638 and 646-652. -/
def userAddress (inv : Inv) (vdir : Str) : Option Str := ((inv.versionData vdir).bind (·.user)).bind (·.address)

/-- `Version.user` with `user_name`, `ocfl/inventory.py` lines 635-638 and 659-665. -/
def userName (inv : Inv) (vdir : Str) : Option Str := ((inv.versionData vdir).bind (·.user)).bind (·.name)

/-- `user_add_if_not_present()` and a change of what it returns, `ocfl/inventory.py` lines 640-644. Raises `KeyError` if the version does not
exist. -/
def setUser (inv : Inv) (vdir : Str) (f : User → User) : Inv × Py Unit :=
  match inv.versionData vdir with
  | none => (inv, .error .keyError)
  | some _ => (inv.setBlock vdir (fun b => { b with user := some (f (b.user.getD {})) }), .ok ())

/-- `Version.user_address` setter, `ocfl/inventory.py` lines 654-657. -/
def setUserAddress (inv : Inv) (vdir value : Str) : Inv × Py Unit := inv.setUser vdir (fun u => { u with address := some value })

/-- `Version.user_name` setter, `ocfl/inventory.py` lines 667-670. -/
def setUserName (inv : Inv) (vdir value : Str) : Inv × Py Unit := inv.setUser vdir (fun u => { u with name := some value })

end Inv

namespace NV

/-- An assignment to a property of a `NewVersion`. -/
inductive MetaOp
  | created (value : Str)
  | message (value : Str)
  | userAddress (value : Str)
  | userName (value : Str)
  deriving DecidableEq, Repr

/-- The setters of `NewVersion`, `ocfl/new_version.py` lines 396-434. -/
def setMeta (m : MetaOp) (nv : NV) : NV × Py Unit :=
  match nv.inv.head with
  | none =>
    match m with
    | .created _ | .message _ => (nv, .ok ())
    | .userAddress _ | .userName _ => (nv, .error .keyError)
  | some head =>
    match m with
    | .created v => ({ nv with inv := nv.inv.setCreated head v }, .ok ())
    | .message v => ({ nv with inv := nv.inv.setMessage head v }, .ok ())
    | .userAddress v =>
      let r := nv.inv.setUserAddress head v
      ({ nv with inv := r.1 }, r.2)
    | .userName v =>
      let r := nv.inv.setUserName head v
      ({ nv with inv := r.1 }, r.2)

/-- A call of a method or an assignment to a property of a `NewVersion`. -/
inductive Call
  | content (op : Op)
  | said (m : MetaOp)
  deriving DecidableEq, Repr

/-- Perform one call. -/
def Call.exec (E : NVEnv) (nv : NV) : Call → NV × Py Unit
  | .content op => step E op nv
  | .said m => setMeta m nv

/-- Perform calls one after the other, whatever they raise: the `NewVersion` afterwards and the outcomes. -/
def callAll (E : NVEnv) : List Call → NV → NV × List (Py Unit)
  | [], nv => (nv, [])
  | c :: cs, nv =>
    let r := c.exec E nv
    let rest := callAll E cs r.1
    (rest.1, r.2 :: rest.2)

end NV
end Ocfl
