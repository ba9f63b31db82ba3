import Verif.Model.Setters

/-!
# Which `dict`s the inventories of a program share

`ocfl/inventory.py` stores the very objects it is given: the `dict` that an `Inventory` is made of (line 135) and the `dict` with the metadata of
a version (line 414). Here such `dict`s have addresses. Simplification: only the `dict` of an inventory and the blocks of its versions have
addresses; the rest (manifest, fixity, states, user blocks) is a value.
-/

namespace Ocfl
namespace Sharing

/-- The `dict` of an inventory: the blocks of versions are given by their addresses. `rest` holds all other entries. -/
structure HData where
  rest : Inv := {}
  versions : Option (Dict Str Nat) := none
  deriving DecidableEq, Repr

/-- All `dict`s of a program. -/
structure World where
  blocks : List VBlock := []
  datas : List HData := []
  deriving DecidableEq, Repr

/-- The block at an address. -/
def World.block (w : World) (k : Nat) : VBlock := w.blocks.getD k {}

/-- The `dict` of an inventory at an address. -/
def World.data (w : World) (a : Nat) : HData := w.datas.getD a {}

/-- What is read through an `Inventory` whose `dict` is at an address. -/
def World.view (w : World) (a : Nat) : Inv :=
  { (w.data a).rest with versions := (w.data a).versions.map (fun vs => vs.map (fun p => (p.1, w.block p.2))) }

/-- `Inventory(data)` for a `dict`, `ocfl/inventory.py` lines 134-135: the address of the `dict` of the new `Inventory`. -/
def fromDict (a : Nat) (w : World) : World × Nat := (w, a)

/-- `Inventory(data)` for an `Inventory`, `ocfl/inventory.py` lines 132-133. `copy.deepcopy` copies a `dict` that occurs twice once; here all blocks are
copied. -/
def fromInventory (a : Nat) (w : World) : World × Nat :=
  let d := w.data a
  ({ blocks := w.blocks ++ w.blocks
     datas := w.datas ++ [{ d with versions := d.versions.map (fun vs => vs.map (fun p => (p.1, p.2 + w.blocks.length))) }] },
   w.datas.length)

/-- A call that changes an inventory. -/
inductive InvCall (M : Type)
  | addVersion (vdir : Option Str) (metadata : Option M) (state : Option DigestMap) (width : Option Nat)
  | setState (vdir : Str) (state : DigestMap)
  | setMeta (vdir : Str) (m : NV.MetaOp)
  | addFileToManifest (digest contentPath : Str)
  deriving DecidableEq, Repr

/-- Change the block of a version in place. -/
def changeBlock (a : Nat) (vdir : Str) (f : VBlock → VBlock) (w : World) : World :=
  match Dict.get? ((w.data a).versions.getD []) vdir with
  | none => w
  | some k => { w with blocks := w.blocks.set k (f (w.block k)) }

/-- What an assignment to a property makes of a block. -/
def metaChange : NV.MetaOp → VBlock → VBlock
  | .created v, b => { b with created := some v }
  | .message v, b => { b with message := some v }
  | .userAddress v, b => { b with user := some { (b.user.getD {}) with address := some v } }
  | .userName v, b => { b with user := some { (b.user.getD {}) with name := some v } }

/-- The outcome of an assignment to a property: `user` has to be stored (`ocfl/inventory.py` lines 640-644). -/
def metaOutcome (found : Bool) : NV.MetaOp → Py Unit
  | .created _ | .message _ => .ok ()
  | .userAddress _ | .userName _ => if found then .ok () else .error .keyError

/-- The second part of `add_version`, `ocfl/inventory.py` lines 408-420: the `dict` given is stored, and the state is stored in it. -/
def storeVersion (a : Nat) (v : Str) (metadata : Option Nat) (state : Option DigestMap) (w : World) : World :=
  let (w, k) : World × Nat := match metadata with
    | none => ({ w with blocks := w.blocks ++ [({} : VBlock)] }, w.blocks.length)
    | some k => (w, k)
  let w := match state with
    | none => w
    | some st => { w with blocks := w.blocks.set k { (w.block k) with state := some st } }
  let d := w.data a
  { w with datas := w.datas.set a { rest := { d.rest with head := some v }, versions := some (Dict.set (d.versions.getD []) v k) } }

/-- A call on the `Inventory` whose `dict` is at `a`; metadata is given by the address of a `dict`. `add_version`, `ocfl/inventory.py` lines
384-421; the other calls as in `Verif.Model.Inventory` and `Verif.Model.Setters`. -/
def exec (a : Nat) (c : InvCall Nat) (w : World) : World × Py Unit :=
  match c with
  | .addVersion vdir metadata state width =>
    match (match vdir with
      | some v => Except.ok v
      | none => (w.view a).nextVersionDir width) with
    | .error e => (w, .error e)
    | .ok v => (storeVersion a v metadata state w, .ok ())
  | .setState vdir st => (changeBlock a vdir (fun b => { b with state := some st }) w, .ok ())
  | .setMeta vdir m => (changeBlock a vdir (metaChange m) w, metaOutcome (Dict.get? ((w.data a).versions.getD []) vdir).isSome m)
  | .addFileToManifest digest cp =>
    let d := w.data a
    let r := d.rest.addFileToManifest digest cp
    ({ w with datas := w.datas.set a { d with rest := r.1 } }, r.2)

/-- What a program does: it makes a `dict` (or calls `as_dict()`), it makes an empty `Inventory`, or one from another one, or it changes one. -/
inductive Event
  | newDict (b : VBlock)
  | newInventory
  | copy (a : Nat)
  | call (a : Nat) (c : InvCall Nat)
  deriving DecidableEq, Repr

/-- One step of the program. -/
def Event.exec (w : World) : Event → World
  | .newDict b => { w with blocks := w.blocks ++ [b] }
  | .newInventory => { w with datas := w.datas ++ [({} : HData)] }
  | .copy a => (fromInventory a w).1
  | .call a c => (Sharing.exec a c w).1

end Sharing
end Ocfl
