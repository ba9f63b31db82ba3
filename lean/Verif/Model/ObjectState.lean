import Verif.Model.TreeView

/-!
# An `Object` that is used for several calls

`parse_inventory` and `tree` set attributes of the `Object` that `create` and `build` use. Not modelled: the attribute `obj_fs`, so
only calls that are given the directory of the object; and `start_new_version` without `write_new_version`.
-/

namespace Ocfl

/-- A call of a method of an `Object`, `ocfl/object.py` lines 267, 331, 375, 542, 618, 702 and 743. -/
inductive ObjCall where
  | create (srcdir : Str) (metadata : Option VBlock) (objdir : Option Str)
  | build (srcdir : Str) (metadata : Nat → VBlock) (objdir : Option Str)
  | update (objdir : Str) (srcdir : Option Str) (metadata : Option VBlock) (abort : Bool)
  | tree (objdir : Str)
  | validate (objdir : Str) (checkDigests : Bool)
  | extract (objdir version dstdir : Str)
  | extractFile (objdir version dstdir logicalPath : Str)

/-- What a call returns or raises. -/
inductive ObjReply where
  | inventory (r : Py (Option Inv))
  | metadata (r : Py VMeta)
  | text (r : Py Str)
  | verdict (r : Py (Bool × List Entry))

/-- The call itself, with the attributes that the `Object` has: the file system afterwards and what is returned. -/
def ObjCall.exec (E : Env) (o : Obj) : ObjCall → FS → FS × ObjReply
  | .create srcdir metadata objdir, s =>
    let r := Prog.run (Ocfl.create E o srcdir metadata objdir) s
    (r.1, .inventory (r.2.map some))
  | .build srcdir metadata objdir, s =>
    let r := Prog.run (Ocfl.build E o srcdir metadata objdir) s
    (r.1, .inventory r.2)
  | .update objdir srcdir metadata abort, s =>
    let r := Prog.run (addVersionWithContent E o objdir srcdir metadata abort) s
    (r.1, .inventory r.2)
  | .tree objdir, s => (s, .text (TreeView.tree E o.lax objdir s))
  | .validate objdir checkDigests, s =>
    (s, .verdict (Validator.validateObject E { checkDigests := checkDigests, lax := o.lax } 0 s objdir))
  | .extract objdir version dstdir, s =>
    let r := Prog.run (Ocfl.extract E objdir version dstdir) s
    (r.1, .metadata r.2)
  | .extractFile objdir version dstdir logicalPath, s =>
    let r := Prog.run (Ocfl.extractFile E objdir version dstdir logicalPath) s
    (r.1, .metadata r.2)

/-- `self.spec_version` as set by `parse_inventory()`, `ocfl/object.py` lines 798-803: not before the inventory has been found
valid. -/
def parsedVersion (E : Env) (base : Path) (s : FS) : Option Str :=
  match readText s (FS.resolve base inventoryFilename) with
  | .error _ => none
  | .ok text =>
    match E.lib.loads text with
    | none => none
    | some j =>
      match (match j with
        | .null => Except.ok (Json.obj [])
        | .obj d => .ok (.obj d)
        | _ => .error PyErr.inventoryException) with
      | .error _ => none
      | .ok j =>
        match IV.validate E.isWord false c!"1.1" none j with
        | .ok (res, true, _) => some res.specVersion
        | _ => none

/-- The attributes after `parse_inventory()` on the object at `objdir`, if that can be opened. -/
def afterParse (E : Env) (o : Obj) (objdir : Str) (s : FS) : Obj :=
  match openObj E objdir s with
  | .error _ => o
  | .ok base => { o with specVersion := (parsedVersion E base s).getD o.specVersion }

/-- The attributes of the `Object` after a call, `ocfl/object.py` lines 444-449, 562-567, 692-694 and 803. -/
def ObjCall.after (E : Env) (o : Obj) : ObjCall → FS → Obj
  | .create _ _ _, _ => o
  | .build _ _ _, _ => o
  | .validate _ _, _ => o
  | .update objdir _ _ _, s =>
    match Validator.validateObject E { checkDigests := false, lax := o.lax } 0 s objdir with
    | .ok (true, _) => afterParse E o objdir s
    | _ => o
  | .tree objdir, s =>
    match Validator.validateObject E { checkDigests := false, lax := o.lax } 0 s objdir with
    | .error _ => o
    | .ok _ =>
      match openObj E objdir s with
      | .error _ => { o with specVersion := c!"1.1", contentDirectory := c!"content" }
      | .ok base =>
        let seen := TreeView.validatorSees E { checkDigests := false, lax := o.lax } s base
        { o with specVersion := seen.1, contentDirectory := seen.2 }
  | .extract objdir _ _, s => afterParse E o objdir s
  | .extractFile objdir _ _ _, s => afterParse E o objdir s

/-- Several calls on one `Object`, one after the other, whatever they return: the file system, the attributes, and what was
returned. -/
def objCalls (E : Env) : Obj → List ObjCall → FS → FS × Obj × List ObjReply
  | o, [], s => (s, o, [])
  | o, c :: cs, s =>
    let r := c.exec E o s
    let rest := objCalls E (c.after E o s) cs r.1
    (rest.1, rest.2.1, r.2 :: rest.2.2)

end Ocfl
