import Verif.Model.StorageRoot

/-!
# A `StorageRoot` that is used for several calls

The attributes that a call leaves behind are part of the model of each method; here the calls are put together. Between the calls
other programs may change the file system. Simplification: after an exception in the middle of a traversal the errors counted until then are
lost (`listObjects`, `validate`).
-/

namespace Ocfl
namespace Store

/-- A call of a method of a `StorageRoot`, `ocfl/storage_root.py` lines 160, 358, 419 and 460. -/
inductive RootCall where
  | list
  | validate (validateObjects checkDigests : Bool)
  | path (identifier : Str)
  | add (objdir : Str)

/-- What a call returns or raises. -/
inductive RootReply where
  | objects (r : Py (List (Str × Option Str)))
  | report (r : Py Report)
  | path (r : Py Str)
  | added (r : Py (Str × Str))

/-- The attributes after `add(objdir)`, `ocfl/storage_root.py` lines 460-488: those that `check_root_structure` and `object_path` set. -/
def afterAdd (E : Env) (reg : Dict Str LayoutObj) (enc : Str → Str) (r : StorageRoot) (objdir : Str) (s : FS) : StorageRoot :=
  match openRoot E r s with
  | .error _ => r
  | .ok base =>
    match checkStructure E reg s base r with
    | (r, .error _) => r
    | (r, .ok _) =>
      match openObj E objdir s with
      | .error _ => r
      | .ok src =>
        match parseInventory E src s with
        | .error _ => r
        | .ok inv => (objectPath E reg enc s r (inv.id.getD [])).1

/-- A call: the file system and the attributes afterwards, and what is returned. -/
def RootCall.exec (E : Env) (reg : Dict Str LayoutObj) (enc : Str → Str) (r : StorageRoot) : RootCall → FS → FS × StorageRoot × RootReply
  | .list, s =>
    let x := listObjects E reg s r
    (s, x.1, .objects x.2)
  | .validate vo check, s =>
    let x := Store.validate E reg vo check s r
    (s, x.1, .report x.2)
  | .path identifier, s =>
    let x := objectPath E reg enc s r identifier
    (s, x.1, .path x.2)
  | .add objdir, s =>
    let x := Prog.run (Store.add E reg enc r objdir) s
    (x.1, afterAdd E reg enc r objdir s, .added x.2)

/-- Calls on one `StorageRoot`, each with the file system that it finds: what each makes of the file system, and what is returned. -/
def rootCalls (E : Env) (reg : Dict Str LayoutObj) (enc : Str → Str) : StorageRoot → List (RootCall × FS) → List (FS × RootReply)
  | _, [] => []
  | r, (c, s) :: cs =>
    let x := c.exec E reg enc r s
    (x.1, x.2.2) :: rootCalls E reg enc x.2.1 cs

end Store
end Ocfl
