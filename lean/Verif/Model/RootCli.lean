import Verif.Model.StorageRoot
import Verif.Model.TreeView

/-!
# Model of `ocfl-root.py`

The arguments are those that `argparse` gives. Options that change the log only are left out. What is printed is given as a
value. `enc` is `pairtree.id_encode` and `reg` the registry of layouts.
-/

namespace Ocfl
namespace RootCli

/-- The arguments that all commands but `validate-object` take, `ocfl-root.py` lines 14-22, and the environment variable
`OCFL_ROOT`, line 140. -/
structure Common where
  root : Option Str := none
  layout : Option Str := none
  laxDigests : Bool := false
  quiet : Bool := false
  ocflRoot : Option Str := none
  deriving DecidableEq, Repr

/-- The commands, `ocfl-root.py` lines 38-92. -/
inductive Command where
  | create (specVersion : Str := c!"1.1") (layoutParams : Option Str := none)
  | list
  | validate (validateObjects : Bool := false) (checkDigests : Bool := false) (maxErrors : Option Str := none)
  | add (src : Option Str)
  | purge (id : Option Str)
  | show_ (id : Option Str)
  | path (id : Option Str)
  | validateObject (id : Option Str)
  deriving DecidableEq, Repr

/-- What a command prints. -/
inductive Output where
  | nothing
  /-- `Created OCFL storage root ...` -/
  | created (root : Str)
  /-- A line `... -- id=...` for each object, and `Found ... OCFL Objects under root ...` -/
  | listed (objects : List (Str × Option Str)) (count : Nat) (root : Str)
  /-- `Objects checked: ... / ... are VALID`, or `INVALID`, or `Did not check OCFL objects`; then `Storage root ... is VALID`, or
  `INVALID`. What is printed of the log is left out. -/
  | report (objects : Option (Nat × Nat × Bool)) (root : Str) (valid : Bool)
  /-- `Added object ... at path ...` -/
  | added (id path : Str)
  /-- A line with the path of an object -/
  | line (text : Str)
  /-- `Object tree ...` -/
  | tree (text : Str)
  deriving DecidableEq, Repr

/-- `get_storage_root(args)`, `ocfl-root.py` lines 133-144. The exit is an exception here. -/
def getStorageRoot (a : Common) : Py Str :=
  match a.root, a.ocflRoot with
  | some (c :: l), _ => .ok (c :: l)
  | _, some root => .ok root
  | _, none => .error .exception

/-- What `validate(store, args)` prints, `ocfl-root.py` lines 119-130. -/
def printReport (validateObjects : Bool) (root : Str) (rep : Store.Report) : Output :=
  if validateObjects then
    if rep.goodObjects = rep.numObjects then .report (some (rep.goodObjects, rep.numObjects, true)) root rep.valid
    else .report (some (rep.numObjects - rep.goodObjects, rep.numObjects, false)) root false
  else .report none root rep.valid

/-- `validate(store, args)`, `ocfl-root.py` lines 102-130. If `--max_errors` is given it is a string, and to compare a number with it
raises `TypeError` as soon as one object was validated, `ocfl/storage_root.py` line 411. Simplification: if the validation
of another object raises something else, that is what is raised here. -/
def doValidate (E : Env) (reg : Dict Str LayoutObj) (validateObjects checkDigests : Bool) (maxErrors : Option Str) (s : FS) (r : StorageRoot) :
    Py Output :=
  match (Store.validate E reg validateObjects checkDigests s r).2 with
  | .error e => .error e
  | .ok rep =>
    if validateObjects ∧ maxErrors ≠ none ∧ rep.numObjects > 0 then .error .typeError
    else .ok (printReport validateObjects r.root rep)

/-- The argument `--id`, `ocfl-root.py` lines 169-170. -/
def needId (id : Option Str) : Py Str :=
  match id with
  | some (c :: l) => .ok (c :: l)
  | _ => .error .storageRootException

/-- The line that `path` prints, `ocfl-root.py` lines 173-177. -/
def pathLine (quiet : Bool) (root id objdir : Str) : Str :=
  if quiet then osPathJoin root objdir
  else c!"Path to " ++ id ++ c!" inside root " ++ root ++ c!" is " ++ objdir

/-- `show` and `path`, `ocfl-root.py` lines 168-181; the tree is that of a directory relative to the working directory, and not
to the storage root, and the `Object` does not have the lax digests. -/
def doLook (E : Env) (reg : Dict Str LayoutObj) (enc : Str → Str) (quiet show_ : Bool) (id : Option Str) (s : FS) (r : StorageRoot) : Py Output :=
  match needId id with
  | .error e => .error e
  | .ok id =>
    match (Store.objectPath E reg enc s r id).2 with
    | .error e => .error e
    | .ok objdir =>
      if show_ then
        match TreeView.tree E false objdir s with
        | .error e => .error e
        | .ok t => .ok (.tree t)
      else .ok (.line (pathLine quiet r.root id objdir))

/-- The `StorageRoot`, `ocfl-root.py` lines 149-151. -/
def store (a : Common) (root : Str) : StorageRoot := { root := root, layoutName := a.layout, lax := a.laxDigests }

/-- `do_store_operation(args)`, `ocfl-root.py` lines 147-185, with `parse_arguments`, lines 94-99. The command `validate-object` has none of
the common arguments, so that `check_verbosity_args` raises `AttributeError`, `ocfl/command_line_utils.py` line 101. -/
def doStoreOperation (E : Env) (reg : Dict Str LayoutObj) (enc : Str → Str) (a : Common) (cmd : Command) (s : FS) : FS × Py Output :=
  match cmd, getStorageRoot a with
  | .validateObject _, _ => (s, .error .attributeError)
  | _, .error e => (s, .error e)
  | .create spec params, .ok root =>
    match Prog.run (Store.initializeRoot E reg (store a root) (some spec) params) s with
    | (s', .error e) => (s', .error e)
    | (s', .ok _) => (s', .ok (.created root))
  | .list, .ok root =>
    (s, match (Store.listObjects E reg s (store a root)).2 with
      | .error e => .error e
      | .ok l => .ok (.listed l l.length root))
  | .validate vo check maxErrors, .ok root => (s, doValidate E reg vo check maxErrors s (store a root))
  | .add none, .ok _ => (s, .error .storageRootException)
  | .add (some []), .ok _ => (s, .error .storageRootException)
  | .add (some (c :: src)), .ok root =>
    match Prog.run (Store.add E reg enc (store a root) (c :: src)) s with
    | (s', .error e) => (s', .error e)
    | (s', .ok (id, path)) => (s', .ok (.added id path))
  | .purge _, .ok _ => (s, .ok .nothing)
  | .show_ id, .ok root => (s, doLook E reg enc a.quiet true id s (store a root))
  | .path id, .ok root => (s, doLook E reg enc a.quiet false id s (store a root))

/-- The exit status, `ocfl-root.py` lines 188-194: any exception makes it 1. -/
def exitStatus (r : FS × Py Output) : Nat :=
  match r.2 with
  | .ok _ => 0
  | .error _ => 1

end RootCli
end Ocfl
