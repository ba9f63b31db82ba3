import Verif.Model.StorageRoot

/-!
# Model of `ocfl-validate.py`
-/

namespace Ocfl
namespace Cli

/-- The arguments of the command that matter, `ocfl-validate.py` lines 24-43. -/
structure Args where
  paths : List Str
  lax : Bool := false
  noCheckDigests : Bool := false
  deriving DecidableEq, Repr

/-- `Object.validate_inventory(path)`, `ocfl/object.py` lines 646-681: the first result. A missing
directory is a `FileNotFoundError`, which is not caught. -/
def validateInventoryFile (E : Env) (lax : Bool) (s : FS) (path : Str) : Py Bool :=
  let (dir, file) := osPathSplit path
  match fswOpen E.cwd dir s with
  | .error e => .error e
  | .ok base =>
    match Validator.validateInventory E { lax := lax } c!"1.1" s base file with
    | .raised e => .error e
    | .abort es => .ok (IV.numErrors es = 0)
    | .done _ es => .ok (IV.numErrors es = 0)

/-- The body of the loop of `do_validation`, `ocfl-validate.py` lines 63-89, with
`validate_object` and `validate_object_inventory`, `ocfl/command_line_utils.py` lines 110-165: is the path
counted as good? -/
def validatePath (E : Env) (reg : Dict Str LayoutObj) (args : Args) (s : FS) (path : Str) : Py Bool :=
  match findPathType E.cwd path s with
  | .error e => .error e
  | .ok .object =>
    match Validator.validateObject E { checkDigests := !args.noCheckDigests, lax := args.lax } 0 s path with
    | .error e => .error e
    | .ok (passed, _) => .ok passed
  | .ok .root =>
    match Store.validate E reg true (!args.noCheckDigests) s { root := path, lax := args.lax } with
    | (_, .error e) => .error e
    | (_, .ok report) => .ok report.valid
  | .ok .file => validateInventoryFile E args.lax s path
  | .ok .other => .ok false

/-- The loop of `do_validation`, `ocfl-validate.py` lines 57-91: `num` and `num_good`. -/
def countGood (E : Env) (reg : Dict Str LayoutObj) (args : Args) (s : FS) : Nat → Nat → List Str → Py (Nat × Nat)
  | num, good, [] => .ok (num, good)
  | num, good, path :: rest =>
    match validatePath E reg args s path with
    | .error e => .error e
    | .ok ok => countGood E reg args s (num + 1) (if ok then good + 1 else good) rest

/-- `do_validation(args)`, `ocfl-validate.py` lines 46-92. -/
def doValidation (E : Env) (reg : Dict Str LayoutObj) (args : Args) (s : FS) : Py Bool :=
  match countGood E reg args s 0 0 args.paths with
  | .error e => .error e
  | .ok (num, good) => .ok (good = num)

/-- The exit status of the command, `ocfl-validate.py` lines 95-99; it is 1 after an exception, too. -/
def exitStatus (E : Env) (reg : Dict Str LayoutObj) (args : Args) (s : FS) : Nat :=
  match doValidation E reg args s with
  | .ok true => 0
  | _ => 1

end Cli
end Ocfl
