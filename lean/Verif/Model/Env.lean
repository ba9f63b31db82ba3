import Verif.Model.Digest
import Verif.Model.JsonLib
import Verif.Model.InventoryValidator

/-!
# What the code that works on objects takes from outside
-/

namespace Ocfl

/-- The parameters of the model: nothing is assumed about them here. -/
structure Env where
  /-- the functions of `hashlib`, by name -/
  raw : Str → Bytes → Str
  /-- the module `json` -/
  lib : JsonLib
  /-- the class `\w` of the module `re` -/
  isWord : Char → Bool
  /-- the current working directory -/
  cwd : Path
  /-- Python's `==` on (possibly missing) JSON values -/
  same : Option Json → Option Json → Bool
  /-- `BUFLEN` in `ocfl/fsw.py` -/
  buflen : Nat

/-- `INVENTORY_FILENAME`, `ocfl/constants.py`. -/
def inventoryFilename : Str := c!"inventory.json"

/-- `file_digest(filename, digest_type, fs)`, `ocfl/digest.py` lines 21-68, for the file at a
resolved path: an algorithm that is not supported is noticed before the file is opened. -/
def digestAt (E : Env) (s : FS) (p : Path) (alg : Str) : Py Str :=
  match fileDigest E.raw alg [] with
  | none => .error .valueError
  | some _ =>
    match FS.read s p with
    | .error e => .error e
    | .ok b =>
      match fileDigest E.raw alg b with
      | none => .error .valueError
      | some d => .ok d

end Ocfl
