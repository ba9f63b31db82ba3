import Verif.Model.Object

/-!
# Model of `ocfl-sidecar.py`

Options that change the output only are left out. A path is not a URL.
-/

namespace Ocfl
namespace SidecarCli

/-- `os.path.isdir(path)`; the empty path is none. -/
def osIsdir (cwd : Path) (path : Str) (s : FS) : Bool := path ≠ [] && FS.isdir s (absComps cwd path)

/-- `os.path.isfile(path)` -/
def osIsfile (cwd : Path) (path : Str) (s : FS) : Bool :=
  match FS.look s (absComps cwd path) with
  | some (.file _) => path ≠ []
  | _ => false

/-- The part of `create_sidecar` that reads, `ocfl-sidecar.py` lines 40-51: the base directory and the algorithm of
the `Object`, or `none` if there is no inventory. `parse_inventory` does not set the algorithm; it is the default of the constructor,
`ocfl/object.py` line 78, unless given with `--digest`. -/
def prepareSidecar (E : Env) (digest : Option Str) (directory : Str) (s : FS) : Py (Option (Path × Str)) :=
  if osIsfile E.cwd (osPathJoin directory inventoryFilename) s = false then .ok none
  else
    match openObj E directory s with
    | .error e => .error e
    | .ok base =>
      match digest with
      | some d => .ok (some (base, d))
      | none =>
        match parseInventory E base s with
        | .error .objectException => .ok (some (base, c!"sha512"))
        | .error e => .error e
        | .ok _ => .ok (some (base, c!"sha512"))

/-- `create_sidecar(args, directory)`, `ocfl-sidecar.py` lines 38-53; `digest` is `args.digest`. The result says whether there was an
inventory. -/
def createSidecar (E : Env) (digest : Option Str) (directory : Str) : Prog Bool :=
  Prog.bind (Prog.look (prepareSidecar E digest directory)) (fun r =>
    match r with
    | none => .ret (.ok false)
    | some (base, alg) =>
      Prog.bind (writeInventoryAndSidecar E { digestAlgorithm := alg } base none []) (fun _ => .ret (.ok true)))

/-- The directory of a path given to the command, `ocfl-sidecar.py` lines 62-69; `none` if the path is ignored. -/
def sidecarDirectory (cwd : Path) (path : Str) (s : FS) : Option Str :=
  if osIsdir cwd path s then some path
  else if (osPathSplit path).2 = inventoryFilename then some (osPathSplit path).1
  else none

/-- The body of the loop of `main`, the same lines. -/
def sidecarPath (E : Env) (digest : Option Str) (path : Str) : Prog Unit :=
  Prog.get (fun s =>
    match sidecarDirectory E.cwd path s with
    | none => .ret (.ok ())
    | some directory => Prog.bind (createSidecar E digest directory) (fun _ => .ret (.ok ())))

/-- `main()`, `ocfl-sidecar.py` lines 56-69. -/
def sidecarMain (E : Env) (digest : Option Str) (paths : List Str) : Prog Unit :=
  Prog.forEach (sidecarPath E digest) (if paths.length = 0 then [c!"."] else paths)

end SidecarCli
end Ocfl
