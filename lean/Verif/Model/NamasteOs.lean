import Verif.Model.Namaste
import Verif.Model.Paths

/-!
# Model of the parts of `ocfl/namaste.py` that use plain files

These are the branches without a `fsw` file system, and `get_namaste`. Paths are relative to the working directory `cwd` and taken apart as text;
there are no symbolic links. `tr` is the argument `tr_func`.
-/

namespace Ocfl

/-- `os.listdir(dir)`: an empty path is no path at all. -/
def osListdir (s : FS) (cwd : Path) (dir : Str) : Py (List Str) :=
  if dir = [] then .error .fileNotFound
  else
    match FS.look s (absComps cwd dir) with
    | none => .error (FS.missing s (absComps cwd dir))
    | some (.file _) => .error .notADirectory
    | some .dir => .ok ((FS.children s (absComps cwd dir)).map Prod.fst)

/-- `find_namastes(d, dir, limit=limit)`, `ocfl/namaste.py` lines 25-52: the tvalues. -/
def findNamastesOs (s : FS) (cwd : Path) (d : Nat) (dir : Str) (limit : Nat) : Py (List Str) :=
  match osListdir s cwd dir with
  | .error e => .error e
  | .ok names =>
    let pfx := natStr d ++ c!"="
    let filenames := names.filter (fun f => startsWith f pfx)
    if filenames.length > limit then .error .namasteException
    else .ok ((sortStr filenames).map (fun f => f.drop pfx.length))

/-- `get_namaste(d, dir)`, `ocfl/namaste.py` lines 55-63: the tvalue. -/
def getNamaste (s : FS) (cwd : Path) (d : Nat) (dir : Str) : Py Str :=
  match findNamastesOs s cwd d dir 1 with
  | .error e => .error e
  | .ok [t] => .ok t
  | .ok _ => .error .namasteException

/-- `Namaste(d, content, tr_func=tr).write(dir)`, `ocfl/namaste.py` lines 99-115. -/
def namasteWriteOs (tr : Str → Str) (cwd : Path) (d : Nat) (content dir : Str) : Prog Unit :=
  FS.writeFile (absComps cwd (osPathJoin dir (namasteFilename d (tr content)))) (utf8 (content ++ c!"\n"))

/-- `Namaste(d, tvalue=tvalue, tr_func=tr).check_content(dir)`, `ocfl/namaste.py` lines 117-133. -/
def namasteCheckOs (tr : Str → Str) (s : FS) (cwd : Path) (d : Nat) (tvalue dir : Str) : Py Unit :=
  if tvalue = [] then .error .namasteException
  else if FS.isfile s (absComps cwd (osPathJoin dir (namasteFilename d tvalue))) = false then .error .namasteException
  else
    match readText s (absComps cwd (osPathJoin dir (namasteFilename d tvalue))) with
    | .error e => .error e
    | .ok content => if tvalue ≠ tr content then .error .namasteException else .ok ()

/-- `Namaste(d, tvalue=tvalue, tr_func=tr).content_ok(dir)`, `ocfl/namaste.py` lines 135-141. -/
def namasteContentOkOs (tr : Str → Str) (s : FS) (cwd : Path) (d : Nat) (tvalue dir : Str) : Py Bool :=
  match namasteCheckOs tr s cwd d tvalue dir with
  | .ok () => .ok true
  | .error .namasteException => .ok false
  | .error e => .error e

end Ocfl
