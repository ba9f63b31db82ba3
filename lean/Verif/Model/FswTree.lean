import Verif.Model.Prog

/-!
# Model of `ocfl/fsw.py`, part 2: walking, listing and copying

A `DirFileSystem` is represented by the path of its base directory.
-/

namespace Ocfl

/-- `_fsw_relpath(path, start)`, `ocfl/fsw.py` lines 71-103. -/
def fswRelpath (path start : Str) : Py Str :=
  let path := lstripSlash path
  let start := lstripSlash start
  if start = [] then .ok path
  else
    let pathParts := splitOn '/' path
    let startParts := splitOn '/' start
    if pathParts.length < startParts.length then .error .valueError
    else if pathParts.take startParts.length ≠ startParts then .error .valueError
    else .ok (joinWith '/' (pathParts.drop startParts.length))

/-- `fsw_openfs(path)` for a local path without `://`, `ocfl/fsw.py` lines 106-196, with
`create=False`: the base directory. `cwd` is the current working directory. -/
def fswOpen (cwd : Path) (path : Str) (s : FS) : Py Path :=
  let p := absComps cwd path
  if FS.isdir s p then .ok p else .error .fileNotFound

/-- `fsw_openfs(path, create=True)`, the same lines: open the parent and create the directory
unless something is there already. -/
def fswOpenCreate (cwd : Path) (path : Str) : Prog Path :=
  let (parent, dir) := osPathSplit path
  Prog.bind (Prog.look (fswOpen cwd parent)) (fun base =>
    Prog.get (fun s =>
      if FS.exists_ s (FS.resolve base dir) then .ret (.ok (FS.resolve base dir))
      else Prog.bind (FS.makedir (FS.resolve base dir)) (fun _ => .ret (.ok (FS.resolve base dir)))))

/-- The inner loop of `fsw_walk`, `ocfl/fsw.py` lines 232-243: split the entries of a listing into
directory names and file names. -/
def walkEntries (dirpath : Str) : List (Str × Bool) → Py (List Str × List Str)
  | [] => .ok ([], [])
  | (infoName, isDirectory) :: rest =>
    match fswRelpath infoName dirpath with
    | .error e => .error e
    | .ok name =>
      match walkEntries dirpath rest with
      | .error e => .error e
      | .ok (dirs, files) =>
        if name = c!".." ∨ name = c!"." ∨ name = [] then .ok (dirs, files)
        else if isDirectory then .ok (name :: dirs, files)
        else .ok (dirs, name :: files)

/-- One directory of the walk: `(dirpath, dirs, files)`. -/
structure Visit where
  dirpath : Str
  dirs : List Str
  files : List Str
  deriving DecidableEq, Repr

/-- The listing of one directory during the walk. -/
def walkDir (s : FS) (base : Path) (dirpath : Str) : Py Visit :=
  match FS.listdir s base (lstripSlash dirpath) with
  | .error e => .error e
  | .ok infos =>
    match walkEntries dirpath infos with
    | .error e => .error e
    | .ok (dirs, files) => .ok ⟨dirpath, dirs, files⟩

/-- The loop of `fsw_walk`, `ocfl/fsw.py` lines 228-248, with fuel: `stack` has its top first.
`prune` is what the consumer of the generator does to the list of directories before the walk goes
on. Simplification: the consumer does not change the file system during the walk. With enough fuel
the value for exhausted fuel is not reached (`walk_eq`). -/
def walkLoop (s : FS) (base : Path) (prune : Visit → List Str) : (fuel : Nat) → List Str → Py (List Visit)
  | 0, _ => .ok []
  | _ + 1, [] => .ok []
  | fuel + 1, dirpath :: stack =>
    match walkDir s base dirpath with
    | .error e => .error e
    | .ok v =>
      match walkLoop s base prune fuel ((prune v).map (osPathJoin dirpath) ++ stack) with
      | .error e => .error e
      | .ok vs => .ok (v :: vs)

/-- `fsw_walk(fs, dir)`, `ocfl/fsw.py` lines 212-248, consumed to the end. -/
def fswWalkPruned (s : FS) (base : Path) (prune : Visit → List Str) (dir : Str) : Py (List Visit) :=
  walkLoop s base prune (s.length + 2) [if startsWith dir c!"/" then dir else '/' :: dir]

/-- `fsw_walk(fs, dir)` by a consumer that does not prune. -/
def fswWalk (s : FS) (base : Path) (dir : Str) : Py (List Visit) :=
  fswWalkPruned s base Visit.dirs dir

/-- The loop of `fsw_walk_files`, `ocfl/fsw.py` lines 262-268. -/
def walkFilesLoop (dir : Str) : List Visit → Py (List Str)
  | [] => .ok []
  | v :: vs =>
    match fswRelpath v.dirpath dir with
    | .error e => .error e
    | .ok reldir =>
      let reldir := if reldir = c!"." then [] else reldir
      match walkFilesLoop dir vs with
      | .error e => .error e
      | .ok rest => .ok (v.files.map (osPathJoin reldir) ++ rest)

/-- `fsw_walk_files(fs, dir)`, `ocfl/fsw.py` lines 251-268. -/
def fswWalkFiles (s : FS) (base : Path) (dir : Str) : Py (List Str) :=
  match fswWalk s base dir with
  | .error e => .error e
  | .ok vs => walkFilesLoop dir vs

/-- The loop of `fsw_listdir_names`, `ocfl/fsw.py` lines 284-291. -/
def listNamesLoop (path : Str) : List (Str × Bool) → Py (List Str)
  | [] => .ok []
  | (lsname, _) :: rest =>
    match fswRelpath lsname path with
    | .error e => .error e
    | .ok name =>
      match listNamesLoop path rest with
      | .error e => .error e
      | .ok names => .ok (if name ≠ [] then name :: names else names)

/-- `fsw_listdir_names(fs, path)`, `ocfl/fsw.py` lines 271-291. -/
def fswListdirNames (s : FS) (base : Path) (path : Str) : Py (List Str) :=
  match FS.listdir s base (lstripSlash path) with
  | .error e => .error e
  | .ok infos => listNamesLoop (lstripSlash path) infos

/-- `fsw_copyfile(src_fs, src_path, dst_fs, dst_path)`, `ocfl/fsw.py` lines 363-378, on resolved
paths. The destination is truncated before the source is read, so that copying a file onto itself
leaves it empty. -/
def fswCopyfile (src dst : Path) : Prog Unit :=
  Prog.bind (FS.readFile src) (fun b => FS.writeFile dst (if src = dst then [] else b))

/-- `os.path.dirname(path)` -/
def osDirname (path : Str) : Str := (osPathSplit path).1

/-- `os.path.basename(path)` -/
def osBasename (path : Str) : Str := (osPathSplit path).2

/-- The body of the loop of `fsw_copydir`, `ocfl/fsw.py` lines 405-411. -/
def copydirStep (srcBase : Path) (srcPath : Str) (dstBase : Path) (dstPath : Str) (filepath : Str) : Prog Unit :=
  let srcFile := osPathJoin srcPath filepath
  let dstFile := osPathJoin dstPath filepath
  let dstDir := osDirname dstFile
  Prog.get (fun s =>
    Prog.bind
      (if dstDir ≠ dstPath ∧ FS.exists_ s (FS.resolve dstBase dstDir) = false then
        FS.makedirs (FS.resolve dstBase dstDir) false
      else .ret (.ok ()))
      (fun _ => fswCopyfile (FS.resolve srcBase srcFile) (FS.resolve dstBase dstFile)))

/-- `fsw_copydir(src_fs, src_path, dst_fs, dst_path)`, `ocfl/fsw.py` lines 381-411. -/
def fswCopydir (srcBase : Path) (srcPath : Str) (dstBase : Path) (dstPath : Str) : Prog Unit :=
  Prog.get (fun s =>
    if FS.isdir s (FS.resolve srcBase srcPath) = false then .ret (.error .fswException)
    else if FS.exists_ s (FS.resolve dstBase dstPath) then .ret (.error .fswException)
    else Prog.bind (FS.makedirs (FS.resolve dstBase dstPath) false) (fun _ =>
      Prog.bind (Prog.look (fun s => fswWalkFiles s srcBase srcPath)) (fun files =>
        Prog.forEach (copydirStep srcBase srcPath dstBase dstPath) files)))

end Ocfl
