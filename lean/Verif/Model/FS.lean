import Verif.Model.Paths

/-!
# The file system

Not in `/repo`: the local file system as the code sees it through `fsspec` (`DirFileSystem` over
`LocalFileSystem`). Only local file systems are modelled; no S3 and no zip. There are no symbolic
links, no permissions, no special files. The whole file system is one finite map from absolute
paths (lists of names) to nodes; the root directory is always there. The order of the map is the
order in which directories are listed; nothing is assumed about it.
-/

namespace Ocfl

/-- A file with its content, or a directory. -/
inductive Node
  | file (content : Bytes)
  | dir
  deriving DecidableEq, Repr

/-- An absolute path: the names from the root. -/
abbrev Path := List Str

/-- The file system. -/
abbrev FS := Dict Path Node

namespace FS

/-- What is at a path. -/
def look (s : FS) (p : Path) : Option Node := if p = [] then some .dir else Dict.get? s p

/-- The path a string stands for in a `DirFileSystem` with base directory `base`
(`DirFileSystem._join`): the string is appended after a slash, so that a leading slash has no
effect. Simplification: `..` is resolved without looking at the file system, which differs from
the operating system only if the name before it is not a directory. -/
def resolve (base : Path) (path : Str) : Path := (splitOn '/' path).foldl normStep base

/-- `fs.isfile(path)` -/
def isfile (s : FS) (p : Path) : Bool :=
  match look s p with
  | some (.file _) => true
  | _ => false

/-- The exception for a path that is not there. -/
def missing (s : FS) (p : Path) : PyErr :=
  if (List.range p.length).any (fun n => isfile s (p.take n)) then .notADirectory
  else .fileNotFound

/-- `fs.exists(path)` -/
def exists_ (s : FS) (p : Path) : Bool := (look s p).isSome

/-- `fs.isdir(path)` -/
def isdir (s : FS) (p : Path) : Bool := look s p = some .dir

/-- `fs.open(path, "rb").read()` -/
def read (s : FS) (p : Path) : Py Bytes :=
  match look s p with
  | none => .error (missing s p)
  | some .dir => .error .isADirectory
  | some (.file b) => .ok b

/-- The entries of a directory, in listing order. -/
def children (s : FS) (p : Path) : List (Str × Node) :=
  s.filterMap (fun (k, n) => if k ≠ [] ∧ k.dropLast = p then some (k.getLast?.getD [], n) else none)

/-- `fs.listdir(path, detail=True)` of a `DirFileSystem`: for each entry its path relative to the
base directory (`info["name"]`) and whether it is a directory. The path of a file gives the file
itself. -/
def listdir (s : FS) (base : Path) (path : Str) : Py (List (Str × Bool)) :=
  let p := resolve base path
  match look s p with
  | none => .error (missing s p)
  | some (.file _) => .ok [(rstripSlash path, false)]
  | some .dir => .ok ((children s p).map (fun (name, node) =>
      (if rstripSlash path = [] then name else rstripSlash path ++ '/' :: name, decide (node = .dir))))

/-- The operations that change the file system, one system call each, except that writing a file
is one operation with visible intermediate states (see `Prog.Visits`). -/
inductive Op
  /-- `os.mkdir(path)` -/
  | mkdir (p : Path)
  /-- `open(path, "w")`, writing the content and closing -/
  | write (p : Path) (content : Bytes)
  /-- `os.remove(path)` -/
  | remove (p : Path)
  deriving DecidableEq, Repr

/-- The exception of an operation on an entry of a directory that is missing or is a file. -/
def noParent (s : FS) (p : Path) : Option PyErr :=
  match look s p.dropLast with
  | some .dir => none
  | some (.file _) => some .notADirectory
  | none => some (missing s p.dropLast)

/-- The effect of an operation and its outcome. -/
def exec (o : Op) (s : FS) : FS × Py Unit :=
  match o with
  | .mkdir p =>
    match look s p with
    | some _ => (s, .error .fileExists)
    | none =>
      match noParent s p with
      | some e => (s, .error e)
      | none => (Dict.set s p .dir, .ok ())
  | .write p b =>
    match look s p with
    | some .dir => (s, .error .isADirectory)
    | _ =>
      match noParent s p with
      | some e => (s, .error e)
      | none => (Dict.set s p (.file b), .ok ())
  | .remove p =>
    match look s p with
    | none => (s, .error (missing s p))
    | some .dir => (s, .error .isADirectory)
    | some (.file _) => (Dict.erase s p, .ok ())

end FS
end Ocfl
