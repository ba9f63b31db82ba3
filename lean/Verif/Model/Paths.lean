import Verif.Model.ObjectUtils

/-!
# Model of `Layout.strip_root`, with the parts of `posixpath` it uses
-/

namespace Ocfl

/-- `s.rstrip("/")` -/
def rstripSlash (s : Str) : Str := (s.reverse.dropWhile (· = '/')).reverse

/-- `s.lstrip("/")` -/
def lstripSlash (s : Str) : Str := s.dropWhile (· = '/')

/-- `os.path.commonprefix((a, b))`: the longest common prefix, character by character. -/
def commonPrefix : Str → Str → Str
  | a :: as, b :: bs => if a = b then a :: commonPrefix as bs else []
  | _, _ => []

/-- One component of an absolute path in `posixpath.normpath`: empty and `.` components are
dropped, `..` removes the component before it (at the root it is dropped). -/
def normStep (acc : List Str) (w : Str) : List Str :=
  if w = [] ∨ w = c!"." then acc
  else if w = c!".." then acc.dropLast
  else acc ++ [w]

/-- The components of `os.path.abspath(s)` for the current working directory with components
`cwd`. -/
def absComps (cwd : List Str) (s : Str) : List Str :=
  (splitOn '/' s).foldl normStep (if startsWith s c!"/" then [] else cwd)

/-- The number of leading components two lists share. -/
def sharedLength : List Str → List Str → Nat
  | a :: as, b :: bs => if a = b then sharedLength as bs + 1 else 0
  | _, _ => 0

/-- `os.path.relpath(path, start=start)` (posixpath); an empty path raises `ValueError`. -/
def relpath (cwd : List Str) (path start : Str) : Py Str :=
  if path = [] then .error .valueError
  else
    let startList := absComps cwd start
    let pathList := absComps cwd path
    let i := sharedLength startList pathList
    let rel := List.replicate (startList.length - i) c!".." ++ pathList.drop i
    if rel = [] then .ok c!"." else .ok (joinWith '/' rel)

/-- `Layout.strip_root(path, root)`, `ocfl/layout.py` lines 84-99. -/
def stripRoot (cwd : List Str) (path root : Str) : Py Str :=
  let root := rstripSlash root
  if commonPrefix path root = root then relpath cwd path root
  else .error .layoutException

end Ocfl
