import Verif.Py.Basic

/-!
# Model of `ocfl/object_utils.py`
-/

namespace Ocfl

/-- `first_version_directory(zero_padded_width)`, `ocfl/object_utils.py` lines 18-37. -/
def firstVersionDirectory (zeroPaddedWidth : Option Nat) : Py Str :=
  match zeroPaddedWidth with
  | none => .ok c!"v1"
  | some w =>
    if w < 2 ∨ w > 5 then .error .objectException
    else .ok (c!"v" ++ List.replicate (w - 1) '0' ++ c!"1")

/-- `re.match(r"v((\d)\d*)$", vdir)`, `ocfl/object_utils.py` line 54: `group(1)`.
`\d` is any Unicode digit, `$` allows one trailing newline. -/
def matchVDigits (vdir : Str) : Option Str :=
  match vdir with
  | 'v' :: rest =>
    let ds := rest.takeWhile isDigit
    if ds ≠ [] ∧ atDollar (rest.dropWhile isDigit) then some ds else none
  | _ => none

/-- `next_version_directory(vdir)`, `ocfl/object_utils.py` lines 40-66.
Simplification: CPython's limit of 4300 digits in `int()` is not modelled. -/
def nextVersionDirectory (vdir : Str) : Py Str :=
  match matchVDigits vdir with
  | none => .error .objectException
  | some ds =>
    let nextN := intOf ds + 1
    if ds.head? = some '0' then
      let nextV := c!"v0" ++ padStr (vdir.length - 2) nextN
      if nextV.length ≠ vdir.length then .error .objectException else .ok nextV
    else .ok (c!"v" ++ natStr nextN)

/-- `re.match(r"v(\d{1,5})$", dirname)`, `ocfl/object_utils.py` line 167: `group(1)`.
If there are more than five digits `$` cannot match after the first five. -/
def matchVDigits5 (dirname : Str) : Option Str :=
  match dirname with
  | 'v' :: rest =>
    let ds := rest.takeWhile isDigit
    if ds ≠ [] ∧ ds.length ≤ 5 ∧ atDollar (rest.dropWhile isDigit) then some ds else none
  | _ => none

/-- `parse_version_directory(dirname)`, `ocfl/object_utils.py` lines 159-173. -/
def parseVersionDirectory (dirname : Str) : Py Nat :=
  match matchVDigits5 dirname with
  | none => .error .objectException
  | some ds =>
    let v := intOf ds
    if v = 0 then .error .objectException else .ok v

/-- The `while` loop of `make_unused_filepath`, `ocfl/object_utils.py` lines 107-111,
with fuel: the loop body has run `n - 1` times and `f` is the current candidate.
`none` means that the fuel ran out; `make_unused_filepath_total` shows that it never does. -/
def unusedLoop (filepath : Str) (used : List Str) (separator : Str) :
    (fuel : Nat) → (n : Nat) → (f : Str) → Option Str
  | 0, _, _ => none
  | fuel + 1, n, f =>
    if f ∈ used then
      unusedLoop filepath used separator fuel (n + 1) (filepath ++ separator ++ natStr (n + 1))
    else some f

/-- `make_unused_filepath(filepath, used, separator)`, `ocfl/object_utils.py` lines 91-111.
`used` is the collection of keys the code tests membership in. -/
def makeUnusedFilepath (filepath : Str) (used : List Str) (separator : Str := c!"__") : Option Str :=
  unusedLoop filepath used separator (used.length + 2) 1 filepath

/-- `os.path.split(path)` (posixpath): everything up to and including the last
slash, and the rest; trailing slashes of the head are dropped unless it is all slashes. -/
def osPathSplit (path : Str) : Str × Str :=
  let r := path.reverse
  let tail := (r.takeWhile (· ≠ '/')).reverse
  let head := (r.dropWhile (· ≠ '/')).reverse
  if head ≠ [] ∧ ¬ head.all (· = '/') then
    ((head.reverse.dropWhile (· = '/')).reverse, tail)
  else (head, tail)

/-- `os.path.join(a, b)` (posixpath) for two arguments. -/
def osPathJoin (a b : Str) : Str :=
  match b with
  | '/' :: _ => b
  | _ => if a = [] ∨ endsWith a c!"/" then a ++ b else a ++ c!"/" ++ b

/-- Loop of `remove_first_directory`, `ocfl/object_utils.py` lines 79-88, with fuel
(each round shortens `path`, so `len(path) + 1` rounds are enough; the value for
exhausted fuel is never used, see `removeFirst_fuel`). -/
def removeFirstLoop : (fuel : Nat) → (path rpath : Str) → Str
  | 0, _, rpath => rpath
  | fuel + 1, path, rpath =>
    let (head, tail) := osPathSplit path
    if path = head ∨ path = tail then rpath
    else removeFirstLoop fuel head (if rpath = [] then tail else osPathJoin tail rpath)

/-- `remove_first_directory(path)`, `ocfl/object_utils.py` lines 69-88. -/
def removeFirstDirectory (path : Str) : Str := removeFirstLoop (path.length + 1) path []

end Ocfl
