import Verif.Model.FswTree
import Verif.Model.Quote
import Mathlib.Data.List.Sort

/-!
# Model of `ocfl/namaste.py` and of `find_path_type`

Only the branches with a `fsw` file system; `tr_func` is always `content_to_tvalue`. Text files
are UTF-8. `isWord` is the class `\w` of Python's `re`.
-/

namespace Ocfl

/-- `c.isspace()`, which is also the class `\s`. -/
def isSpace (c : Char) : Bool :=
  (9 ≤ c.toNat && c.toNat ≤ 13) || (28 ≤ c.toNat && c.toNat ≤ 32) || c.toNat = 0x85 || c.toNat = 0xa0 ||
  c.toNat = 0x1680 || (0x2000 ≤ c.toNat && c.toNat ≤ 0x200a) || c.toNat = 0x2028 || c.toNat = 0x2029 ||
  c.toNat = 0x202f || c.toNat = 0x205f || c.toNat = 0x3000

/-- `s.strip()` -/
def strip (s : Str) : Str := ((s.dropWhile isSpace).reverse.dropWhile isSpace).reverse

/-- `content_to_tvalue(content)`, `ocfl/namaste.py` lines 14-22. -/
def contentToTvalue (isWord : Char → Bool) (content : Str) : Str :=
  ((strip content).take 40).map (fun c => if isWord c || c = '.' || c = '-' || c = ':' then c else '_')

/-- Comparison of strings by code points: `a <= b`. -/
def strLe : Str → Str → Bool
  | [], _ => true
  | _ :: _, [] => false
  | a :: as, b :: bs => if a = b then strLe as bs else a.toNat < b.toNat

/-- `sorted(l)` for a list of strings. -/
def sortStr (l : List Str) : List Str := l.insertionSort (fun a b => strLe a b)

/-- What a text file opened for reading gives: UTF-8 decoded, with every line end turned into a
newline (universal newlines, the default of `open`). -/
def univNewlines : Str → Str
  | '\r' :: '\n' :: s => '\n' :: univNewlines s
  | '\r' :: s => '\n' :: univNewlines s
  | c :: s => c :: univNewlines s
  | [] => []

/-- `fs.open(path, "r").read()` -/
def readText (s : FS) (p : Path) : Py Str :=
  match FS.read s p with
  | .error e => .error e
  | .ok b =>
    match utf8Decode b with
    | none => .error .unicodeError
    | some t => .ok (univNewlines t)

/-- `find_namastes(d, dir, fsw, limit)`, `ocfl/namaste.py` lines 25-52: the tvalues. -/
def findNamastes (s : FS) (base : Path) (d : Nat) (dir : Str) (limit : Nat) : Py (List Str) :=
  match fswListdirNames s base dir with
  | .error e => .error e
  | .ok names =>
    let pfx := natStr d ++ c!"="
    let filenames := names.filter (fun f => startsWith f pfx)
    if filenames.length > limit then .error .namasteException
    else .ok ((sortStr filenames).map (fun f => f.drop pfx.length))

/-- `Namaste.filename`, `ocfl/namaste.py` lines 87-90. -/
def namasteFilename (d : Nat) (tvalue : Str) : Str := natStr d ++ c!"=" ++ tvalue

/-- `Namaste(d, content).write(dir, fsw)`, `ocfl/namaste.py` lines 99-115. -/
def namasteWrite (isWord : Char → Bool) (base : Path) (d : Nat) (content dir : Str) : Prog Unit :=
  FS.writeFile (FS.resolve base (osPathJoin dir (namasteFilename d (contentToTvalue isWord content))))
    (utf8 (content ++ c!"\n"))

/-- `Namaste(d, tvalue=tvalue).check_content(dir, fsw)`, `ocfl/namaste.py` lines 117-133. -/
def namasteCheck (isWord : Char → Bool) (s : FS) (base : Path) (d : Nat) (tvalue dir : Str) : Py Unit :=
  if tvalue = [] then .error .namasteException
  else
    match readText s (FS.resolve base (osPathJoin dir (namasteFilename d tvalue))) with
    | .error .fileNotFound => .error .namasteException
    | .error e => .error e
    | .ok content => if tvalue ≠ contentToTvalue isWord content then .error .namasteException else .ok ()

/-- `Namaste(d, tvalue=tvalue).content_ok(dir, fsw)`, `ocfl/namaste.py` lines 135-141. -/
def namasteContentOk (isWord : Char → Bool) (s : FS) (base : Path) (d : Nat) (tvalue dir : Str) : Py Bool :=
  match namasteCheck isWord s base d tvalue dir with
  | .ok () => .ok true
  | .error .namasteException => .ok false
  | .error e => .error e

/-- `\d+\.\d+$` -/
def matchVersionNumber (s : Str) : Option Str :=
  let a := s.takeWhile isDigit
  match s.dropWhile isDigit with
  | '.' :: r =>
    let b := r.takeWhile isDigit
    if a ≠ [] ∧ b ≠ [] ∧ atDollar (r.dropWhile isDigit) then some (a ++ '.' :: b) else none
  | _ => none

/-- What `find_path_type` answers; all diagnostics are `other`. -/
inductive PathType
  | root
  | object
  | file
  | other
  deriving DecidableEq, Repr

/-- `re.match(r"ocfl(_object)?_(\d+\.\d+)$", tvalue)`, `ocfl/object_utils.py` line 151: the type it
stands for. -/
def declaredType (tvalue : Str) : Option PathType :=
  if startsWith tvalue c!"ocfl_object_" ∧ (matchVersionNumber (tvalue.drop 12)).isSome then some .object
  else if startsWith tvalue c!"ocfl_" ∧ (matchVersionNumber (tvalue.drop 5)).isSome then some .root
  else none

/-- The part of `find_path_type` for a directory, `ocfl/object_utils.py` lines 144-156. -/
def directoryType (s : FS) (base : Path) : Py PathType :=
  match findNamastes s base 0 [] 10 with
  | .error e => .error e
  | .ok tvalues => .ok ((tvalues.findSome? declaredType).getD .other)

/-- `find_path_type(path)`, `ocfl/object_utils.py` lines 114-156, for a path without `://`. -/
def findPathType (cwd : Path) (path : Str) (s : FS) : Py PathType :=
  match fswOpen cwd path s with
  | .ok base => directoryType s base
  | .error _ =>
    let parent := (osPathSplit path).1
    let filename := (osPathSplit path).2
    match fswOpen cwd (if parent = [] then c!"." else parent) s with
    | .error _ => .ok .other
    | .ok base =>
      if FS.exists_ s (FS.resolve base filename) = false then .ok .other
      else if FS.isdir s (FS.resolve base filename) then .ok .other
      else .ok .file

end Ocfl
