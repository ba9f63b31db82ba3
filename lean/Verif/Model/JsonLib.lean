import Verif.Py.Json
import Verif.Model.Namaste

/-!
# The JSON library

Python's `json` module is not part of `/repo`. The model of the code takes it as a parameter; what
is assumed of it is `JsonLib.Lawful`. `sort_keys=True` is modelled by sorting before writing.
-/

namespace Ocfl

namespace Json

/-- Insert into a dictionary ordered by key. -/
def insertKey (p : Str × Json) : List (Str × Json) → List (Str × Json)
  | [] => [p]
  | q :: rest => if strLe p.1 q.1 then p :: q :: rest else q :: insertKey p rest

mutual
  /-- The document with the keys of every object in order: what `sort_keys=True` writes. -/
  def sortKeys : Json → Json
    | .arr l => .arr (sortKeysList l)
    | .obj d => .obj (sortKeysObj d)
    | .null => .null
    | .bool b => .bool b
    | .num n => .num n
    | .str s => .str s
  def sortKeysList : List Json → List Json
    | [] => []
    | x :: xs => sortKeys x :: sortKeysList xs
  def sortKeysObj : List (Str × Json) → List (Str × Json)
    | [] => []
    | (k, x) :: xs => insertKey (k, sortKeys x) (sortKeysObj xs)
end

/-- The documents the library writes: distinct keys, and numbers that are natural numbers. -/
inductive Writable : Json → Prop
  | null : Writable .null
  | bool {b} : Writable (.bool b)
  | num {n : Nat} : Writable (.num (natStr n))
  | str {s} : Writable (.str s)
  | arr {l} : (∀ x ∈ l, Writable x) → Writable (.arr l)
  | obj {d} : Dict.NK d → (∀ p ∈ d, Writable p.2) → Writable (.obj d)

end Json

/-- The functions of the module `json` that are used. -/
structure JsonLib where
  /-- `json.dump(j, fh, indent=2)` -/
  dumps : Json → Str
  /-- `json.load(fh)` for a file opened in text mode, `json.loads(s)` for a string -/
  loads : Str → Option Json
  /-- `json.load(fh)` for a file opened in binary mode -/
  loadb : Bytes → Option Json

/-- `json.dump(j, fh, sort_keys=True, indent=2)` -/
def JsonLib.dumpsSorted (lib : JsonLib) (j : Json) : Str := lib.dumps j.sortKeys

/-- What is assumed of the library: what it writes it reads back, it writes no carriage return, and
the objects it makes are dictionaries. -/
structure JsonLib.Lawful (lib : JsonLib) : Prop where
  loads : ∀ j, j.Writable → lib.loads (lib.dumps j) = some j
  loadb : ∀ j, j.Writable → lib.loadb (utf8 (lib.dumps j)) = some j
  noCR : ∀ j, j.Writable → '\r' ∉ lib.dumps j
  wf : ∀ t j, lib.loads t = some j → j.WF

end Ocfl
