import Verif.Py.Basic

/-!
# JSON values as Python sees them after `json.load`

Numbers are opaque (their literal). Objects are dictionaries in document order; `json.load` keeps
one value per key, which is the predicate `WF`. `pyIn` and `pyIndex` are Python's `in` and `[]` on
whatever value is met.
-/

namespace Ocfl

inductive Json
  | null
  | bool (b : Bool)
  | num (literal : Str)
  | str (s : Str)
  | arr (l : List Json)
  | obj (d : List (Str × Json))
  deriving Repr

namespace Json

/-- Keys are distinct in every object: true of every value made by `json.load`. -/
inductive WF : Json → Prop
  | null : WF .null
  | bool {b} : WF (.bool b)
  | num {n} : WF (.num n)
  | str {s} : WF (.str s)
  | arr {l} : (∀ x ∈ l, WF x) → WF (.arr l)
  | obj {d} : Dict.NK d → (∀ p ∈ d, WF p.2) → WF (.obj d)

/-- `isinstance(x, str)` and its value. -/
def str? : Json → Option Str
  | .str s => some s
  | _ => none

/-- `isinstance(x, dict)` and its value. -/
def obj? : Json → Option (List (Str × Json))
  | .obj d => some d
  | _ => none

/-- `isinstance(x, list)` and its value. -/
def arr? : Json → Option (List Json)
  | .arr l => some l
  | _ => none

/-- Is `k` a contiguous part of `s`? -/
def isInfix (k : Str) : Str → Bool
  | [] => k.isEmpty
  | c :: s => k.isPrefixOf (c :: s) || isInfix k s

/-- `k in x` for a string `k`: key of an object, element of a list, part of a string; everything
else raises `TypeError`. -/
def pyIn (k : Str) : Json → Py Bool
  | .obj d => .ok (Dict.has d k)
  | .arr l => .ok (l.any (fun x => x.str? = some k))
  | .str s => .ok (isInfix k s)
  | _ => .error .typeError

/-- `x[k]` for a string `k`. -/
def pyIndex (k : Str) : Json → Py Json
  | .obj d =>
    match Dict.get? d k with
    | some v => .ok v
    | none => .error .keyError
  | _ => .error .typeError

end Json
end Ocfl
