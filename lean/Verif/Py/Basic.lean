/-!
# Python values used by the model

Strings are lists of characters, exceptions are values, dictionaries are
insertion-ordered association lists.  Nothing in this file is taken from
`/repo`; it gives the Python built-ins the code relies on.
-/

namespace Ocfl

/-- A Python `str`. Lone surrogates are not represented. -/
abbrev Str := List Char

/-- File content. -/
abbrev Bytes := List UInt8

open Lean in
/-- `c!"abc"` is the list of characters `['a','b','c']`. -/
macro:max "c!" s:str : term => do
  let elems ← s.getString.toList.toArray.mapM (fun c => `($(Syntax.mkCharLit c)))
  `(([$elems,*] : List Char))

/-- The exceptions the modelled code can raise. `exception` is a plain `Exception`. -/
inductive PyErr
  | objectException
  | inventoryException
  | newVersionException
  | storageRootException
  | layoutException
  | namasteException
  | validatorAbort
  | versionMetadataException
  | baggerError
  | fswException
  | valueError
  | keyError
  | typeError
  | attributeError
  | indexError
  | fileNotFound
  | fileExists
  | isADirectory
  | notADirectory
  | jsonDecodeError
  | unicodeError
  | exception
  deriving DecidableEq, Repr

/-- Result of a call that may raise. -/
abbrev Py (α : Type) := Except PyErr α

instance {α : Type} [DecidableEq α] : DecidableEq (Py α)
  | .ok a, .ok b => if h : a = b then isTrue (h ▸ rfl) else isFalse (fun e => h (Except.ok.inj e))
  | .error a, .error b => if h : a = b then isTrue (h ▸ rfl) else isFalse (fun e => h (Except.error.inj e))
  | .ok _, .error _ => isFalse (fun e => by cases e)
  | .error _, .ok _ => isFalse (fun e => by cases e)

/-! ## Strings -/

/-- `s.startswith(p)` -/
def startsWith (s p : Str) : Bool := p.isPrefixOf s

/-- `s.endswith(p)` -/
def endsWith (s p : Str) : Bool := p.isSuffixOf s

/-- `s.split(sep)` for a one-character separator. -/
def splitOn (sep : Char) : Str → List Str
  | [] => [[]]
  | c :: cs =>
    if c = sep then [] :: splitOn sep cs
    else
      match splitOn sep cs with
      | [] => [[c]]
      | w :: ws => (c :: w) :: ws

/-- `sep.join(ws)` for a one-character separator. -/
def joinWith (sep : Char) : List Str → Str
  | [] => []
  | [w] => w
  | w :: w' :: ws => w ++ sep :: joinWith sep (w' :: ws)

/-- `re.match(p, s)` with a `$` at the end of `p`, after the rest of `p` has
matched: at the end, or before one final newline. -/
def atDollar (s : Str) : Bool :=
  match s with
  | [] => true
  | [c] => c = '\n'
  | _ => false

/-- The string with one trailing newline removed, if there is one. A pattern
ending in `$` matches `s` iff it matches `s` or `chompNL s` up to the very end. -/
def chompNL (s : Str) : Str :=
  match s with
  | [] => []
  | [c] => if c = '\n' then [] else [c]
  | c :: d :: s => c :: chompNL (d :: s)

/-! ## Decimal numbers -/

/-- Code points of the digit zero of every block of decimal digits (general
category Nd) in Unicode 14, the version of Python 3.11's `re` and `int`. -/
def digitZeros : List Nat :=
  [0x30, 0x660, 0x6f0, 0x7c0, 0x966, 0x9e6, 0xa66, 0xae6, 0xb66, 0xbe6, 0xc66, 0xce6, 0xd66,
   0xde6, 0xe50, 0xed0, 0xf20, 0x1040, 0x1090, 0x17e0, 0x1810, 0x1946, 0x19d0, 0x1a80, 0x1a90,
   0x1b50, 0x1bb0, 0x1c40, 0x1c50, 0xa620, 0xa8d0, 0xa900, 0xa9d0, 0xa9f0, 0xaa50, 0xabf0,
   0xff10, 0x104a0, 0x10d30, 0x11066, 0x110f0, 0x11136, 0x111d0, 0x112f0, 0x11450, 0x114d0,
   0x11650, 0x116c0, 0x11730, 0x118e0, 0x11950, 0x11c50, 0x11d50, 0x11da0, 0x16a60, 0x16ac0,
   0x16b50, 0x1d7ce, 0x1d7d8, 0x1d7e2, 0x1d7ec, 0x1d7f6, 0x1e140, 0x1e2f0, 0x1e950, 0x1fbf0]

/-- Value of a character matched by `\d`, as used by `int()`. -/
def digitVal (c : Char) : Option Nat :=
  (digitZeros.find? (fun z => decide (z ≤ c.toNat) && decide (c.toNat < z + 10))).map
    (fun z => c.toNat - z)

/-- `\d` of a `str` pattern: any Unicode decimal digit. -/
def isDigit (c : Char) : Bool := (digitVal c).isSome

/-- `int(s)` for a string of decimal digits. -/
def intOf (s : Str) : Nat := s.foldl (fun n c => 10 * n + (digitVal c).getD 0) 0

/-- `str(n)` for a natural number. -/
def natStr (n : Nat) : Str := Nat.toDigits 10 n

/-- `"%0<w>d" % n`: decimal, padded on the left with zeros to width `w`. -/
def padStr (w n : Nat) : Str :=
  List.replicate (w - (natStr n).length) '0' ++ natStr n

/-! ## Dictionaries -/

/-- A Python `dict`, in insertion order. -/
abbrev Dict (α β : Type) := List (α × β)

namespace Dict

variable {α β γ : Type} [DecidableEq α]

/-- `d.get(k)` -/
def get? : Dict α β → α → Option β
  | [], _ => none
  | (a, b) :: d, k => if a = k then some b else get? d k

/-- `k in d` -/
def has (d : Dict α β) (k : α) : Bool := (get? d k).isSome

/-- `d[k] = v`: overwrite in place, or append. -/
def set : Dict α β → α → β → Dict α β
  | [], k, v => [(k, v)]
  | (a, b) :: d, k, v => if a = k then (a, v) :: d else (a, b) :: set d k v

/-- `del d[k]` (no effect if absent; the callers test for presence). -/
def erase : Dict α β → α → Dict α β
  | [], _ => []
  | (a, b) :: d, k => if a = k then d else (a, b) :: erase d k

/-- `d.keys()` -/
def keys (d : Dict α β) : List α := d.map Prod.fst

/-- `d.values()` -/
def values (d : Dict α β) : List β := d.map Prod.snd

/-- Keys are distinct: true of every Python `dict`. -/
def NK (d : Dict α β) : Prop := (d.map Prod.fst).Nodup

instance (d : Dict α β) : Decidable (NK d) := inferInstanceAs (Decidable (List.Nodup _))

end Dict

end Ocfl
