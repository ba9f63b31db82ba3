import Verif.Model.JsonLib

/-!
# A JSON library

A printer that writes what CPython's `json.dump(j, fh, indent=2)` writes and a parser for the
grammar `json.load` reads. No theorem about the code depends on it: the code is modelled over any
library that is `JsonLib.Lawful`. It shows that the laws can be met, and it runs the examples.

Left out of the parser: the literals `NaN`, `Infinity` and `-Infinity`, byte order marks, encodings
other than UTF-8, and lone surrogates (Python's strings hold them, `Str` does not).
-/

namespace Ocfl
namespace PyJson

/-! ## Writing -/

/-- `%04x` -/
def hex4 (n : Nat) : Str :=
  [Nat.digitChar (n / 4096 % 16), Nat.digitChar (n / 256 % 16), Nat.digitChar (n / 16 % 16), Nat.digitChar (n % 16)]

/-- The UTF-16 code units of a character. -/
def units (c : Char) : List Nat :=
  if c.toNat < 0x10000 then [c.toNat]
  else [0xd800 + (c.toNat - 0x10000) / 0x400, 0xdc00 + (c.toNat - 0x10000) % 0x400]

/-- One character of a string (`ensure_ascii=True`). -/
def escape (c : Char) : Str :=
  if c = '"' then c!"\\\""
  else if c = '\\' then c!"\\\\"
  else if c = '\n' then c!"\\n"
  else if c = '\r' then c!"\\r"
  else if c = '\t' then c!"\\t"
  else if c = Char.ofNat 12 then c!"\\f"
  else if c = Char.ofNat 8 then c!"\\b"
  else if 32 ≤ c.toNat ∧ c.toNat ≤ 126 then [c]
  else (units c).flatMap (fun u => '\\' :: 'u' :: hex4 u)

def quote (s : Str) : Str := '"' :: s.flatMap escape ++ c!"\""

/-- A new line and the indentation of depth `n`. -/
def newline (n : Nat) : Str := '\n' :: List.replicate (2 * n) ' '

mutual
  /-- A value at depth `n`. -/
  def dump (n : Nat) : Json → Str
    | .null => c!"null"
    | .bool true => c!"true"
    | .bool false => c!"false"
    | .num l => l
    | .str s => quote s
    | .arr l =>
      match l with
      | [] => c!"[]"
      | x :: xs => '[' :: newline (n + 1) ++ dump (n + 1) x ++ dumpItems n xs
    | .obj d =>
      match d with
      | [] => c!"{}"
      | (k, x) :: xs => '{' :: newline (n + 1) ++ quote k ++ c!": " ++ dump (n + 1) x ++ dumpPairs n xs
  /-- The rest of a list. -/
  def dumpItems (n : Nat) : List Json → Str
    | [] => newline n ++ c!"]"
    | x :: xs => ',' :: newline (n + 1) ++ dump (n + 1) x ++ dumpItems n xs
  /-- The rest of an object. -/
  def dumpPairs (n : Nat) : List (Str × Json) → Str
    | [] => newline n ++ c!"}"
    | (k, x) :: xs => ',' :: newline (n + 1) ++ quote k ++ c!": " ++ dump (n + 1) x ++ dumpPairs n xs
end

/-! ## Reading -/

def isWs (c : Char) : Bool := c = ' ' || c = '\n' || c = '\r' || c = '\t'

def skipWs (s : Str) : Str := s.dropWhile isWs

def hexVal (c : Char) : Option Nat :=
  if '0' ≤ c ∧ c ≤ '9' then some (c.toNat - 48)
  else if 'a' ≤ c ∧ c ≤ 'f' then some (c.toNat - 87)
  else if 'A' ≤ c ∧ c ≤ 'F' then some (c.toNat - 55)
  else none

def hexVal4 (a b c d : Char) : Option Nat :=
  match hexVal a, hexVal b, hexVal c, hexVal d with
  | some a, some b, some c, some d => some (a * 4096 + b * 256 + c * 16 + d)
  | _, _, _, _ => none

/-- What an escape other than `\u` stands for. -/
def simpleEscape (c : Char) : Option Char :=
  if c = '"' then some '"'
  else if c = '\\' then some '\\'
  else if c = '/' then some '/'
  else if c = 'n' then some '\n'
  else if c = 'r' then some '\r'
  else if c = 't' then some '\t'
  else if c = 'f' then some (Char.ofNat 12)
  else if c = 'b' then some (Char.ofNat 8)
  else none

/-- The code units of the rest of a string literal, and what comes after it. -/
def scan : Str → Option (List Nat × Str)
  | [] => none
  | c :: r =>
    if c = '"' then some ([], r)
    else if c = '\\' then
      match r with
      | [] => none
      | e :: r1 =>
        if e = 'u' then
          match r1 with
          | a :: b :: c :: d :: r2 =>
            match hexVal4 a b c d, scan r2 with
            | some u, some (us, r3) => some (u :: us, r3)
            | _, _ => none
          | _ => none
        else
          match simpleEscape e, scan r1 with
          | some c, some (us, r3) => some (c.toNat :: us, r3)
          | _, _ => none
    else if c.toNat < 32 then none
    else
      match scan r with
      | some (us, r3) => some (c.toNat :: us, r3)
      | none => none

/-- Pairs of surrogates become one character. -/
def combine : List Nat → Option Str
  | [] => some []
  | u :: us =>
    if 0xd800 ≤ u ∧ u < 0xdc00 then
      match us with
      | l :: us' =>
        if 0xdc00 ≤ l ∧ l < 0xe000 then
          (combine us').map (fun s => Char.ofNat (0x10000 + (u - 0xd800) * 0x400 + (l - 0xdc00)) :: s)
        else none
      | [] => none
    else if 0xdc00 ≤ u ∧ u < 0xe000 then none
    else (combine us).map (fun s => Char.ofNat u :: s)

/-- A string literal, the quotation mark being read. -/
def pString (s : Str) : Option (Str × Str) :=
  match scan s with
  | none => none
  | some (us, r) =>
    match combine us with
    | none => none
    | some t => some (t, r)

/-- Take digits. -/
def digits (s : Str) : Str × Str := (s.takeWhile Char.isDigit, s.dropWhile Char.isDigit)

/-- `0|[1-9]\d*` -/
def pInt (s : Str) : Option (Str × Str) :=
  match s with
  | [] => none
  | c :: r =>
    if c = '0' then some (c!"0", r)
    else if c.isDigit then some (c :: (digits r).1, (digits r).2)
    else none

/-- `(\.\d+)?` -/
def pFrac (s : Str) : Str × Str :=
  match s with
  | '.' :: r => if (digits r).1 = [] then ([], s) else ('.' :: (digits r).1, (digits r).2)
  | _ => ([], s)

/-- `([eE][-+]?\d+)?` -/
def pExp (s : Str) : Str × Str :=
  match s with
  | [] => ([], s)
  | e :: r =>
    if e = 'e' ∨ e = 'E' then
      let signed := match r with
        | c :: r' => if c = '-' ∨ c = '+' then ([c], r') else ([], r)
        | [] => ([], r)
      if (digits signed.2).1 = [] then ([], s) else (e :: signed.1 ++ (digits signed.2).1, (digits signed.2).2)
    else ([], s)

/-- `-?` -/
def pSign (s : Str) : Str × Str :=
  match s with
  | [] => ([], s)
  | c :: r => if c = '-' then ([c], r) else ([], s)

/-- A number, as its literal. -/
def pNumber (s : Str) : Option (Str × Str) :=
  match pInt (pSign s).2 with
  | none => none
  | some (i, r) => some ((pSign s).1 ++ i ++ (pFrac r).1 ++ (pExp (pFrac r).2).1, (pExp (pFrac r).2).2)

/-- `null`, `true` and `false`, or a number. -/
def pAtom (s : Str) : Option (Json × Str) :=
  if c!"null".isPrefixOf s then some (.null, s.drop 4)
  else if c!"true".isPrefixOf s then some (.bool true, s.drop 4)
  else if c!"false".isPrefixOf s then some (.bool false, s.drop 5)
  else (pNumber s).map (fun r => (.num r.1, r.2))

mutual
  /-- A value; `n` bounds the depth of the recursion. -/
  def pValue : Nat → Str → Option (Json × Str)
    | 0, _ => none
    | _, [] => none
    | n + 1, c :: r =>
      if c = '"' then (pString r).map (fun p => (.str p.1, p.2))
      else if c = '[' then
        if (skipWs r).head? = some ']' then some (.arr [], (skipWs r).tail)
        else (pItems n (skipWs r)).map (fun p => (.arr p.1, p.2))
      else if c = '{' then
        if (skipWs r).head? = some '}' then some (.obj [], (skipWs r).tail)
        else (pPairs n (skipWs r)).map (fun p => (.obj (p.1.foldl (fun d e => Dict.set d e.1 e.2) []), p.2))
      else pAtom (c :: r)
  /-- The values of a list that is not empty, up to its end. -/
  def pItems : Nat → Str → Option (List Json × Str)
    | 0, _ => none
    | n + 1, s =>
      match pValue n s with
      | none => none
      | some (x, r) =>
        if (skipWs r).head? = some ',' then
          match pItems n (skipWs (skipWs r).tail) with
          | none => none
          | some (xs, r') => some (x :: xs, r')
        else if (skipWs r).head? = some ']' then some ([x], (skipWs r).tail)
        else none
  /-- The members of an object that is not empty, up to its end. -/
  def pPairs : Nat → Str → Option (List (Str × Json) × Str)
    | 0, _ => none
    | n + 1, s =>
      if s.head? ≠ some '"' then none
      else
        match pString s.tail with
        | none => none
        | some (k, r1) =>
          if (skipWs r1).head? ≠ some ':' then none
          else
            match pValue n (skipWs (skipWs r1).tail) with
            | none => none
            | some (x, r) =>
              if (skipWs r).head? = some ',' then
                match pPairs n (skipWs (skipWs r).tail) with
                | none => none
                | some (xs, r') => some ((k, x) :: xs, r')
              else if (skipWs r).head? = some '}' then some ([(k, x)], (skipWs r).tail)
              else none
end

/-- A document: white space, a value, white space. -/
def load (s : Str) : Option Json :=
  match pValue (2 * s.length + 1) (skipWs s) with
  | none => none
  | some (j, r) => if skipWs r = [] then some j else none

end PyJson

/-- The library. -/
def pyJson : JsonLib where
  dumps := PyJson.dump 0
  loads := PyJson.load
  loadb := fun b => (utf8Decode b).bind PyJson.load

end Ocfl
