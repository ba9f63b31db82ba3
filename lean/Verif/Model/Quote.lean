import Verif.Py.Basic

/-!
# Model of the parts of `urllib.parse` and of text encoding that the code uses

Not in `/repo`: `urllib.parse.quote`, `quote_plus`, `unquote_plus` and `str.encode("utf-8")`.
UTF-8 is Lean's own definition.
-/

namespace Ocfl

/-- `s.encode("utf-8")` -/
def utf8 (s : Str) : Bytes := s.flatMap String.utf8EncodeChar

/-- Strict UTF-8 decoding, `none` for an invalid byte sequence: `utf8Decode_eq` says that this is
Lean's decoder. The case of ASCII apart lets the kernel compute. -/
def utf8Decode (b : Bytes) : Option Str :=
  if b.all (fun x => x.toNat < 128) then some (b.map (fun x => Char.ofNat x.toNat))
  else (ByteArray.mk b.toArray).utf8Decode?.map Array.toList

/-- Upper-case hexadecimal digit. -/
def hexDigitUpper (n : Nat) : Char :=
  if n < 10 then Char.ofNat (48 + n) else Char.ofNat (55 + n)

/-- Lower-case hexadecimal digit. -/
def hexDigitLower (n : Nat) : Char :=
  if n < 10 then Char.ofNat (48 + n) else Char.ofNat (87 + n)

/-- `"%{:02X}".format(b)` -/
def pctUpper (b : UInt8) : Str := ['%', hexDigitUpper (b.toNat / 16), hexDigitUpper (b.toNat % 16)]

/-- The characters `urllib.parse.quote` never quotes: letters, digits and `_.-~`. -/
def isUnreserved (c : Char) : Bool :=
  ('A' ≤ c && c ≤ 'Z') || ('a' ≤ c && c ≤ 'z') || ('0' ≤ c && c ≤ '9') ||
    c = '_' || c = '.' || c = '-' || c = '~'

/-- `urllib.parse.quote(s, safe)` where `safe` holds ASCII characters: every byte of a character
that is neither unreserved nor safe is percent-encoded. -/
def quoteWith (safe : Char → Bool) (s : Str) : Str :=
  s.flatMap (fun c => if isUnreserved c || safe c then [c] else (String.utf8EncodeChar c).flatMap pctUpper)

/-- `urllib.parse.quote(s)`: `/` is safe by default. -/
def urlquote (s : Str) : Str := quoteWith (fun c => c = '/') s

/-- `urllib.parse.quote_plus(s)`: like `quote(s, safe="")` with spaces turned into `+`. -/
def quotePlus (s : Str) : Str :=
  s.flatMap (fun c => if c = ' ' then ['+'] else
    if isUnreserved c then [c] else (String.utf8EncodeChar c).flatMap pctUpper)

end Ocfl
