import Verif.Py.Basic

/-!
# Model of `ocfl/digest.py`

The digest functions of `hashlib` are parameters of the model (see `Verif.Model.Env`).
-/

namespace Ocfl

/-- `c.lower()` for an ASCII character. Python's `str.lower` also maps non-ASCII letters; see
`normalizedDigest`. -/
def asciiLower (c : Char) : Char :=
  if 'A' ≤ c ∧ c ≤ 'Z' then Char.ofNat (c.toNat + 32) else c

/-- `digest_type in ("sha512-spec-ex", "sha256-spec-ex")`, `ocfl/digest.py` line 134. -/
def isSpecEx (digestType : Str) : Bool :=
  digestType = c!"sha512-spec-ex" || digestType = c!"sha256-spec-ex"

/-- `normalized_digest(digest, digest_type)`, `ocfl/digest.py` lines 124-136.
Simplification: `str.lower` is modelled on ASCII letters only; every well-formed digest is ASCII. -/
def normalizedDigest (digest : Str) (digestType : Str) : Str :=
  if isSpecEx digestType then digest else digest.map asciiLower

/-- `[0-9a-fA-F]` -/
def isHexAny (c : Char) : Bool :=
  ('0' ≤ c && c ≤ '9') || ('a' ≤ c && c ≤ 'f') || ('A' ≤ c && c ≤ 'F')

/-- `[0-9a-f]` -/
def isHexLower (c : Char) : Bool :=
  ('0' ≤ c && c ≤ '9') || ('a' ≤ c && c ≤ 'f')

/-- `re.match(r"^[0-9a-fA-F]{n}$", s)`: `n` hexadecimal digits and at most one trailing newline. -/
def matchHex (n : Nat) (s : Str) : Bool :=
  (s.take n).length = n && (s.take n).all isHexAny && atDollar (s.drop n)

/-- `re.match(r"^[0-9a-f]{6}\.\.\.[0-9a-f]{3}$", s)`. -/
def matchSpecEx (s : Str) : Bool :=
  (s.take 12).length = 12 && (s.take 6).all isHexLower && (s.drop 6).take 3 = c!"..." &&
    ((s.drop 9).take 3).all isHexLower && atDollar (s.drop 12)

/-- `re.match(r"^.*$", s)`: no newline except possibly as the last character. -/
def matchAny (s : Str) : Bool := atDollar (s.dropWhile (· ≠ '\n'))

/-- `DIGEST_REGEXES` and `digest_regex(digest_type)`, `ocfl/digest.py` lines 94-121: the matcher
for the algorithm, `none` where the code raises `ValueError`. -/
def digestRegex (digestType : Str) : Option (Str → Bool) :=
  if digestType = c!"sha512" then some (matchHex 128)
  else if digestType = c!"sha256" then some (matchHex 64)
  else if digestType = c!"sha1" then some (matchHex 40)
  else if digestType = c!"md5" then some (matchHex 32)
  else if digestType = c!"blake2b-512" then some (matchHex 128)
  else if digestType = c!"blake2b-384" then some (matchHex 96)
  else if digestType = c!"blake2b-256" then some (matchHex 64)
  else if digestType = c!"blake2b-160" then some (matchHex 40)
  else if digestType = c!"sha512-spec-ex" then some matchSpecEx
  else if digestType = c!"sha256-spec-ex" then some matchSpecEx
  else none

/-- `file_digest(filename, digest_type)`, `ocfl/digest.py` lines 21-68, on the content of the
file. `raw name size` is `hashlib`'s hex digest for the function `name` (with digest size
`size`); the two `-spec-ex` types abbreviate it. `none` is `ValueError`. -/
def fileDigest (raw : Str → Bytes → Str) (digestType : Str) (content : Bytes) : Option Str :=
  if digestType = c!"sha512" ∨ digestType = c!"sha256" ∨ digestType = c!"sha1" ∨ digestType = c!"md5" ∨
      digestType = c!"blake2b-512" ∨ digestType = c!"blake2b-160" ∨ digestType = c!"blake2b-256" ∨
      digestType = c!"blake2b-384" then
    some (raw digestType content)
  else if digestType = c!"sha512-spec-ex" then
    let d := raw c!"sha512" content
    some (d.take 15 ++ c!"..." ++ d.drop (d.length - 3))
  else if digestType = c!"sha256-spec-ex" then
    let d := raw c!"sha256" content
    some (d.take 6 ++ c!"..." ++ d.drop (d.length - 3))
  else none

/-- `string_digest(txt, digest_type)`, `ocfl/digest.py` lines 71-91, on the encoded text. -/
def stringDigest (raw : Str → Bytes → Str) (digestType : Str) (enc : Bytes) : Option Str :=
  if digestType = c!"sha512" ∨ digestType = c!"sha256" ∨ digestType = c!"sha1" ∨ digestType = c!"md5" then
    some (raw digestType enc)
  else none

/-- `_file_digest`, `ocfl/digest.py` lines 9-18: feed the digester with chunks of at most
`bufsize` bytes. The digester is a state machine with `update` and `hexdigest`. -/
def fileDigestChunks {σ : Type} (update : σ → Bytes → σ) (bufsize : Nat) : (fuel : Nat) → σ → Bytes → σ
  | 0, st, _ => st
  | fuel + 1, st, content =>
    let b := content.take bufsize
    if b = [] then st else fileDigestChunks update bufsize fuel (update st b) (content.drop bufsize)

end Ocfl
