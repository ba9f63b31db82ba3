import Verif.Py.Json
import Verif.Spec.State
import Verif.Spec.Digest
import Verif.Spec.VersionDir
import Verif.Spec.Inventory
import Verif.Spec.W3CDatetime

/-!
# Specification: the rules a valid inventory obeys

No order of checking, no error codes. These are the rules the code enforces; where they are weaker
than the rules of the OCFL specification that is said, and the difference is treated in
`Verif.Props.InventoryValidator`.
-/

namespace Ocfl.Spec
open Ocfl

/-- The JSON object `j` has the member `k: v`. -/
def Member (j : Json) (k : Str) (v : Json) : Prop := ∃ d, j = .obj d ∧ (k, v) ∈ d

/-- The JSON object for a map from digests to lists of paths. -/
def ofDigestMap (m : List (Str × List Str)) : Json :=
  .obj (m.map (fun e => (e.1, .arr (e.2.map .str))))

/-! ## Paths -/

/-- Segments joined with slashes. -/
def pathOf (segs : List Str) : Str := List.intercalate ['/'] segs

/-- A segment that names an entry of a directory. -/
def Safe (seg : Str) : Prop := seg ≠ [] ∧ seg ≠ c!"." ∧ seg ≠ c!".." ∧ '/' ∉ seg

/-- `p` is a relative path with the segments `segs`. -/
def LogicalPath (segs : List Str) (p : Str) : Prop :=
  segs ≠ [] ∧ (∀ s ∈ segs, Safe s) ∧ p = pathOf segs

/-- `p` is a path inside the content directory `cd` of version `v`, with the segments `segs` below
it. The code reads a path only up to its first newline after the content directory: whatever
follows is `tail`, not checked except that it does not end in a slash. -/
def ContentPath (cd v : Str) (segs : List Str) (p : Str) : Prop :=
  cd ≠ [] ∧ segs ≠ [] ∧ (∀ s ∈ segs, Safe s ∧ '\n' ∉ s) ∧
  ∃ tail, p = pathOf (v :: cd :: segs) ++ tail ∧ (tail = [] ∨ (tail.head? = some '\n' ∧ tail.getLast? ≠ some '/'))

/-! ## Digests -/

/-- A hexadecimal digit. -/
def Hex (c : Char) : Prop := c ∈ c!"0123456789abcdefABCDEF"

/-- A lower case hexadecimal digit. -/
def HexLower (c : Char) : Prop := c ∈ c!"0123456789abcdef"

/-- The name used for an algorithm given in JSON; anything but a string is treated like an unknown
name. -/
def algName : Json → Str
  | .str a => a
  | _ => []

/-- Algorithms the library knows. -/
def KnownAlg (alg : Str) : Prop := (hexLength alg).isSome ∨ CaseSensitive alg

/-- `d` has the form of a digest of the algorithm; a digest of an unknown algorithm is any line. -/
def DigestForm (alg d : Str) : Prop :=
  (∀ n, hexLength alg = some n → d.length = n ∧ ∀ c ∈ d, Hex c) ∧
  (CaseSensitive alg → ∃ a b, d = a ++ c!"..." ++ b ∧ a.length = 6 ∧ b.length = 3 ∧ ∀ c ∈ a ++ b, HexLower c) ∧
  (¬ KnownAlg alg → '\n' ∉ d)

/-- What the code takes for a digest: it allows a newline at the end. -/
def DigestText (alg d : Str) : Prop := DigestForm alg d ∨ ∃ d', d = d' ++ ['\n'] ∧ DigestForm alg d'

/-- Two digests stand for the same value. -/
def SameDigest (alg d d' : Str) : Prop :=
  (CaseSensitive alg → d = d') ∧ (¬ CaseSensitive alg → SameUpToCase d d')

/-! ## The parts of an inventory -/

/-- The specification versions the library supports. -/
def supported : List Str := [c!"1.0", c!"1.1"]

/-- The type of an inventory for a version of the specification. -/
def typeUri (v : Str) : Str := c!"https://ocfl.io/" ++ v ++ c!"/spec/#inventory"

/-- `type`. The period in `ocfl.io` may be any character, and anything may follow, unless a
specification version is asked for. -/
def TypeRule (force : Option Str) (t : Str) : Prop :=
  (∀ f, force = some f → f ≠ [] → t = typeUri f) ∧
  ∃ c v rest, c ≠ '\n' ∧ v ∈ supported ∧
    t = c!"https://ocfl" ++ [c] ++ c!"io/" ++ v ++ c!"/spec/#inventory" ++ rest

/-- `digestAlgorithm`: one of two names; with lax digests anything but a list or object. -/
def AlgRule (lax : Bool) (alg : Json) : Prop :=
  if lax then (∀ l, alg ≠ .arr l) ∧ (∀ d, alg ≠ .obj d) else alg = .str c!"sha512" ∨ alg = .str c!"sha256"

/-- The content directory: given, or the default. The empty string is not excluded. -/
def ContentDir (inv : Json) (cd : Str) : Prop :=
  (Member inv c!"contentDirectory" (.str cd) ∧ '/' ∉ cd ∧ cd ≠ c!"." ∧ cd ≠ c!"..") ∨
  ((∀ x, ¬ Member inv c!"contentDirectory" x) ∧ cd = c!"content")

/-- The largest number of versions the validator accepts in a naming style. -/
def validatorLimit : Option Nat → Nat
  | none => 999999
  | some w => 10 ^ (w - 1) - 1

/-- The names of versions are those of versions `1` to `n` in one style. -/
def VersionNames (names : List Str) (style : Option Nat) (n : Nat) : Prop :=
  (∀ w, style = some w → 2 ≤ w ∧ w ≤ 10) ∧ 1 ≤ n ∧ n ≤ validatorLimit style ∧
  ∀ v, v ∈ names ↔ ∃ i, 1 ≤ i ∧ i ≤ n ∧ v = styleName style i

/-- The manifest. -/
structure ManifestRules (alg cd : Str) (versions : List Str) (m : List (Str × List Str)) : Prop where
  digests : ∀ e ∈ m, DigestText alg e.1
  distinct : m.Pairwise (fun a b => ¬ SameDigest alg a.1 b.1)
  paths : ∀ p ∈ listed m, ∃ v ∈ versions, ∃ segs, ContentPath cd v segs p
  unique : PathsUnique m
  /-- No path is the directory in which another path lies. -/
  noConflict : ∀ p ∈ listed m, ∀ v ∈ versions, ∀ segs, ContentPath cd v segs p →
    pathOf (v :: cd :: segs.dropLast) ∉ listed m

/-- `YYYY-MM-DDThh:mm:ss`, written with any decimal digits of Unicode. -/
def ClockText (x : DateTime) (s : Str) : Prop :=
  ∃ y mo d h mi sec : Str,
    (y.length = 4 ∧ mo.length = 2 ∧ d.length = 2 ∧ h.length = 2 ∧ mi.length = 2 ∧ sec.length = 2) ∧
    (∀ c ∈ y ++ mo ++ d ++ h ++ mi ++ sec, isDigit c) ∧
    (intOf y = x.year ∧ intOf mo = x.month ∧ intOf d = x.day ∧ intOf h = x.hour ∧ intOf mi = x.minute ∧
      intOf sec = x.second) ∧
    s = y ++ c!"-" ++ mo ++ c!"-" ++ d ++ c!"T" ++ h ++ c!":" ++ mi ++ c!":" ++ sec

/-- `Z`, `+hh:mm` or `-hh:mm`. -/
def ZoneText (s : Str) : Prop :=
  s = c!"Z" ∨ ∃ sign hh mm : Str, (sign = c!"+" ∨ sign = c!"-") ∧ hh.length = 2 ∧ mm.length = 2 ∧
    (∀ c ∈ hh ++ mm, isDigit c) ∧ intOf hh ≤ 23 ∧ intOf mm ≤ 59 ∧ s = sign ++ hh ++ c!":" ++ mm

/-- A time stamp: an existing date and a time to the second, maybe a fraction, and a time zone.
The code allows a newline at the end. -/
def Timestamp (s : Str) : Prop :=
  ∃ x clk fr zone nl, x.Valid ∧ ClockText x clk ∧ (∀ c ∈ fr, isDigit c) ∧ ZoneText zone ∧ (nl = [] ∨ nl = ['\n']) ∧
    s = clk ++ fraction fr ++ zone ++ nl

/-- A version block `b` with state `st`, beside the manifest `m`. -/
structure VersionRules (m : List (Str × List Str)) (b : Json) (st : List (Str × List Str)) : Prop where
  created : ∃ t, Member b c!"created" (.str t) ∧ Timestamp t
  state : Member b c!"state" (ofDigestMap st)
  message : ∀ x, Member b c!"message" x → ∃ s, x = .str s
  user : ∀ x, Member b c!"user" x →
    (∃ n, Member x c!"name" (.str n)) ∧ ∀ a, Member x c!"address" a → ∃ s, a = .str s
  digests : ∀ e ∈ st, ∃ ps, ps ≠ [] ∧ (e.1, ps) ∈ m
  paths : ∀ p ∈ listed st, ∃ segs, LogicalPath segs p
  unique : PathsUnique st
  noConflict : ∀ p ∈ listed st, ∀ segs, LogicalPath segs p → pathOf segs.dropLast ∉ listed st

/-- The fixity block, beside the content paths. -/
structure FixityRules (lax : Bool) (paths : List Str) (fx : Json) : Prop where
  isObj : ∃ d, fx = .obj d
  block : ∀ alg b, Member fx alg b → (lax = false → KnownAlg alg) ∧
    ∃ m, b = ofDigestMap m ∧ (∀ e ∈ m, DigestText alg e.1) ∧
      (KnownAlg alg → m.Pairwise (fun x y => ¬ SameDigest alg x.1 y.1)) ∧
      (∀ p ∈ listed m, p ∈ paths)

/-- The rules for `inv` with the algorithm `alg`, content directory `cd`, manifest `m`, version
blocks `vs` and their states, in a naming style with `n` versions. -/
structure RulesWith (lax : Bool) (force : Option Str) (inv alg : Json) (cd : Str) (m : List (Str × List Str))
    (vs : List (Str × Json)) (states : Str → List (Str × List Str)) (style : Option Nat) (n : Nat) : Prop where
  id : ∃ s, s ≠ [] ∧ Member inv c!"id" (.str s)
  type : ∃ t, Member inv c!"type" (.str t) ∧ TypeRule force t
  digestAlgorithm : Member inv c!"digestAlgorithm" alg ∧ AlgRule lax alg
  contentDirectory : ContentDir inv cd
  manifest : Member inv c!"manifest" (ofDigestMap m)
  manifestRules : ManifestRules (algName alg) cd (vs.map Prod.fst) m
  versions : Member inv c!"versions" (.obj vs)
  names : VersionNames (vs.map Prod.fst) style n
  head : Member inv c!"head" (.str (styleName style n))
  versionRules : ∀ v b, (v, b) ∈ vs → VersionRules m b (states v)
  /-- Every digest that has content is used. -/
  used : ∀ d ps, (d, ps) ∈ m → ps ≠ [] → ∃ v ∈ vs.map Prod.fst, ∃ ps', (d, ps') ∈ states v
  fixity : ∀ fx, Member inv c!"fixity" fx → FixityRules lax (listed m) fx

/-- The inventory obeys the rules. -/
def ValidInventory (lax : Bool) (force : Option Str) (inv : Json) : Prop :=
  ∃ alg cd m vs states style n, RulesWith lax force inv alg cd m vs states style n

end Ocfl.Spec
