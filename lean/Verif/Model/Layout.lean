import Verif.Model.ObjectUtils
import Verif.Model.Quote
import Verif.Model.Digest
import Verif.Py.Json

/-!
# Model of the storage root layouts

`ocfl/layout.py`, `ocfl/layout_0002_flat_direct.py`, `ocfl/layout_0003_hash_and_id_n_tuple.py`,
`ocfl/layout_nnnn_flat_quoted.py`, `ocfl/layout_nnnn_tuple_tree.py`,
`ocfl/layout_nnnn_uuid_quadtree.py`, `ocfl/layout_registry.py`.
-/

namespace Ocfl

/-- Value of a hexadecimal digit. -/
def hexVal (c : Char) : Option Nat :=
  if '0' ≤ c ∧ c ≤ '9' then some (c.toNat - 48)
  else if 'a' ≤ c ∧ c ≤ 'f' then some (c.toNat - 87)
  else if 'A' ≤ c ∧ c ≤ 'F' then some (c.toNat - 55)
  else none

/-- `urllib.parse.unquote_to_bytes(s)`: `%` and two hexadecimal digits make a byte, everything else
stands for its UTF-8 bytes. -/
def unquoteToBytes : Str → Bytes
  | [] => []
  | [c] => String.utf8EncodeChar c
  | [c, d] => String.utf8EncodeChar c ++ String.utf8EncodeChar d
  | c :: d :: e :: s =>
    match if c = '%' then hexVal d else none, hexVal e with
    | some h, some l => UInt8.ofNat (16 * h + l) :: unquoteToBytes s
    | _, _ => String.utf8EncodeChar c ++ unquoteToBytes (d :: e :: s)

/-- `urllib.parse.unquote_plus(s)`. `none` where the bytes are not UTF-8 (there the library puts
replacement characters). -/
def unquotePlus (s : Str) : Option Str :=
  utf8Decode (unquoteToBytes (s.map (fun c => if c = '+' then ' ' else c)))

namespace Layout

/-- `Layout_0002_Flat_Direct.identifier_to_path`, `ocfl/layout_0002_flat_direct.py` lines 20-37. -/
def flatDirect (identifier : Str) : Py Str :=
  if identifier = [] ∨ identifier = c!"." ∨ identifier = c!".." ∨ '/' ∈ identifier then
    .error .layoutException
  else .ok identifier

/-- `"%" + hex` of a byte with lower-case digits. -/
def pctLower (b : UInt8) : Str := ['%', hexDigitLower (b.toNat / 16), hexDigitLower (b.toNat % 16)]

/-- `_percent_encode(c)`, `ocfl/layout_0003_hash_and_id_n_tuple.py` lines 14-20. -/
def percentEncode (c : Char) : Str := (String.utf8EncodeChar c).flatMap pctLower

/-- `re.match(r"[A-Za-z0-9-_]{1}", c)` -/
def isPlain (c : Char) : Bool :=
  ('A' ≤ c && c ≤ 'Z') || ('a' ≤ c && c ≤ 'z') || ('0' ≤ c && c ≤ '9') || c = '-' || c = '_'

/-- The loop of `_get_encapsulation_directory`, lines 25-30. -/
def encapsulate (identifier : Str) : Str :=
  identifier.flatMap (fun c => if isPlain c then [c] else percentEncode c)

/-- `_get_encapsulation_directory(object_id, digest)`,
`ocfl/layout_0003_hash_and_id_n_tuple.py` lines 23-33. -/
def encapsulationDirectory (identifier digest : Str) : Str :=
  let d := encapsulate identifier
  if d.length > 100 then d.take 100 ++ c!"-" ++ digest else d

/-- The loop over the tuples, `ocfl/layout_0003_hash_and_id_n_tuple.py` lines 40-43: rounds
`i, i+1, ...`, `n` of them. -/
def tuplePath (digest : Str) (tupleSize : Nat) : (n i : Nat) → Str → Str
  | 0, _, path => path
  | n + 1, i, path =>
    tuplePath digest tupleSize n (i + 1) (osPathJoin path ((digest.drop (i * tupleSize)).take tupleSize))

/-- `_id_to_path(...)`, `ocfl/layout_0003_hash_and_id_n_tuple.py` lines 36-46. `raw` is `hashlib`. -/
def hashNTuple (raw : Str → Bytes → Str) (alg : Str) (tupleSize numberOfTuples : Nat)
    (identifier : Str) : Py Str :=
  match stringDigest raw alg (utf8 identifier) with
  | none => .error .valueError
  | some digest =>
    let digest := digest.map asciiLower
    let path := tuplePath digest tupleSize numberOfTuples 0 []
    .ok (osPathJoin path (encapsulationDirectory identifier digest))

/-- `Layout_NNNN_Flat_Quoted.identifier_to_path`, `ocfl/layout_nnnn_flat_quoted.py` lines 16-34. -/
def flatQuoted (identifier : Str) : Py Str :=
  if identifier = [] then .error .layoutException else .ok (quotePlus identifier)

/-- `Layout.decode(identifier)`, `ocfl/layout.py` lines 124-133. -/
def decode (path : Str) : Option Str := unquotePlus path

/-- The loop of the tuple tree layout, `ocfl/layout_nnnn_tuple_tree.py` lines 104-109, with fuel
(each round shortens the rest when the tuple size is positive; the length is enough fuel, see
`segments_fuel`). -/
def segments (tupleSize : Nat) : (fuel : Nat) → Str → List Str
  | 0, rest => [rest]
  | fuel + 1, rest =>
    if rest.length > tupleSize then rest.take tupleSize :: segments tupleSize fuel (rest.drop tupleSize)
    else [rest]

/-- `Layout_NNNN_Tuple_Tree.identifier_to_path`, `ocfl/layout_nnnn_tuple_tree.py` lines 86-113.
`enc` is `pairtree.id_encode` (a library outside `/repo`). -/
def tupleTree (enc : Str → Str) (tupleSize : Nat) (identifier : Str) : Py Str :=
  if identifier = [] then .error .layoutException
  else
    let e := enc identifier
    let segs := segments tupleSize e.length e ++ [e]
    .ok (segs.tail.foldl osPathJoin (segs.headD []))

/-- `[\da-f]` -/
def isUuidChar (c : Char) : Bool := isDigit c || ('a' ≤ c && c ≤ 'f')

/-- `([\da-f]{4})` at the beginning of `s`: the group and the rest. -/
def group4 (s : Str) : Option (Str × Str) :=
  if (s.take 4).length = 4 && (s.take 4).all isUuidChar then some (s.take 4, s.drop 4) else none

/-- A literal hyphen at the beginning of `s`. -/
def hyphen (s : Str) : Option Str :=
  match s with
  | '-' :: s => some s
  | _ => none

/-- The match of `ocfl/layout_nnnn_uuid_quadtree.py` line 87: the eight groups. -/
def matchUuid (s : Str) : Option (List Str) := do
  let (g1, s) ← group4 s
  let (g2, s) ← group4 s
  let s ← hyphen s
  let (g3, s) ← group4 s
  let s ← hyphen s
  let (g4, s) ← group4 s
  let s ← hyphen s
  let (g5, s) ← group4 s
  let s ← hyphen s
  let (g6, s) ← group4 s
  let (g7, s) ← group4 s
  let (g8, s) ← group4 s
  if atDollar s then some [g1, g2, g3, g4, g5, g6, g7, g8] else none

/-- `Layout_NNNN_UUID_Quadtree.identifier_to_path`, `ocfl/layout_nnnn_uuid_quadtree.py` lines
68-91. `os.path.join` of the groups: none of them holds a separator or is empty. -/
def uuidQuadtree (pfx identifier : Str) : Py Str :=
  if startsWith identifier pfx then
    match matchUuid (identifier.drop pfx.length) with
    | none => .error .exception
    | some gs => .ok (gs.tail.foldl osPathJoin (gs.headD []))
  else .error .exception

end Layout

/-- A layout object: its class and its parameters. -/
inductive LayoutObj
  | flatDirect
  | hashNTuple (alg : Str) (tupleSize numberOfTuples : Nat)
  | flatQuoted
  | tupleTree (tupleSize : Nat)
  | uuidQuadtree (pfx : Str)
  deriving DecidableEq, Repr

namespace LayoutObj

/-- The `NAME` attributes: `ocfl/layout_0002_flat_direct.py` line 16,
`ocfl/layout_0003_hash_and_id_n_tuple.py` line 59, `ocfl/layout_nnnn_flat_quoted.py` line 11,
`ocfl/layout_nnnn_tuple_tree.py` line 29, `ocfl/layout_nnnn_uuid_quadtree.py` line 19. -/
def name : LayoutObj → Str
  | flatDirect => c!"0002-flat-direct-storage-layout"
  | hashNTuple .. => c!"0003-hash-and-id-n-tuple-storage-layout"
  | flatQuoted => c!"nnnn-flat-quoted-storage-layout"
  | tupleTree _ => c!"nnnn-tuple-tree-layout"
  | uuidQuadtree _ => c!"nnnn-uuid-quadtree"

/-- `identifier_to_path(identifier)` of the object. -/
def path (raw : Str → Bytes → Str) (enc : Str → Str) (l : LayoutObj) (identifier : Str) : Py Str :=
  match l with
  | flatDirect => Layout.flatDirect identifier
  | hashNTuple alg ts nt => Layout.hashNTuple raw alg ts nt identifier
  | flatQuoted => Layout.flatQuoted identifier
  | tupleTree ts => Layout.tupleTree enc ts identifier
  | uuidQuadtree pfx => Layout.uuidQuadtree pfx identifier

/-- The `config` properties: `ocfl/layout.py` lines 65-73,
`ocfl/layout_0003_hash_and_id_n_tuple.py` lines 162-168, `ocfl/layout_nnnn_tuple_tree.py` lines
33-37, `ocfl/layout_nnnn_uuid_quadtree.py` lines 23-27. -/
def config : LayoutObj → Option (Dict Str Json)
  | flatDirect => none
  | hashNTuple alg ts nt => some
      [(c!"extensionName", .str c!"0003-hash-and-id-n-tuple-storage-layout"),
       (c!"digestAlgorithm", .str alg), (c!"tupleSize", .num (natStr ts)),
       (c!"numberOfTuples", .num (natStr nt))]
  | flatQuoted => none
  | tupleTree ts => some
      [(c!"extensionName", .str c!"nnnn-tuple-tree-layout"), (c!"tupleSize", .num (natStr ts))]
  | uuidQuadtree pfx => some
      [(c!"extensionName", .str c!"nnnn-uuid-quadtree"), (c!"prefix", .str pfx)]

/-- `isinstance(value, int)` and the value, for what `json.load` makes of a document: an integer
literal or a Boolean (`True` is an `int` in Python; the model keeps the number 1 for it). -/
def intValue : Json → Option Int
  | .bool b => some (if b then 1 else 0)
  | .num lit =>
    match lit with
    | '-' :: ds => if ds ≠ [] ∧ ds.all isDigit then some (-(intOf ds : Int)) else none
    | ds => if ds ≠ [] ∧ ds.all isDigit then some (intOf ds : Int) else none
  | _ => none

/-- `config.get(key)`, with `None` for JSON `null` and for a missing key. -/
def param (config : Dict Str Json) (key : Str) : Option Json :=
  match Dict.get? config key with
  | some .null => none
  | v => v

/-- `check_tuple_size`, `check_number_of_tuples`: an integer in a range.
`ocfl/layout_0003_hash_and_id_n_tuple.py` lines 92-139 and `ocfl/layout_nnnn_tuple_tree.py` lines
39-62. -/
def checkInt (lo hi : Nat) (value : Option Json) : Py Nat :=
  match value with
  | none => .error .layoutException
  | some v =>
    match intValue v with
    | none => .error .layoutException
    | some i => if i < lo ∨ i > hi then .error .layoutException else .ok i.toNat

/-- `check_digest_algorithm(value)`, `ocfl/layout_0003_hash_and_id_n_tuple.py` lines 65-90. -/
def checkAlgorithm (raw : Str → Bytes → Str) (value : Option Json) : Py Str :=
  match value with
  | some (.str alg) =>
    match stringDigest raw alg (utf8 c!"dummy_data") with
    | none => .error .layoutException
    | some _ => .ok alg
  | _ => .error .layoutException

/-- `check_full_config()`, `ocfl/layout_0003_hash_and_id_n_tuple.py` lines 141-160. -/
def checkFull (raw : Str → Bytes → Str) (alg : Str) (ts nt : Nat) : Py Unit :=
  if (ts = 0 ∧ nt ≠ 0) ∨ (ts ≠ 0 ∧ nt = 0) then .error .layoutException
  else
    match stringDigest raw alg (utf8 c!"dummy_data") with
    | none => .error .valueError
    | some d => if ts * nt > d.length then .error .layoutException else .ok ()

/-- `check_prefix(value)`, `ocfl/layout_nnnn_uuid_quadtree.py` lines 29-44. -/
def checkPrefix (value : Option Json) : Py Str :=
  match value with
  | some (.str s) => if s = [] then .error .layoutException else .ok s
  | _ => .error .layoutException

/-- The part of `check_and_set_layout_params` that looks at the extension name, `ocfl/layout.py`
lines 199-204. -/
def checkName (config : Dict Str Json) (requireName : Bool) (l : LayoutObj) : Py Unit :=
  match Dict.get? config c!"extensionName" with
  | none => if requireName then .error .layoutException else .ok ()
  | some n => if n.str? ≠ some l.name then .error .layoutException else .ok ()

/-- The part of `check_and_set_layout_params` that sets and checks the parameters, `ocfl/layout.py`
lines 205-209. Layouts without parameters have `PARAMS = None`, so that `self.PARAMS.items()` raises
`AttributeError`. -/
def setParams (raw : Str → Bytes → Str) (config : Dict Str Json) (l : LayoutObj) : Py LayoutObj :=
  match l with
  | flatDirect => .error .attributeError
  | hashNTuple .. => do
    let alg ← checkAlgorithm raw (param config c!"digestAlgorithm")
    let ts ← checkInt 0 32 (param config c!"tupleSize")
    let nt ← checkInt 0 32 (param config c!"numberOfTuples")
    checkFull raw alg ts nt
    return hashNTuple alg ts nt
  | flatQuoted => .error .attributeError
  | tupleTree _ => do
    let ts ← checkInt 2 6 (param config c!"tupleSize")
    return tupleTree ts
  | uuidQuadtree _ => do
    let pfx ← checkPrefix (param config c!"prefix")
    return uuidQuadtree pfx

/-- `check_and_set_layout_params(config, require_extension_name)`, `ocfl/layout.py` lines 181-209.
The layout object after the call, or the exception. -/
def checkAndSet (raw : Str → Bytes → Str) (config : Dict Str Json) (requireName : Bool)
    (l : LayoutObj) : Py LayoutObj :=
  match checkName config requireName l with
  | .error e => .error e
  | .ok _ => setParams raw config l

end LayoutObj

/-- `_layout_registry` after the default registrations, `ocfl/layout_registry.py` lines 60-69. A
class stands for the object its constructor makes with default arguments. -/
def defaultRegistry : Dict Str LayoutObj :=
  [(c!"0002-flat-direct-storage-layout", .flatDirect),
   (c!"0002", .flatDirect),
   (c!"flat-direct", .flatDirect),
   (c!"0003-hash-and-id-n-tuple-storage-layout", .hashNTuple c!"sha256" 3 3),
   (c!"0003", .hashNTuple c!"sha256" 3 3),
   (c!"nnnn-flat-quoted-storage-layout", .flatQuoted),
   (c!"flat-quoted", .flatQuoted),
   (c!"nnnn-tuple-tree", .tupleTree 2),
   (c!"nnnn-uuid-quadtree", .uuidQuadtree c!"urn:uuid:")]

/-- `add_layout(name, layout_cls)`, `ocfl/layout_registry.py` lines 21-28. -/
def addLayout (reg : Dict Str LayoutObj) (name : Str) (cls : LayoutObj) : Dict Str LayoutObj :=
  Dict.set reg name cls

/-- `get_layout(name)`, `ocfl/layout_registry.py` lines 31-45. -/
def getLayout (reg : Dict Str LayoutObj) (name : Str) : Py LayoutObj :=
  match Dict.get? reg name with
  | none => .error .exception
  | some l => .ok l

/-- `layout_is_supported(name)`, `ocfl/layout_registry.py` lines 48-57. -/
def layoutIsSupported (reg : Dict Str LayoutObj) (name : Str) : Bool := Dict.has reg name

end Ocfl
