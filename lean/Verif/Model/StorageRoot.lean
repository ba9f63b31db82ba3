import Verif.Model.Validator
import Verif.Model.Object
import Verif.Model.LayoutIO

/-!
# Model of `ocfl/storage_root.py`
-/

namespace Ocfl

/-- `SPEC_VERSIONS_SUPPORTED`, `ocfl/constants.py`. -/
def specVersionsSupported : List Str := [c!"1.0", c!"1.1"]

/-- `StorageRoot.check_spec_version(spec_version, default)`, `ocfl/storage_root.py` lines 88-106:
the attribute `spec_version` after the call, given the one before, and the outcome. -/
def checkSpecVersion (specVersion : Option Str) (default : Str) (cur : Option Str) : Option Str × Py Unit :=
  let want := if specVersion = none ∧ cur = none then some default else specVersion
  match want with
  | none => (cur, .error .storageRootException)
  | some v => if v ∈ specVersionsSupported then (some v, .ok ()) else (cur, .error .storageRootException)

/-- A sequence of calls of `check_spec_version` with the default value for `default`; the caller
catches every exception. -/
def checkSpecVersions (cur : Option Str) (calls : List (Option Str)) : Option Str :=
  calls.foldl (fun cur v => (checkSpecVersion v c!"1.1" cur).1) cur

/-- The attributes of a `StorageRoot`, `ocfl/storage_root.py` lines 55-86. `log` says whether `log` is
set. Left out: `layout_description`, and the counts and messages of the last validation, which are
results of `validate`. -/
structure StorageRoot where
  root : Str
  layoutName : Option Str := none
  /-- `_layout` -/
  layout : Option LayoutObj := none
  specVersion : Option Str := none
  lax : Bool := false
  log : Bool := false
  traversalErrors : Nat := 0
  deriving DecidableEq, Repr

namespace Store

/-- `registered_extensions`, `ocfl/storage_root.py` lines 75-78. -/
def registeredExtensions : List Str :=
  [c!"0002-flat-direct-storage-layout", c!"0003-hash-and-id-n-tuple-storage-layout"]

/-- `layout_file`, `ocfl/storage_root.py` line 74. -/
def layoutFile : Str := c!"ocfl_layout.json"

/-- The constructor, `ocfl/storage_root.py` lines 55-86. -/
def new (root : Str) (layoutName : Option Str) (lax : Bool) (specVersion : Option Str) : Py StorageRoot :=
  match specVersion with
  | none => .ok { root := root, layoutName := layoutName, lax := lax }
  | some v =>
    match checkSpecVersion (some v) c!"1.1" none with
    | (_, .error e) => .error e
    | (sv, .ok _) => .ok { root := root, layoutName := layoutName, lax := lax, specVersion := sv }

/-- `open_root_fs()`, `ocfl/storage_root.py` lines 108-120: the base directory. -/
def openRoot (E : Env) (r : StorageRoot) (s : FS) : Py Path :=
  match fswOpen E.cwd r.root s with
  | .error .fileNotFound => .error .storageRootException
  | .error e => .error e
  | .ok base => .ok base

/-- The property `layout`, `ocfl/storage_root.py` lines 130-139. -/
def layoutOf (reg : Dict Str LayoutObj) (r : StorageRoot) : StorageRoot × Py (Option LayoutObj) :=
  match r.layout, r.layoutName with
  | none, some name =>
    match getLayout reg name with
    | .error e => (r, .error e)
    | .ok l => ({ r with layout := some l }, .ok (some l))
  | l, _ => (r, .ok l)

/-- `parse_layout_file()`, `ocfl/storage_root.py` lines 271-293: the extension name. -/
def parseLayoutFile (E : Env) (s : FS) (base : Path) : Py Str :=
  match FS.read s (FS.resolve base layoutFile) with
  | .error _ => .error .storageRootException
  | .ok b =>
    match E.lib.loadb b with
    | none => .error .storageRootException
    | some (.obj d) =>
      match Dict.get? d c!"extension", Dict.get? d c!"description" with
      | some (.str name), some (.str _) => .ok name
      | _, _ => .error .storageRootException
    | some _ => .error .storageRootException

/-- The layout part of `check_root_structure`, `ocfl/storage_root.py` lines 257-267. Simplification:
parameters that were set before `read_layout_params` raises are lost. -/
def checkLayout (E : Env) (reg : Dict Str LayoutObj) (s : FS) (base : Path) (r : StorageRoot) : StorageRoot × Py Unit :=
  if FS.exists_ s (FS.resolve base layoutFile) then
    match parseLayoutFile E s base with
    | .error e => (r, .error e)
    | .ok name =>
      let r := { r with layoutName := some name }
      if layoutIsSupported reg name = false then (r, .error .storageRootException)
      else
        match layoutOf reg r with
        | (r, .error e) => (r, .error e)
        | (r, .ok none) => (r, .error .attributeError)
        | (r, .ok (some l)) =>
          match l.readParams E.lib E.raw s base false with
          | .error e => (r, .error e)
          | .ok l' => ({ r with layout := some l' }, .ok ())
  else (r, .ok ())

/-- The version that a root declaration names, `ocfl/storage_root.py` lines 240-247. -/
def declaredVersion (tvalue : Str) : Option Str :=
  specVersionsSupported.find? (fun v => namasteFilename 0 tvalue = c!"0=ocfl_" ++ v)

/-- `check_root_structure()`, `ocfl/storage_root.py` lines 220-269: the attributes afterwards and the
outcome. -/
def checkStructure (E : Env) (reg : Dict Str LayoutObj) (s : FS) (base : Path) (r : StorageRoot) : StorageRoot × Py Unit :=
  match findNamastes s base 0 [] 10 with
  | .error e => (r, .error e)
  | .ok [tvalue] =>
    match declaredVersion tvalue with
    | none => (r, .error .storageRootException)
    | some v =>
      if r.specVersion ≠ none ∧ r.specVersion ≠ some v then (r, .error .storageRootException)
      else
        let r := { r with specVersion := some v }
        match namasteContentOk E.isWord s base 0 tvalue [] with
        | .error e => (r, .error e)
        | .ok false => (r, .error .storageRootException)
        | .ok true => checkLayout E reg s base r
  | .ok _ => (r, .error .storageRootException)

/-! ## Traversal -/

/-- The loop of `validate_extensions_dir`, `ocfl/storage_root.py` lines 350-356: how many errors. Without a
log a warning is an `AttributeError`. -/
def extensionEntries (E : Env) (log : Bool) : List (Str × Bool) → Py Nat
  | [] => .ok 0
  | (name, true) :: rest =>
    match relpath E.cwd name c!"extensions" with
    | .error e => .error e
    | .ok ext => if ext ∉ registeredExtensions ∧ log = false then .error .attributeError else extensionEntries E log rest
  | (_, false) :: rest =>
    match extensionEntries E log rest with
    | .error e => .error e
    | .ok n => .ok (n + 1)

/-- `validate_extensions_dir()`, `ocfl/storage_root.py` lines 341-356. -/
def validateExtensions (E : Env) (log : Bool) (s : FS) (base : Path) : Py Nat :=
  match FS.listdir s base c!"extensions" with
  | .error e => .error e
  | .ok entries => extensionEntries E log entries

/-- `re.match(r"0=ocfl_object_(\d+\.\d+)", declaration)`, `ocfl/storage_root.py` line 324: the group. -/
def matchObjectDeclaration (declaration : Str) : Option Str :=
  if startsWith declaration c!"0=ocfl_object_" then
    let rest := declaration.drop 14
    let a := rest.takeWhile isDigit
    match rest.dropWhile isDigit with
    | '.' :: r =>
      let b := r.takeWhile isDigit
      if a ≠ [] ∧ b ≠ [] then some (a ++ '.' :: b) else none
    | _ => none
  else none

/-- What `object_paths` makes of a directory below the root. -/
inductive Found
  | object
  | intermediate
  | error
  deriving DecidableEq, Repr

/-- The body of the loop of `object_paths` for a directory below the root, `ocfl/storage_root.py` lines
314-332. Simplification: the codes of the errors. -/
def classify (v : Visit) : Found :=
  if v.dirs.length + v.files.length = 0 then .error
  else if v.files.length = 0 then .intermediate
  else
    match v.files.filter (fun f => startsWith f c!"0=") with
    | [declaration] =>
      match matchObjectDeclaration declaration with
      | some v => if v ∈ specVersionsSupported then .object else .error
      | none => .error
    | _ => .error

/-- What `object_paths` does to `dirs`, `ocfl/storage_root.py` lines 309-313 and 333-339. -/
def pruneDirs (v : Visit) : List Str :=
  if v.dirpath = c!"/" then v.dirs.erase c!"extensions"
  else if v.files.length > 0 then [] else v.dirs

/-- What a traversal gives: the paths of the objects, in order, and the directories in error. -/
structure Listing where
  paths : List Str := []
  errors : List Str := []
  /-- The number of files in the extensions directory. -/
  extensionErrors : Nat := 0
  deriving DecidableEq, Repr

/-- `object_paths()`, `ocfl/storage_root.py` lines 295-339, consumed to the end. -/
def objectPaths (E : Env) (log : Bool) (s : FS) (base : Path) : Py Listing :=
  match fswWalkPruned s base pruneDirs c!"/" with
  | .error e => .error e
  | .ok visits =>
    let below := visits.filter (fun v => v.dirpath ≠ c!"/")
    let paths := (below.filter (fun v => classify v = .object)).map (fun v => lstripSlash v.dirpath)
    let errors := (below.filter (fun v => classify v = .error)).map (fun v => lstripSlash v.dirpath)
    if visits.any (fun v => v.dirpath = c!"/" ∧ c!"extensions" ∈ v.dirs) then
      match validateExtensions E log s base with
      | .error e => .error e
      | .ok n => .ok ⟨paths, errors, n⟩
    else .ok ⟨paths, errors, 0⟩

/-- How many traversal errors there are. -/
def Listing.numErrors (l : Listing) : Nat := l.errors.length + l.extensionErrors

/-- The identifiers of the objects at the paths, `ocfl/storage_root.py` lines 371-376. -/
def identifiers (E : Env) (s : FS) (base : Path) : List Str → Py (List (Str × Option Str))
  | [] => .ok []
  | p :: ps =>
    match idFromInventory E (FS.resolve base p) (some c!"UNKNOWN-ID") s with
    | .error e => .error e
    | .ok id =>
      match identifiers E s base ps with
      | .error e => .error e
      | .ok rest => .ok ((p, id) :: rest)

/-- `list_objects()`, `ocfl/storage_root.py` lines 358-377, consumed to the end. -/
def listObjects (E : Env) (reg : Dict Str LayoutObj) (s : FS) (r : StorageRoot) : StorageRoot × Py (List (Str × Option Str)) :=
  match openRoot E r s with
  | .error e => (r, .error e)
  | .ok base =>
    match checkStructure E reg s base r with
    | (r, .error e) => (r, .error e)
    | (r, .ok _) =>
      match objectPaths E r.log s base with
      | .error e => (r, .error e)
      | .ok l => ({ r with traversalErrors := r.traversalErrors + l.numErrors }, identifiers E s base l.paths)

/-! ## Validation -/

/-- The loop of `validate_hierarchy`, `ocfl/storage_root.py` lines 399-417: how many objects are valid. -/
def goodObjects (E : Env) (cfg : Validator.Config) (s : FS) (base : Path) : List Str → Py Nat
  | [] => .ok 0
  | p :: ps =>
    match Validator.validateAt E cfg 0 s (FS.resolve base p) with
    | .error e => .error e
    | .ok (ok, _) =>
      match goodObjects E cfg s base ps with
      | .error e => .error e
      | .ok n => .ok (if ok then n + 1 else n)

/-- What `validate` leaves in `num_objects` and `good_objects`, and its result. -/
structure Report where
  valid : Bool
  numObjects : Nat
  goodObjects : Nat
  deriving DecidableEq, Repr

/-- `validate(validate_objects, check_digests)`, `ocfl/storage_root.py` lines 419-458. If the structure
is in error the counts are those of before; the model has 0. -/
def validate (E : Env) (reg : Dict Str LayoutObj) (validateObjects checkDigests : Bool) (s : FS) (r : StorageRoot) :
    StorageRoot × Py Report :=
  let r := { r with log := true }
  match openRoot E r s with
  | .error e => (r, .error e)
  | .ok base =>
    match checkStructure E reg s base r with
    | (r, .error .storageRootException) => (r, .ok ⟨false, 0, 0⟩)
    | (r, .error e) => (r, .error e)
    | (r, .ok _) =>
      match objectPaths E r.log s base with
      | .error e => (r, .error e)
      | .ok l =>
        let r := { r with traversalErrors := r.traversalErrors + l.numErrors }
        if validateObjects then
          match goodObjects E { checkDigests := checkDigests, lax := r.lax } s base l.paths with
          | .error e => (r, .error e)
          | .ok n => (r, .ok ⟨r.traversalErrors = 0, l.paths.length, n⟩)
        else (r, .ok ⟨r.traversalErrors = 0, 0, 0⟩)

/-! ## Making a storage root and adding objects -/

/-- The `DESCRIPTION` attributes: `ocfl/layout_0002_flat_direct.py` line 17,
`ocfl/layout_0003_hash_and_id_n_tuple.py` line 60, `ocfl/layout_nnnn_flat_quoted.py` line 12,
`ocfl/layout_nnnn_tuple_tree.py` line 30, `ocfl/layout_nnnn_uuid_quadtree.py` line 20. -/
def description : LayoutObj → Str
  | .flatDirect => c!"Extension 0002: Flat Direct Storage Layout"
  | .hashNTuple .. => c!"Extension 0003: Hashed Truncated N-tuple Trees with Object ID Encapsulating Directory for OCFL Storage Hierarchies"
  | .flatQuoted => c!"Local extension, flat layout with simple quoting of object ids"
  | .tupleTree _ => c!"Local extension, unhashed tuple-tree with configurable tuple size"
  | .uuidQuadtree _ => c!"Local extension to support UUID URIs with quadtree directory names"

/-- The layout with the parameters given to `initialize`, `ocfl/storage_root.py` lines 190-196. A document
that is not an object makes `in` or `.get` raise. -/
def withParams (E : Env) (l : LayoutObj) (params : Option Str) : Py LayoutObj :=
  match params with
  | none => .ok l
  | some text =>
    match E.lib.loads text with
    | none => .error .storageRootException
    | some (.obj config) => l.checkAndSet E.raw config false
    | some (.str _) => .error .attributeError
    | some (.arr _) => .error .attributeError
    | some _ => .error .typeError

/-- The layout declaration, `ocfl/storage_root.py` lines 212-214. -/
def layoutDocument (l : LayoutObj) : Json :=
  .obj [(c!"extension", .str l.name), (c!"description", .str (description l))]

/-- The part of `initialize` that writes, `ocfl/storage_root.py` lines 198-218. -/
def writeRoot (E : Env) (r : StorageRoot) (spec : Str) (layout : Option LayoutObj) : Prog Path :=
  let (parent, dir) := osPathSplit r.root
  Prog.bind (Prog.look (fswOpen E.cwd parent)) (fun parentBase =>
  Prog.get (fun s =>
    if FS.exists_ s (FS.resolve parentBase dir) then .ret (.error .storageRootException)
    else
      Prog.bind (FS.makedir (FS.resolve parentBase dir)) (fun _ =>
      Prog.bind (Prog.look (fswOpen E.cwd r.root)) (fun base =>
      Prog.bind (namasteWrite E.isWord base 0 (c!"ocfl_" ++ spec) []) (fun _ =>
      match layout with
      | none => .ret (.ok base)
      | some l =>
        Prog.bind (FS.writeFile (FS.resolve base layoutFile) (utf8 (E.lib.dumpsSorted (layoutDocument l)))) (fun _ =>
        Prog.bind (l.writeParams E.lib base) (fun _ => .ret (.ok base))))))))

/-- `initialize(spec_version, layout_params)`, `ocfl/storage_root.py` lines 177-218: the attributes
afterwards. Simplification: what is left of the object after an exception. -/
def initializeRoot (E : Env) (reg : Dict Str LayoutObj) (r : StorageRoot) (specVersion : Option Str) (params : Option Str) :
    Prog StorageRoot :=
  match layoutOf reg r with
  | (_, .error e) => .ret (.error e)
  | (r, .ok layout) =>
    let layout' : Py (Option LayoutObj) :=
      match layout with
      | none => .ok none
      | some l => (withParams E l params).map some
    match layout' with
    | .error e => .ret (.error e)
    | .ok layout =>
      match checkSpecVersion specVersion c!"1.1" r.specVersion with
      | (_, .error e) => .ret (.error e)
      | (none, .ok _) => .ret (.error .typeError)
      | (some spec, .ok _) =>
        Prog.bind (writeRoot E r spec layout) (fun _ =>
          .ret (.ok { r with layout := layout, specVersion := some spec }))

/-- `object_path(identifier)`, `ocfl/storage_root.py` lines 160-175. `enc` is `pairtree.id_encode`. -/
def objectPath (E : Env) (reg : Dict Str LayoutObj) (enc : Str → Str) (s : FS) (r : StorageRoot) (identifier : Str) :
    StorageRoot × Py Str :=
  match layoutOf reg r with
  | (r, .error e) => (r, .error e)
  | (r, .ok (some l)) => (r, l.path E.raw enc identifier)
  | (r, .ok none) =>
    match openRoot E r s with
    | .error e => (r, .error e)
    | .ok base =>
      match checkStructure E reg s base r with
      | (r, .error e) => (r, .error e)
      | (r, .ok _) =>
        match layoutOf reg r with
        | (r, .error e) => (r, .error e)
        | (r, .ok none) => (r, .error .attributeError)
        | (r, .ok (some l)) => (r, l.path E.raw enc identifier)

/-- `add(object_path)`, `ocfl/storage_root.py` lines 460-488: identifier and path. Simplification: the
attributes afterwards, which are those that `check_root_structure` sets. An inventory always has a
string as identifier here, since `parse_inventory` validates it; for `None` see `LayoutObj.path`. -/
def add (E : Env) (reg : Dict Str LayoutObj) (enc : Str → Str) (r : StorageRoot) (objdir : Str) : Prog (Str × Str) :=
  Prog.get (fun s =>
    match openRoot E r s with
    | .error e => .ret (.error e)
    | .ok base =>
      match checkStructure E reg s base r with
      | (_, .error e) => .ret (.error e)
      | (r, .ok _) =>
        match openObj E objdir s with
        | .error e => .ret (.error e)
        | .ok src =>
          match parseInventory E src s with
          | .error e => .ret (.error e)
          | .ok inv =>
            match inv.id with
            | none => .ret (.error .typeError)
            | some id =>
              match objectPath E reg enc s r id with
              | (_, .error e) => .ret (.error e)
              | (_, .ok path) =>
                if FS.exists_ s (FS.resolve base path) then .ret (.error .storageRootException)
                else
                  Prog.bind (Prog.handle (fswCopydir src c!"/" base path) (fun _ => .ret (.error .storageRootException)))
                    (fun _ => .ret (.ok (id, path))))

end Store
end Ocfl
