import Verif.Model.Env
import Verif.Model.Fsw
import Verif.Model.PriorVersion
import Verif.Model.NewVersion

/-!
# Model of `ocfl/validator.py`

`Validator.validate_object` only reads the file system; the model takes the state of the file
system at one moment. The log is the list of entries added; the texts of messages are not
modelled. The attributes kept in `self` are results of the functions. `force_spec_version` is
stored by the code but never used.
-/

namespace Ocfl

/-- A step of the object validation: a value and the entries added to the log, or the entries
added before `ValidatorAbortException` was raised, or any other exception. -/
inductive W (α : Type) where
  | done (value : α) (entries : List Entry)
  | abort (entries : List Entry)
  | raised (e : PyErr)

namespace W

variable {α β : Type}

def ret (a : α) : W α := .done a []

/-- Continue after the entries `es`. -/
def after (es : List Entry) : W α → W α
  | .done a es' => .done a (es ++ es')
  | .abort es' => .abort (es ++ es')
  | .raised e => .raised e

def bind (m : W α) (f : α → W β) : W β :=
  match m with
  | .raised e => .raised e
  | .abort es => .abort es
  | .done a es => after es (f a)

/-- `self.log.error(code)` -/
def err (code : Str) : W Unit := .done () [⟨true, code⟩]

/-- `self.log.warning(code)` -/
def warn (code : Str) : W Unit := .done () [⟨false, code⟩]

/-- `self.log.error(code)` if a test fails. -/
def errUnless (c : Bool) (code : Str) : W Unit := if c then ret () else err code

/-- An expression that may raise. -/
def py (x : Py α) : W α :=
  match x with
  | .error e => .raised e
  | .ok a => .done a []

/-- Entries made by another component. -/
def log (es : List Entry) : W Unit := .done () es

/-- `for x in l: body(x)` with a state carried along. -/
def forM {σ : Type} (body : σ → α → W σ) : List α → σ → W σ
  | [], s => ret s
  | x :: xs, s => bind (body s x) (fun s' => forM body xs s')

/-- `for x in l: body(x)` -/
def forEach (body : α → W Unit) : List α → W Unit
  | [] => ret ()
  | x :: xs => bind (body x) (fun _ => forEach body xs)

end W

namespace Validator
open W hiding bind

/-- The settings of a `Validator`, `ocfl/validator.py` lines 31-61. -/
structure Config where
  checkDigests : Bool := true
  lax : Bool := false
  defaultSpec : Str := c!"1.1"
  deriving DecidableEq, Repr

/-! ## Declaration -/

/-- The specification version a declaration file stands for, `ocfl/validator.py` lines 138-142. -/
def declVersion (tvalue : Str) : Option Str :=
  IV.specVersionsSupported.find? (fun v => namasteFilename 0 tvalue = c!"0=ocfl_object_" ++ v)

/-- The loop over the declaration files, `ocfl/validator.py` lines 135-148; the state is
`spec_version`. -/
def declStep (E : Env) (s : FS) (base : Path) (sv : Option Str) (tvalue : Str) : W (Option Str) :=
  match declVersion tvalue with
  | none => W.bind (err c!"E006") (fun _ => ret sv)
  | some v =>
    if sv = none ∨ NV.strLt (sv.getD []) v then
      W.bind (py (namasteContentOk E.isWord s base 0 tvalue [])) (fun ok =>
        W.bind (errUnless ok c!"E007") (fun _ => ret (some v)))
    else ret sv

/-- The declaration, `ocfl/validator.py` lines 128-156: the version of the specification to use. -/
def checkDeclaration (E : Env) (cfg : Config) (s : FS) (base : Path) (tvalues : List Str) : W Str :=
  if tvalues.length = 0 then W.bind (err c!"E003a") (fun _ => ret cfg.defaultSpec)
  else
    W.bind (forM (declStep E s base) tvalues none) (fun sv =>
      match sv with
      | none => W.bind (err c!"E003c") (fun _ => ret cfg.defaultSpec)
      | some v => W.bind (errUnless (tvalues.length ≤ 1) c!"E003b") (fun _ => ret v))

/-! ## Inventory and sidecar -/

/-- `validate_inventory(inv_file)`, `ocfl/validator.py` lines 184-215: the inventory and the
attributes of its validator. -/
def validateInventory (E : Env) (cfg : Config) (spec : Str) (s : FS) (base : Path) (invFile : Str) :
    W (Json × IV.Result) :=
  match readText s (FS.resolve base invFile) with
  | .error .fileNotFound => .abort [⟨true, c!"E033"⟩]
  | .error e => .raised e
  | .ok text =>
    match E.lib.loads text with
    | none => .abort [⟨true, c!"E033"⟩]
    | some j =>
      match IV.validate E.isWord cfg.lax spec none j with
      | .error e => .raised e
      | .ok (res, _, es) => .done (j, res) es

/-- `re.match(r".*\.(\w+)$", name)`, `ocfl/validator.py` line 233: group 1. -/
def matchExtension (isWord : Char → Bool) (name : Str) : Option Str :=
  let rev := (chompNL name).reverse
  let g := (rev.takeWhile isWord).reverse
  match rev.dropWhile isWord with
  | '.' :: r => if g ≠ [] ∧ '\n' ∉ r then some g else none
  | _ => none

/-- `fh.readline()` on the text of a file. -/
def readline (text : Str) : Str :=
  text.takeWhile (· ≠ '\n') ++ (if '\n' ∈ text then ['\n'] else [])

/-- `re.match(r"(\w+)\s+(\S+)\s*$", line)`, `ocfl/validator.py` line 517: both groups. -/
def matchSidecar (isWord : Char → Bool) (line : Str) : Option (Str × Str) :=
  let g1 := line.takeWhile isWord
  let r1 := line.dropWhile isWord
  let sp := r1.takeWhile isSpace
  let r2 := r1.dropWhile isSpace
  let g2 := r2.takeWhile (fun c => !isSpace c)
  let r3 := r2.dropWhile (fun c => !isSpace c)
  if g1 ≠ [] ∧ sp ≠ [] ∧ g2 ≠ [] ∧ r3.dropWhile isSpace = [] then some (g1, g2) else none

/-- `read_inventory_digest(inv_digest_file)`, `ocfl/validator.py` lines 504-522. -/
def readInventoryDigest (E : Env) (s : FS) (base : Path) (digestFile : Str) : Py Str :=
  match readText s (FS.resolve base digestFile) with
  | .error e => .error e
  | .ok text =>
    match matchSidecar E.isWord (readline text) with
    | none => .error .valueError
    | some (d, name) => if name ≠ inventoryFilename then .error .valueError else .ok d

/-- The recorded and the computed digest, `ocfl/validator.py` lines 237-238. -/
def sidecarDigests (E : Env) (s : FS) (base : Path) (invFile digestFile alg : Str) : Py (Str × Str) :=
  match readInventoryDigest E s base digestFile with
  | .error e => .error e
  | .ok recorded =>
    match digestAt E s (FS.resolve base invFile) alg with
    | .error e => .error e
    | .ok actual => .ok (recorded, actual)

/-- `validate_inventory_digest_match(inv_file, inv_digest_file)`, `ocfl/validator.py` lines
225-244. `UnicodeDecodeError` is a `ValueError`. -/
def validateDigestMatch (E : Env) (cfg : Config) (s : FS) (base : Path) (invFile digestFile : Str) : W Unit :=
  if cfg.checkDigests = false then ret ()
  else
    match matchExtension E.isWord digestFile with
    | none => err c!"E058b"
    | some alg =>
      match sidecarDigests E s base invFile digestFile alg with
      | .error .valueError => err c!"E061"
      | .error .unicodeError => err c!"E061"
      | .error e => .raised e
      | .ok (recorded, actual) => errUnless (actual = recorded) c!"E060"

/-- The digest algorithm as a string: with lax digests it may be any JSON value, and then the
concatenation with a string raises `TypeError`. -/
def algStr (alg : Json) : Py Str :=
  match alg with
  | .str a => .ok a
  | _ => .error .typeError

/-- `validate_inventory_digest(inv_file, digest_algorithm)`, `ocfl/validator.py` lines 217-223. -/
def validateInventoryDigest (E : Env) (cfg : Config) (s : FS) (base : Path) (invFile alg : Str) : W Unit :=
  let digestFile := invFile ++ c!"." ++ alg
  if FS.exists_ s (FS.resolve base digestFile) = false then err c!"E058a"
  else validateDigestMatch E cfg s base invFile digestFile

/-! ## Object root -/

/-- The registered extensions, `ocfl/validator.py` lines 69-73. -/
def registeredExtensions : List Str :=
  [c!"0001-digest-algorithms", c!"0002-flat-direct-storage-layout", c!"0003-hash-and-id-n-tuple-storage-layout",
   c!"0004-hashed-n-tuple-storage-layout", c!"0005-mutable-head"]

/-- `validate_extensions_dir()`, `ocfl/validator.py` lines 279-294. The names of the entries begin
with `extensions/`, so that none is ever found among the registered ones. -/
def validateExtensionsDir (s : FS) (base : Path) : W Unit :=
  W.bind (py (FS.listdir s base c!"extensions")) (fun entries =>
    forEach (fun e =>
      if e.2 then (if e.1 ∈ registeredExtensions then ret () else warn c!"W013") else err c!"E067") entries)

/-- `re.match(r"v\d+$", name)`, `ocfl/validator.py` line 271. -/
def looksLikeVersion (name : Str) : Bool :=
  match name with
  | 'v' :: r => (r.takeWhile isDigit ≠ []) && atDollar (r.dropWhile isDigit)
  | _ => false

/-- One entry of the object root, `ocfl/validator.py` lines 254-277. There are only files and
directories (no E001c). -/
def rootEntry (s : FS) (base : Path) (versionDirs expected : List Str) (entry : Str × Bool) : W Unit :=
  if entry.2 = false then errUnless (entry.1 ∈ expected) c!"E001a"
  else if entry.1 ∈ versionDirs then ret ()
  else if entry.1 = c!"logs" then ret ()
  else if entry.1 = c!"extensions" then validateExtensionsDir s base
  else if looksLikeVersion entry.1 then err c!"E046b"
  else err c!"E001b"

/-- `validate_object_root(version_dirs, already_checked)`, `ocfl/validator.py` lines 246-277. -/
def validateObjectRoot (s : FS) (base : Path) (spec alg : Str) (versionDirs alreadyChecked : List Str) : W Unit :=
  let expected := [c!"0=ocfl_object_" ++ spec, inventoryFilename, c!"inventory.json." ++ alg] ++ alreadyChecked
  W.bind (py (FS.listdir s base [])) (fun entries => forEach (rootEntry s base versionDirs expected) entries)

/-! ## Inventories of versions -/

/-- `for x in j`, for a value met in an inventory. Simplification: a list element that is not a
string gives `TypeError`. -/
def iterStrs (j : Json) : Py (List Str) :=
  match j with
  | .arr l => l.mapM (fun x => match x with
    | .str s => .ok s
    | _ => .error .typeError)
  | .obj d => .ok (Dict.keys d)
  | .str s => .ok (s.map (fun c => [c]))
  | _ => .error .typeError

/-- `[(digest, j[digest]) for digest in j]`, each value as a list of strings. -/
def iterBlock (j : Json) : Py (List (Str × List Str)) := do
  let keys ← iterStrs j
  keys.mapM (fun k => do
    let v ← j.pyIndex k
    let files ← iterStrs v
    return (k, files))

/-- Digests recorded in earlier inventories or in a fixity block: content path, algorithm, digest.
In the code three nested dicts, so that a digest that occurs twice is reported once; here it may be
reported twice. -/
abbrev Recorded := List (Str × Str × Str)

/-- The entries recorded for one block, `ocfl/validator.py` lines 366-375 and 384-393. -/
def recordBlock (alg : Str) (block : List (Str × List Str)) : Recorded :=
  block.flatMap (fun e => e.2.map (fun p => (p, alg, normalizedDigest e.1 alg)))

/-- The `manifest` part, `ocfl/validator.py` lines 354-375: what is recorded now. -/
def recordManifest (j : Json) (alg : Str) (prior : Recorded) : W Recorded :=
  W.bind (py (j.pyIn c!"manifest")) (fun has =>
    if has = false then ret prior
    else W.bind (py (j.pyIndex c!"manifest")) (fun m => W.bind (py (iterBlock m)) (fun block =>
      W.bind (errUnless (prior.all (fun r => block.any (fun e => r.1 ∈ e.2))) c!"E023b") (fun _ =>
        ret (prior ++ recordBlock alg block)))))

/-- `for alg in fixity: for digest in fixity[alg]: for filepath in ...` -/
def iterFixity (fx : Json) : Py (List (Str × List (Str × List Str))) := do
  let algs ← iterStrs fx
  algs.mapM (fun a => do
    let v ← fx.pyIndex a
    let b ← iterBlock v
    return (a, b))

/-- The `fixity` part, `ocfl/validator.py` lines 381-393. -/
def recordFixity (j : Json) (prior : Recorded) : W Recorded :=
  W.bind (py (j.pyIn c!"fixity")) (fun has =>
    if has = false then ret prior
    else W.bind (py (j.pyIndex c!"fixity")) (fun fx => W.bind (py (iterFixity fx)) (fun blocks =>
      ret (prior ++ blocks.flatMap (fun b => recordBlock b.1 b.2)))))

/-- `fsw_files_identical(fs, file1, file2)`, `ocfl/fsw.py` lines 327-360. A directory is never of
the size and type of a file. -/
def filesIdenticalAt (E : Env) (s : FS) (base : Path) (file1 file2 : Str) : Py Bool :=
  match FS.look s (FS.resolve base file1), FS.look s (FS.resolve base file2) with
  | none, _ => .error (FS.missing s (FS.resolve base file1))
  | _, none => .error (FS.missing s (FS.resolve base file2))
  | some (.file a), some (.file b) => .ok (filesIdentical E.buflen file1 file2 a b)
  | some .dir, some .dir => if file1 = file2 then .ok true else .error .isADirectory
  | _, _ => .ok false

/-- What the validation of the root inventory found. -/
structure Root where
  spec : Str
  alg : Str
  inv : Json
  res : IV.Result

/-- What the loop over the version inventories carries along. -/
structure VState where
  manifests : Recorded := []
  fixity : Recorded := []
  /-- `inventory_digest_files` -/
  digestFiles : Dict Str Str := []
  prevSpec : Str := c!"1.0"

/-- The identifier, `ocfl/validator.py` lines 335-337. -/
def checkSameId (E : Env) (root : Root) (j : Json) : W Unit :=
  match root.res.id with
  | none => ret ()
  | some [] => ret ()
  | some i =>
    W.bind (py (j.pyIn c!"id")) (fun has =>
      if has = false then ret ()
      else W.bind (py (j.pyIndex c!"id")) (fun x => errUnless (E.same (some x) (some (.str i))) c!"E037b"))

/-- An inventory of a version before the last, `ocfl/validator.py` lines 325-393: the specification
version of that inventory and the new state. `if first_version` on line 338 is always true, so that
the `elif` on line 343 is never reached. -/
def priorInventory (E : Env) (cfg : Config) (s : FS) (base : Path) (root : Root) (st : VState) (v : Str) :
    W (Str × VState) :=
  let invFile := osPathJoin v inventoryFilename
  W.bind (validateInventory E cfg root.spec s base invFile) (fun jr =>
  W.bind (py (algStr jr.2.digestAlgorithm)) (fun alg =>
  W.bind (validateInventoryDigest E cfg s base invFile alg) (fun _ =>
  W.bind (checkSameId E root jr.1) (fun _ =>
  W.bind (errUnless (jr.2.contentDirectorySet || !root.res.contentDirectorySet) c!"E019") (fun _ =>
  W.bind (errUnless (root.res.contentDirectory = jr.2.contentDirectory) c!"E020") (fun _ =>
  W.bind (recordManifest jr.1 alg st.manifests) (fun manifests =>
  W.bind (py (IV.validateAsPriorVersion E.same (root.inv, root.res) jr)) (fun pv =>
  W.bind (log pv.2) (fun _ =>
  W.bind (recordFixity jr.1 st.fixity) (fun fixity =>
  ret (jr.2.specVersion, { st with
    manifests := manifests, fixity := fixity
    digestFiles := Dict.set st.digestFiles v (c!"inventory.json." ++ alg) })))))))))))

/-- The inventory of the last version, `ocfl/validator.py` lines 312-324. -/
def lastInventory (E : Env) (cfg : Config) (s : FS) (base : Path) (root : Root) (st : VState) (v : Str) :
    W (Str × VState) :=
  let invFile := osPathJoin v inventoryFilename
  W.bind (py (filesIdenticalAt E s base invFile inventoryFilename)) (fun same =>
  W.bind (if same then validateInventoryDigest E cfg s base invFile root.alg else err c!"E064") (fun _ =>
  ret (root.spec, { st with digestFiles := Dict.set st.digestFiles v (c!"inventory.json." ++ root.alg) })))

/-- The body of the loop over the version directories, `ocfl/validator.py` lines 305-403. -/
def versionInventory (E : Env) (cfg : Config) (s : FS) (base : Path) (root : Root) (last : Option Str) (st : VState)
    (v : Str) : W VState :=
  if FS.exists_ s (FS.resolve base (osPathJoin v inventoryFilename)) = false then
    W.bind (warn c!"W010") (fun _ => ret st)
  else
    W.bind (if some v = last then lastInventory E cfg s base root st v else priorInventory E cfg s base root st v)
      (fun r => W.bind (errUnless (!NV.strLt r.1 r.2.prevSpec) c!"E103") (fun _ => ret { r.2 with prevSpec := r.1 }))

/-- `validate_version_inventories(version_dirs)`, `ocfl/validator.py` lines 296-404. -/
def validateVersionInventories (E : Env) (cfg : Config) (s : FS) (base : Path) (root : Root) (versionDirs : List Str) :
    W VState :=
  forM (versionInventory E cfg s base root versionDirs.getLast?) versionDirs {}

/-! ## Content -/

/-- The walk over one content directory, `ocfl/validator.py` lines 423-435: the files seen. -/
def contentFiles (s : FS) (base : Path) (contentPath : Str) : W (List Str) :=
  W.bind (py (fswWalk s base contentPath)) (fun visits =>
    W.bind (forEach (fun v =>
        errUnless (v.dirpath = '/' :: contentPath || v.dirs.length + v.files.length ≠ 0) c!"E024") visits) (fun _ =>
      let files := visits.flatMap (fun v => v.files.map (fun f => lstripSlash (osPathJoin v.dirpath f)))
      W.bind (if files.length = 0 then warn c!"W003" else ret ()) (fun _ => ret files)))

/-- One entry of a version directory, `ocfl/validator.py` lines 417-440: the files seen so far. -/
def versionEntry (E : Env) (s : FS) (base : Path) (contentDirectory : Str) (digestFiles : Dict Str Str) (v : Str)
    (seen : List Str) (entry : Str × Bool) : W (List Str) :=
  W.bind (py (relpath E.cwd entry.1 v)) (fun name =>
    if name = inventoryFilename ∨ Dict.get? digestFiles v = some name then ret seen
    else if name = contentDirectory then
      W.bind (contentFiles s base (osPathJoin v contentDirectory)) (fun files => ret (seen ++ files))
    else if FS.isdir s (FS.resolve base entry.1) then W.bind (warn c!"W002") (fun _ => ret seen)
    else W.bind (err c!"E015") (fun _ => ret seen))

/-- One version directory, `ocfl/validator.py` lines 413-442. `FileNotFoundError` can only come
from the listing of the directory itself, as the file system does not change meanwhile. -/
def versionContent (E : Env) (s : FS) (base : Path) (contentDirectory : Str) (digestFiles : Dict Str Str)
    (seen : List Str) (v : Str) : W (List Str) :=
  match FS.listdir s base v with
  | .error .fileNotFound => W.bind (err c!"E046a") (fun _ => ret seen)
  | .error e => .raised e
  | .ok entries => forM (versionEntry E s base contentDirectory digestFiles v) entries seen

/-- The `fixity` block of the root inventory, `ocfl/validator.py` lines 443-459: what is recorded,
only for files that were seen. -/
def rootFixity (inv : Json) (seen : List Str) : W Recorded :=
  W.bind (py (inv.pyIn c!"fixity")) (fun has =>
    if has = false then ret []
    else W.bind (py (inv.pyIndex c!"fixity")) (fun fx => W.bind (py (iterFixity fx)) (fun blocks =>
      let all := blocks.flatMap (fun b => b.2.flatMap (fun e => e.2.map (fun p => (p, b.1, e.1))))
      W.bind (forEach (fun r => errUnless (r.1 ∈ seen) c!"E093b") all) (fun _ =>
        ret (all.filter (fun r => r.1 ∈ seen))))))

/-- `check_additional_digests(...)`, `ocfl/validator.py` lines 477-502. The digests that have been
computed already are not computed again in the code, which makes no difference. -/
def checkAdditional (E : Env) (s : FS) (base : Path) (filepath code : Str) (recorded : Recorded) : W Unit :=
  forEach (fun r =>
    if r.1 = filepath then
      W.bind (py (digestAt E s (FS.resolve base filepath) r.2.1)) (fun d =>
        errUnless (d = normalizedDigest r.2.2 r.2.1) code)
    else ret ()) recorded

/-- One file of the root manifest, `ocfl/validator.py` lines 463-474: the files that are left. -/
def manifestFile (E : Env) (cfg : Config) (s : FS) (base : Path) (alg : Str) (fixity : Recorded) (st : VState)
    (left : List Str) (entry : Str × Str) : W (List Str) :=
  if entry.2 ∉ left then W.bind (err c!"E092b") (fun _ => ret left)
  else
    W.bind (if cfg.checkDigests then
        W.bind (py (digestAt E s (FS.resolve base entry.2) alg)) (fun d =>
        W.bind (errUnless (d = normalizedDigest entry.1 alg) c!"E092a") (fun _ =>
        W.bind (checkAdditional E s base entry.2 c!"E093a" fixity) (fun _ =>
        W.bind (checkAdditional E s base entry.2 c!"E092a" st.manifests) (fun _ =>
        checkAdditional E s base entry.2 c!"E093a" st.fixity))))
      else ret ()) (fun _ => ret (left.filter (· ≠ entry.2)))

/-- The manifest part, `ocfl/validator.py` lines 460-475. `files_seen` is a set; here a list whose
repetitions do not matter. -/
def manifestContent (E : Env) (cfg : Config) (s : FS) (base : Path) (root : Root) (fixity : Recorded) (st : VState)
    (seen : List Str) : W (List Str) :=
  W.bind (py (root.inv.pyIn c!"manifest")) (fun has =>
    if has = false then ret seen
    else W.bind (py (root.inv.pyIndex c!"manifest")) (fun m => W.bind (py (iterBlock m)) (fun block =>
      forM (manifestFile E cfg s base root.alg fixity st)
        (block.flatMap (fun e => e.2.map (fun p => (e.1, p)))) seen)))

/-- `validate_content(...)`, `ocfl/validator.py` lines 406-475. -/
def validateContent (E : Env) (cfg : Config) (s : FS) (base : Path) (root : Root) (st : VState)
    (versionDirs : List Str) : W Unit :=
  W.bind (forM (versionContent E s base root.res.contentDirectory st.digestFiles) versionDirs []) (fun seen =>
  W.bind (rootFixity root.inv seen) (fun fixity =>
  W.bind (manifestContent E cfg s base root fixity st seen) (fun left =>
  errUnless (left.length = 0) c!"E023a")))

/-! ## The object -/

/-- The part after the root inventory was read, `ocfl/validator.py` lines 163-179; `valid` is
`inventory_is_valid`. -/
def validateRest (E : Env) (cfg : Config) (s : FS) (base : Path) (tvalues : List Str) (spec : Str)
    (jr : Json × IV.Result) (valid : Bool) : W Unit :=
  W.bind (py (algStr jr.2.digestAlgorithm)) (fun alg =>
  let root : Root := ⟨spec, alg, jr.1, jr.2⟩
  W.bind (validateInventoryDigest E cfg s base inventoryFilename alg) (fun _ =>
  W.bind (validateObjectRoot s base spec alg jr.2.allVersions (tvalues.map (namasteFilename 0))) (fun _ =>
  W.bind (validateVersionInventories E cfg s base root jr.2.allVersions) (fun st =>
  if valid then validateContent E cfg s base root st jr.2.allVersions else ret ()))))

/-- The first part, `ocfl/validator.py` lines 125-162: declaration and root inventory; `none` if
there is no inventory. -/
def validateFirst (E : Env) (cfg : Config) (s : FS) (base : Path) (tvalues : List Str) :
    W (Option (Str × Json × IV.Result)) :=
  W.bind (checkDeclaration E cfg s base tvalues) (fun spec =>
    if FS.exists_ s (FS.resolve base inventoryFilename) = false then W.bind (err c!"E063") (fun _ => ret none)
    else W.bind (validateInventory E cfg spec s base inventoryFilename) (fun jr => ret (some (spec, jr))))

/-- Everything after the file system of the object was opened, `ocfl/validator.py` lines 125-181,
as one step; `errors` is the number of errors in the log before. -/
def validateSteps (E : Env) (cfg : Config) (errors : Nat) (s : FS) (base : Path) (tvalues : List Str) : W Unit :=
  match validateFirst E cfg s base tvalues with
  | .raised e => .raised e
  | .abort es => .abort es
  | .done none es => .done () es
  | .done (some (spec, jr)) es =>
    after es (validateRest E cfg s base tvalues spec jr (errors + IV.numErrors es = 0))

/-- `validate_object(path)` for an open file system, `ocfl/validator.py` lines 125-182: the
verdict and the entries added to the log. `errors` is the number of errors that were in the log
before; `initialize()` does not clear the log. -/
def validateAt (E : Env) (cfg : Config) (errors : Nat) (s : FS) (base : Path) : Py (Bool × List Entry) :=
  match findNamastes s base 0 [] 10 with
  | .error e => .error e
  | .ok tvalues =>
    match validateSteps E cfg errors s base tvalues with
    | .raised e => .error e
    | .abort es => .ok (errors + IV.numErrors es = 0, es)
    | .done _ es => .ok (errors + IV.numErrors es = 0, es)

/-- `validate_object(path)` for a path, `ocfl/validator.py` lines 109-182. -/
def validateObject (E : Env) (cfg : Config) (errors : Nat) (s : FS) (path : Str) : Py (Bool × List Entry) :=
  match fswOpen E.cwd path s with
  | .error .fileNotFound => .ok (false, [⟨true, c!"E003e"⟩])
  | .error e => .error e
  | .ok base => validateAt E cfg errors s base

/-- A `Validator` used for several objects one after the other: the verdicts. The number of errors
in the log goes on. An exception ends the sequence. -/
def validateAll (E : Env) (cfg : Config) (s : FS) : Nat → List Str → Py (List Bool)
  | _, [] => .ok []
  | errors, path :: paths =>
    match validateObject E cfg errors s path with
    | .error e => .error e
    | .ok (ok, es) =>
      match validateAll E cfg s (errors + IV.numErrors es) paths with
      | .error e => .error e
      | .ok oks => .ok (ok :: oks)

end Validator
end Ocfl
