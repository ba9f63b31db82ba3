import Verif.Model.Validator
import Verif.Model.InventoryJson
import Verif.Model.VersionMetadata

/-!
# Model of `ocfl/object.py`

Paths of directories are local paths without `://`. Reading is modelled as happening at one moment
where the code does not write in between. `parse_inventory` sets `self.spec_version`; this and the
other attributes of the `Object` are arguments here, so that only the first call on an `Object` is
described. Metadata is given as the version block it stands for (`VersionMetadata.as_dict()`).
-/

namespace Ocfl

/-- The settings of an `Object`, `ocfl/object.py` lines 76-119. -/
structure Obj where
  id : Option Str := none
  contentDirectory : Str := c!"content"
  digestAlgorithm : Str := c!"sha512"
  norm : Option Str := some c!"uri"
  specVersion : Str := c!"1.1"
  forwardDelta : Bool := true
  dedupe : Bool := true
  lax : Bool := false
  fixity : Option (List Str) := none
  deriving DecidableEq, Repr

/-- `FileNotFoundError` turned into `ObjectException`, `ocfl/object.py` lines 137-141. -/
def asObjectException (e : PyErr) : PyErr := if e = .fileNotFound then .objectException else e

/-- `open_obj_fs(objdir)`, `ocfl/object.py` lines 121-141, with `create=False`. -/
def openObj (E : Env) (objdir : Str) (s : FS) : Py Path :=
  match fswOpen E.cwd objdir s with
  | .error e => .error (asObjectException e)
  | .ok base => .ok base

/-- `open_obj_fs(objdir, create=True)`, the same lines. -/
def openObjCreate (E : Env) (objdir : Str) : Prog Path :=
  Prog.handle (fswOpenCreate E.cwd objdir) (fun e => Prog.raise (asObjectException e))

/-- `copy_into_object(src_fs, srcfile, filepath, create_dirs=True)`, `ocfl/object.py` lines
143-149. -/
def copyIntoObject (base srcBase : Path) (srcfile filepath : Str) : Prog Unit :=
  Prog.get (fun s =>
    Prog.bind
      (if FS.exists_ s (FS.resolve base (osDirname filepath)) = false then
        FS.makedirs (FS.resolve base (osDirname filepath)) false
      else .ret (.ok ()))
      (fun _ => fswCopyfile (FS.resolve srcBase srcfile) (FS.resolve base filepath)))

/-- `for (srcpath, objpath) in files_to_copy.items(): copy_into_object(...)`. -/
def copyAll (base srcBase : Path) (files : Dict Str Str) : Prog Unit :=
  Prog.forEach (fun e => copyIntoObject base srcBase e.1 e.2) files

/-- `write_object_declaration()`, `ocfl/object.py` lines 219-229. -/
def writeDeclaration (E : Env) (o : Obj) (base : Path) : Prog Unit :=
  namasteWrite E.isWord base 0 (c!"ocfl_object_" ++ o.specVersion) []

/-- The text of an inventory file, `ocfl/inventory.py` lines 494-500. -/
def inventoryText (E : Env) (inv : Inv) : Str := E.lib.dumpsSorted inv.toJson

/-- `write_inventory_and_sidecar(inventory, vdir)`, `ocfl/object.py` lines 231-257. The algorithm
is that of the `Object`, not that of the inventory. -/
def writeInventoryAndSidecar (E : Env) (o : Obj) (base : Path) (inv : Option Inv) (vdir : Str) : Prog Unit :=
  Prog.get (fun s =>
  Prog.bind (if FS.exists_ s (FS.resolve base vdir) = false then FS.makedir (FS.resolve base vdir)
    else .ret (.ok ())) (fun _ =>
  Prog.bind (match inv with
    | none => .ret (.ok ())
    | some i => FS.writeFile (FS.resolve base (osPathJoin vdir inventoryFilename)) (utf8 (inventoryText E i))) (fun _ =>
  Prog.bind (Prog.look (fun s => digestAt E s (FS.resolve base (osPathJoin vdir inventoryFilename)) o.digestAlgorithm))
    (fun digest =>
  FS.writeFile (FS.resolve base (osPathJoin vdir (inventoryFilename ++ c!"." ++ o.digestAlgorithm)))
    (utf8 (digest ++ c!" " ++ inventoryFilename ++ c!"\n"))))))

/-! ## New versions -/

/-- What a `NewVersion` gets from the file system, for the source directory `src`. -/
def srcEnv (E : Env) (s : FS) (src : Path) : NVEnv where
  srcDigest alg path := digestAt E s (FS.resolve src path) alg
  md5hex path := E.raw c!"md5" (utf8 path)

/-- `add_from_srcdir()`, `ocfl/new_version.py` lines 391-394. -/
def addFromSrcdir (E : Env) (s : FS) (src : Path) (nv : NV) : Py NV :=
  match fswWalkFiles s src c!"/" with
  | .error e => .error e
  | .ok files =>
    match nv.addAll (srcEnv E s src) (sortStr files) with
    | (_, .error e) => .error e
    | (nv', .ok ()) => .ok nv'

/-- The first version of an object from everything in a source directory, `ocfl/object.py` lines
347-360: the source directory and the new version. -/
def prepareFirst (E : Env) (o : Obj) (srcdir : Str) (metadata : Option VBlock) (s : FS) : Py (Path × NV) :=
  match o.id with
  | none => .error .objectException
  | some id =>
    match fswOpen E.cwd srcdir s with
    | .error e => .error e
    | .ok src =>
      match NV.firstVersion id o.specVersion (some o.digestAlgorithm) (some o.contentDirectory) metadata o.dedupe
        (o.fixity.getD []) o.norm with
      | .error e => .error e
      | .ok nv =>
        match addFromSrcdir E s src nv with
        | .error e => .error e
        | .ok nv' => .ok (src, nv')

/-- Writing a new object, `ocfl/object.py` lines 364-371. -/
def writeFirst (E : Env) (o : Obj) (src : Path) (nv : NV) (objdir : Str) : Prog Unit :=
  Prog.bind (openObjCreate E objdir) (fun base =>
  Prog.bind (writeInventoryAndSidecar E o base (some nv.inv) c!"v1") (fun _ =>
  Prog.bind (writeDeclaration E o base) (fun _ =>
  Prog.bind (writeInventoryAndSidecar E o base (some nv.inv) []) (fun _ =>
  copyAll base src nv.filesToCopy))))

/-- `create(srcdir, metadata, objdir)`, `ocfl/object.py` lines 331-373. -/
def create (E : Env) (o : Obj) (srcdir : Str) (metadata : Option VBlock) (objdir : Option Str) : Prog Inv :=
  Prog.bind (Prog.look (prepareFirst E o srcdir metadata)) (fun r =>
    match objdir with
    | none => .ret (.ok r.2.inv)
    | some d => Prog.bind (writeFirst E o r.1 r.2 d) (fun _ => .ret (.ok r.2.inv)))

/-! ## Reading inventories -/

/-- `parse_inventory()`, `ocfl/object.py` lines 787-806. `Inventory(None)` is an empty inventory. -/
def parseInventory (E : Env) (base : Path) (s : FS) : Py Inv :=
  match readText s (FS.resolve base inventoryFilename) with
  | .error e => .error e
  | .ok text =>
    match E.lib.loads text with
    | none => .error .jsonDecodeError
    | some j =>
      match (match j with
        | .null => Except.ok (Json.obj [])
        | .obj d => .ok (.obj d)
        | _ => .error PyErr.inventoryException) with
      | .error e => .error e
      | .ok j =>
        match IV.validate E.isWord false c!"1.1" none j with
        | .error e => .error e
        | .ok (_, false, _) => .error .objectException
        | .ok (res, true, _) =>
          match Validator.algStr res.digestAlgorithm with
          | .error e => .error e
          | .ok alg =>
            match (Inv.ofJson j).normalizeDigests alg with
            | (_, .error e) => .error e
            | (inv, .ok ()) => .ok inv

/-! ## Updating -/

/-- The fixity blocks of the new inventory, `ocfl/object.py` lines 461-483. -/
def changeFixity (inv : Inv) (oldAlg newAlg : Str) (fixity : Option (List Str)) : Inv :=
  match fixity with
  | none =>
    if newAlg ≠ oldAlg ∧ Dict.has inv.fixityD oldAlg = false then inv.addFixityType oldAlg (some inv.manifestD)
    else inv
  | some fx => { inv with fixity := inv.fixity.map (fun d => d.filter (fun e => e.1 ∈ fx)) }

/-- The new digest of the files with one old digest, `ocfl/object.py` lines 493-500; the error
message for files that differ has a bad format, which raises `TypeError`. -/
def newDigest (E : Env) (s : FS) (base : Path) (alg : Str) (files : List Str) : Py Str :=
  match files with
  | [] => .error .indexError
  | f :: rest =>
    match digestAt E s (FS.resolve base f) alg with
    | .error e => .error e
    | .ok d =>
      let rec check : List Str → Py Str
        | [] => .ok d
        | g :: gs =>
          match digestAt E s (FS.resolve base g) alg with
          | .error e => .error e
          | .ok d' => if d' ≠ d then .error .typeError else check gs
      check rest

/-- The loop over the manifest, `ocfl/object.py` lines 490-502: `old_to_new_digest` and
`new_manifest`. -/
def rehash (E : Env) (s : FS) (base : Path) (alg : Str) : DigestMap → Dict Str Str → DigestMap →
    Py (Dict Str Str × DigestMap)
  | [], o2n, m => .ok (o2n, m)
  | (old, files) :: rest, o2n, m =>
    match newDigest E s base alg files with
    | .error e => .error e
    | .ok d => rehash E s base alg rest (Dict.set o2n old d) (Dict.set m d files)

/-- The new state of one version, `ocfl/object.py` lines 506-509. -/
def rehashState (o2n : Dict Str Str) : DigestMap → DigestMap → Py DigestMap
  | [], st => .ok st
  | (old, files) :: rest, st =>
    match Dict.get? o2n old with
    | none => .error .keyError
    | some d => rehashState o2n rest (Dict.set st d files)

/-- The new states of all versions, `ocfl/object.py` lines 505-510. -/
def rehashVersions (o2n : Dict Str Str) : Dict Str VBlock → Py (Dict Str VBlock)
  | [] => .ok []
  | (v, b) :: rest =>
    match rehashState o2n (b.state.getD []) [] with
    | .error e => .error e
    | .ok st =>
      match rehashVersions o2n rest with
      | .error e => .error e
      | .ok rest' => .ok ((v, { b with state := some st }) :: rest')

/-- The change of the digest algorithm, `ocfl/object.py` lines 485-512. -/
def changeDigest (E : Env) (s : FS) (base : Path) (oldAlg newAlg : Str) (inv : Inv) : Py Inv :=
  if newAlg = oldAlg then .ok { inv with manifest := some inv.manifestD }
  else
    match rehash E s base newAlg inv.manifestD [] [] with
    | .error e => .error e
    | .ok (o2n, m) =>
      match inv.versionDirectories with
      | .error e => .error e
      | .ok _ =>
        match rehashVersions o2n inv.versionsD with
        | .error e => .error e
        | .ok vs => .ok { inv with manifest := some m, versions := some vs }

/-- The first part of `start_new_version`, `ocfl/object.py` lines 444-512: the object is opened,
validated, and its inventory is read and adapted. The base directory, the algorithm it had and the
inventory. -/
def startInventory (E : Env) (o : Obj) (objdir : Str) (digestAlgorithm : Option Str) (fixity : Option (List Str))
    (s : FS) : Py (Path × Str × Inv) :=
  match openObj E objdir s with
  | .error e => .error e
  | .ok base =>
    match Validator.validateObject E { checkDigests := false, lax := o.lax } 0 s objdir with
    | .error e => .error e
    | .ok (false, _) => .error .objectException
    | .ok (true, _) =>
      match parseInventory E base s with
      | .error e => .error e
      | .ok inv =>
        let oldAlg := inv.digestAlgorithm.getD []
        let newAlg := digestAlgorithm.getD oldAlg
        match changeDigest E s base oldAlg newAlg
          (changeFixity { inv with digestAlgorithm := some newAlg } oldAlg newAlg fixity) with
        | .error e => .error e
        | .ok inv' => .ok (base, oldAlg, inv')

/-- `start_new_version(...)`, `ocfl/object.py` lines 414-514: base directory, source directory and
the new version. `srcdir=None` makes `fsw_openfs` raise `AttributeError`. -/
def startNewVersion (E : Env) (o : Obj) (objdir : Str) (srcdir : Option Str) (digestAlgorithm : Option Str)
    (fixity : Option (List Str)) (metadata : Option VBlock) (carry : Bool) (s : FS) : Py (Path × Path × NV) :=
  match startInventory E o objdir digestAlgorithm fixity s with
  | .error e => .error e
  | .ok (base, oldAlg, inv) =>
    match srcdir with
    | none => .error .attributeError
    | some d =>
      match fswOpen E.cwd d s with
      | .error e => .error e
      | .ok src =>
        match NV.nextVersion inv c!"1.1" metadata o.norm o.forwardDelta o.dedupe carry (some oldAlg) with
        | .error e => .error e
        | .ok nv => .ok (base, src, nv)

/-- Removal of the old root sidecar, `ocfl/object.py` lines 527-530. -/
def removeOldSidecar (base : Path) (nv : NV) : Prog Unit :=
  match nv.oldDigestAlgorithm with
  | none => .ret (.ok ())
  | some old =>
    if nv.inv.digestAlgorithm ≠ some old then FS.rm (FS.resolve base (inventoryFilename ++ c!"." ++ old))
    else .ret (.ok ())

/-- `write_new_version(new_version)`, `ocfl/object.py` lines 516-540. -/
def writeNewVersion (E : Env) (o : Obj) (base src : Path) (nv : NV) : Prog Inv :=
  match nv.inv.head with
  | none => .ret (.error .typeError)
  | some head =>
    Prog.bind (removeOldSidecar base nv) (fun _ =>
    Prog.bind (FS.makedir (FS.resolve base head)) (fun _ =>
    Prog.bind (copyAll base src nv.filesToCopy) (fun _ =>
    Prog.bind (writeInventoryAndSidecar E o base (some nv.inv) head) (fun _ =>
    Prog.bind (writeInventoryAndSidecar E o base (some nv.inv) []) (fun _ =>
    .ret (.ok nv.inv))))))

/-- The reading part of `add_version_with_content`, `ocfl/object.py` lines 396-410: `none` if there
is no difference. -/
def prepareUpdate (E : Env) (o : Obj) (objdir : Str) (srcdir : Option Str) (metadata : Option VBlock) (abort : Bool)
    (s : FS) : Py (Option (Path × Path × NV)) :=
  match startNewVersion E o objdir srcdir (some o.digestAlgorithm) o.fixity metadata false s with
  | .error e => .error e
  | .ok (base, src, nv) =>
    match addFromSrcdir E s src nv with
    | .error e => .error e
    | .ok nv' =>
      if abort then
        match nv'.diffWithPrevious with
        | .error e => .error e
        | .ok [] => .ok none
        | .ok (_ :: _) => .ok (some (base, src, nv'))
      else .ok (some (base, src, nv'))

/-- `add_version_with_content(objdir, srcdir, metadata, abort_if_no_difference)`, `ocfl/object.py`
lines 375-412. -/
def addVersionWithContent (E : Env) (o : Obj) (objdir : Str) (srcdir : Option Str) (metadata : Option VBlock)
    (abort : Bool) : Prog (Option Inv) :=
  Prog.bind (Prog.look (prepareUpdate E o objdir srcdir metadata abort)) (fun r =>
    match r with
    | none => .ret (.ok none)
    | some (base, src, nv) => Prog.bind (writeNewVersion E o base src nv) (fun inv => .ret (.ok (some inv))))

/-! ## Building several versions -/

/-- The version directories in a listing, `ocfl/object.py` lines 194-205: a later directory with the
same number replaces an earlier one. -/
def versionsIn (entries : List (Str × Bool)) : Dict Nat Str :=
  entries.foldl (fun vs e =>
    if e.2 then
      match parseVersionDirectory e.1 with
      | .ok n => Dict.set vs n e.1
      | .error _ => vs
    else vs) []

/-- `version_dirs_and_metadata(src_fs, ...)`, `ocfl/object.py` lines 175-217: numbers and
directories in order. -/
def versionDirs (s : FS) (src : Path) : Py (List (Nat × Str)) :=
  match FS.listdir s src c!"/" with
  | .error e => .error e
  | .ok entries =>
    let vs := (versionsIn entries).insertionSort (fun a b => a.1 ≤ b.1)
    if vs.map Prod.fst = (List.range vs.length).map (· + 1) then .ok vs else .error .objectException

/-- One version of `build`, `ocfl/object.py` lines 291-315: the source directory and the new
version. The directory is only recognised as the first one if it is called `v1`; otherwise, without
an inventory, `next_version` raises `AttributeError`. -/
def buildPrepare (E : Env) (o : Obj) (srcdir vdir : Str) (metadata : VBlock) (inv : Option Inv) (s : FS) :
    Py (Path × NV) :=
  if vdir = c!"v1" then prepareFirst E o (osPathJoin srcdir vdir) (some metadata) s
  else
    match fswOpen E.cwd (osPathJoin srcdir vdir) s with
    | .error e => .error e
    | .ok src =>
      match inv with
      | none => .error .attributeError
      | some inv =>
        match NV.nextVersion inv c!"1.1" (some metadata) o.norm o.forwardDelta o.dedupe false none with
        | .error e => .error e
        | .ok nv =>
          match addFromSrcdir E s src nv with
          | .error e => .error e
          | .ok nv' => .ok (src, nv')

/-- The loop of `build`, `ocfl/object.py` lines 289-321. -/
def buildLoop (E : Env) (o : Obj) (srcdir : Str) (metadata : Nat → VBlock) (base : Option Path) :
    List (Nat × Str) → Option Inv → Prog (Option Inv)
  | [], inv => .ret (.ok inv)
  | (n, vdir) :: rest, inv =>
    Prog.bind (Prog.look (buildPrepare E o srcdir vdir (metadata n) inv)) (fun r =>
    Prog.bind (match base with
      | none => .ret (.ok ())
      | some b => Prog.bind (writeInventoryAndSidecar E o b (some r.2.inv) vdir)
          (fun _ => copyAll b r.1 r.2.filesToCopy)) (fun _ =>
    buildLoop E o srcdir metadata base rest (some r.2.inv)))

/-- `build(srcdir, versions_metadata, objdir)`, `ocfl/object.py` lines 267-329. `metadata n` is the
block for version number `n`. -/
def build (E : Env) (o : Obj) (srcdir : Str) (metadata : Nat → VBlock) (objdir : Option Str) : Prog (Option Inv) :=
  if o.id = none then .ret (.error .objectException)
  else
    Prog.bind (match objdir with
      | none => .ret (.ok none)
      | some d => Prog.bind (openObjCreate E d) (fun b => .ret (.ok (some b)))) (fun base =>
    Prog.bind (Prog.look (fun s =>
      match fswOpen E.cwd srcdir s with
      | .error e => .error e
      | .ok src => versionDirs s src)) (fun vs =>
    Prog.bind (buildLoop E o srcdir metadata base vs none) (fun inv =>
    match base with
    | none => .ret (.ok inv)
    | some b =>
      Prog.bind (writeDeclaration E o b) (fun _ =>
      Prog.bind (writeInventoryAndSidecar E o b inv []) (fun _ => .ret (.ok inv))))))

/-! ## Extracting -/

/-- `_extract_setup(objdir, version)`, `ocfl/object.py` lines 677-700: base directory, inventory and
version. -/
def extractSetup (E : Env) (objdir version : Str) (s : FS) : Py (Path × Inv × Str) :=
  match openObj E objdir s with
  | .error e => .error e
  | .ok base =>
    match parseInventory E base s with
    | .error e => .error e
    | .ok inv =>
      if version = c!"head" then .ok (base, inv, inv.head.getD [])
      else
        match inv.versionDirectories with
        | .error e => .error e
        | .ok vs => if version ∈ vs then .ok (base, inv, version) else .error .objectException

/-- One component in `posixpath.normpath`; `rooted` if the path begins with a slash. -/
def normpathStep (rooted : Bool) (acc : List Str) (w : Str) : List Str :=
  if w = [] ∨ w = c!"." then acc
  else if w ≠ c!".." ∨ (rooted = false ∧ acc = []) ∨ acc.getLast? = some c!".." then acc ++ [w]
  else acc.dropLast

/-- `os.path.normpath(path)` (posixpath): exactly two leading slashes are kept. -/
def osNormpath (path : Str) : Str :=
  let lead : Str :=
    if startsWith path c!"//" ∧ ¬ startsWith path c!"///" then c!"//"
    else if startsWith path c!"/" then c!"/" else []
  let p := lead ++ joinWith '/' ((splitOn '/' path).foldl (normpathStep (lead ≠ [])) [])
  if p = [] then c!"." else p

/-- `manifest[digest][0]` -/
def firstPath (m : DigestMap) (digest : Str) : Py Str :=
  match Dict.get? m digest with
  | none => .error .keyError
  | some [] => .error .indexError
  | some (f :: _) => .ok f

/-- One logical file, `ocfl/object.py` lines 736-738. -/
def extractOne (base dst : Path) (existing logical : Str) : Prog Unit :=
  Prog.bind (FS.makedirs (FS.resolve dst (osDirname logical)) true) (fun _ =>
    fswCopyfile (FS.resolve base existing) (FS.resolve dst logical))

/-- The loops of `extract`, `ocfl/object.py` lines 732-738. -/
def extractState (base dst : Path) (m : DigestMap) : DigestMap → Prog Unit
  | [] => .ret (.ok ())
  | (digest, files) :: rest =>
    Prog.bind (Prog.ofPy (firstPath m digest)) (fun existing =>
    Prog.bind (Prog.forEach (extractOne base dst existing) files) (fun _ => extractState base dst m rest))

/-- `VersionMetadata(inventory, version)`. -/
def versionMetadata (inv : Inv) (version : Str) : Py VMeta :=
  match VMeta.fromInventory inv (some version) {} with
  | (_, .error e) => .error e
  | (m, .ok ()) => .ok m

/-- The destination must be an empty directory or is created, `ocfl/object.py` lines 722-729. -/
def prepareDst (pbase : Path) (dir : Str) (s : FS) : Prog Unit :=
  if FS.isdir s (FS.resolve pbase dir) then
    match FS.listdir s pbase dir with
    | .error e => .ret (.error e)
    | .ok entries => if entries.length > 0 then .ret (.error .objectException) else .ret (.ok ())
  else FS.makedir (FS.resolve pbase dir)

/-- The destination of `extract`, `ocfl/object.py` lines 719-729. -/
def extractDst (E : Env) (dstdir : Str) : Prog Path :=
  let parent := (osPathSplit (osNormpath dstdir)).1
  let dir := (osPathSplit (osNormpath dstdir)).2
  Prog.bind (Prog.look (fun s => openObj E parent s)) (fun pbase =>
  Prog.bind (Prog.get (prepareDst pbase dir)) (fun _ =>
  .ret (.ok (FS.resolve pbase dir))))

/-- `extract(objdir, version, dstdir)`, `ocfl/object.py` lines 702-741. -/
def extract (E : Env) (objdir version dstdir : Str) : Prog VMeta :=
  Prog.bind (Prog.look (extractSetup E objdir version)) (fun r =>
  Prog.bind (extractDst E dstdir) (fun dst =>
  Prog.bind (extractState r.1 dst r.2.1.manifestD (r.2.1.stateOf r.2.2)) (fun _ =>
  Prog.ofPy (versionMetadata r.2.1 r.2.2))))

/-- The search of `extract_file`, `ocfl/object.py` lines 771-784: the content path. -/
def findExisting (m : DigestMap) (logicalPath : Str) : DigestMap → Py Str
  | [] => .error .objectException
  | (digest, files) :: rest =>
    match firstPath m digest with
    | .error e => .error e
    | .ok existing => if logicalPath ∈ files then .ok existing else findExisting m logicalPath rest

/-- `extract_file(objdir, version, dstdir, logical_path)`, `ocfl/object.py` lines 743-785. -/
def extractFile (E : Env) (objdir version dstdir logicalPath : Str) : Prog VMeta :=
  Prog.bind (Prog.look (extractSetup E objdir version)) (fun r =>
  Prog.bind (openObjCreate E dstdir) (fun dst =>
  Prog.bind (Prog.ofPy (findExisting r.2.1.manifestD logicalPath (r.2.1.stateOf r.2.2))) (fun existing =>
  Prog.bind (fswCopyfile (FS.resolve r.1 existing) (FS.resolve dst (osBasename logicalPath))) (fun _ =>
  Prog.ofPy (versionMetadata r.2.1 r.2.2)))))

/-- `id_from_inventory(failure_value)`, `ocfl/object.py` lines 808-823. -/
def idFromInventory (E : Env) (base : Path) (failure : Option Str) (s : FS) : Py (Option Str) :=
  match parseInventory E base s with
  | .ok inv => .ok inv.id
  | .error .objectException => .ok failure
  | .error e => .error e

end Ocfl
