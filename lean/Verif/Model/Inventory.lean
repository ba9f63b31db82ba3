import Verif.Py.Basic
import Verif.Model.ObjectUtils
import Verif.Model.Digest
import Mathlib.Data.List.Sort

/-!
# Model of `ocfl/inventory.py`

The Python class keeps the parsed JSON object. The model keeps a record with one optional field
per key the library knows about (absent key = `none`). Simplification: keys the library does not
know are not kept. A metadata `dict` passed to `add_version` is copied, whereas Python stores the
very object it is given; sharing one `dict` between two versions is therefore outside the model.
-/

namespace Ocfl

/-- A map from digests to lists of paths: manifest, state, or one fixity block. -/
abbrev DigestMap := Dict Str (List Str)

/-- The `user` block of a version. -/
structure User where
  name : Option Str := none
  address : Option Str := none
  deriving DecidableEq, Repr

/-- One block of the `versions` block. -/
structure VBlock where
  created : Option Str := none
  message : Option Str := none
  user : Option User := none
  state : Option DigestMap := none
  deriving DecidableEq, Repr

/-- `Inventory.data`, `ocfl/inventory.py` lines 95-137. -/
structure Inv where
  id : Option Str := none
  type : Option Str := none
  digestAlgorithm : Option Str := none
  contentDirectory : Option Str := none
  head : Option Str := none
  manifest : Option DigestMap := none
  versions : Option (Dict Str VBlock) := none
  fixity : Option (Dict Str DigestMap) := none
  deriving DecidableEq, Repr

namespace Inv

/-- After `https://ocfl` one character and `io/`: the rest of the pattern
`(\d+.\d)/spec/#inventory`, giving `group(1)`. `.` is any character but a newline. -/
def matchSpecGroup (s : Str) : Option Str :=
  let ds := s.takeWhile isDigit
  let rest := s.dropWhile isDigit
  if 3 ≤ ds.length ∧ startsWith rest c!"/spec/#inventory" then some ds
  else
    match rest with
    | c :: d :: rest' =>
      if ds ≠ [] ∧ c ≠ '\n' ∧ isDigit d ∧ startsWith rest' c!"/spec/#inventory" then some (ds ++ [c, d])
      else none
    | _ => none

/-- `re.match(r"https://ocfl.io/(\d+.\d)/spec/#inventory", decl)`, `group(1)`;
`ocfl/inventory.py` line 143 and `ocfl/inventory_validator.py` line 126. -/
def matchSpecVersion (decl : Str) : Option Str :=
  if startsWith decl c!"https://ocfl" then
    match decl.drop 12 with
    | c :: rest =>
      if c ≠ '\n' ∧ startsWith rest c!"io/" then matchSpecGroup (rest.drop 3) else none
    | [] => none
  else none

/-- `spec_version` getter, `ocfl/inventory.py` lines 139-146. -/
def specVersion (inv : Inv) : Option Str := matchSpecVersion (inv.type.getD [])

/-- `spec_version` setter, `ocfl/inventory.py` lines 148-151. -/
def setSpecVersion (inv : Inv) (v : Str) : Inv :=
  { inv with type := some (c!"https://ocfl.io/" ++ v ++ c!"/spec/#inventory") }

/-- `content_directory_to_use`, `ocfl/inventory.py` lines 188-191. -/
def contentDirectoryToUse (inv : Inv) : Str := inv.contentDirectory.getD c!"content"

/-- `manifest` getter, `ocfl/inventory.py` lines 198-205. -/
def manifestD (inv : Inv) : DigestMap := inv.manifest.getD []

/-- `versions_block` getter, `ocfl/inventory.py` lines 261-268. -/
def versionsD (inv : Inv) : Dict Str VBlock := inv.versions.getD []

/-- `fixity` getter, `ocfl/inventory.py` lines 223-229. -/
def fixityD (inv : Inv) : Dict Str DigestMap := inv.fixity.getD []

/-- `content`, `ocfl/inventory.py` lines 236-247: content path to digest. -/
def content (inv : Inv) : Dict Str Str :=
  inv.manifestD.foldl (fun files (digest, filesForDigest) =>
    filesForDigest.foldl (fun files file => Dict.set files file digest) files) []

/-- `content_paths`, `ocfl/inventory.py` lines 249-259. -/
def contentPaths (inv : Inv) : List Str := inv.manifestD.flatMap Prod.snd

/-- Pair every key with its parsed number, raising as `sorted(..., key=...)` would. -/
def parseKeys : List Str → Py (List (Nat × Str))
  | [] => .ok []
  | k :: ks =>
    match parseVersionDirectory k with
    | .error e => .error e
    | .ok n =>
      match parseKeys ks with
      | .error e => .error e
      | .ok ps => .ok ((n, k) :: ps)

/-- `version_directories`, `ocfl/inventory.py` lines 275-285: stable sort by version number. -/
def versionDirectories (inv : Inv) : Py (List Str) :=
  match parseKeys (Dict.keys inv.versionsD) with
  | .error e => .error e
  | .ok ps => .ok ((ps.insertionSort (fun a b => a.1 ≤ b.1)).map Prod.snd)

/-- `[parse_version_directory(v) for v in vs]` -/
def parseAll : List Str → Py (List Nat)
  | [] => .ok []
  | k :: ks =>
    match parseVersionDirectory k with
    | .error e => .error e
    | .ok n =>
      match parseAll ks with
      | .error e => .error e
      | .ok ns => .ok (n :: ns)

/-- `version_numbers`, `ocfl/inventory.py` lines 287-293. -/
def versionNumbers (inv : Inv) : Py (List Nat) :=
  match inv.versionDirectories with
  | .error e => .error e
  | .ok vs => parseAll vs

/-- `versiondata(vdir)`, `ocfl/inventory.py` lines 295-300; `none` stands for the fresh empty
dict that is returned when there is no such version. -/
def versionData (inv : Inv) (vdir : Str) : Option VBlock := Dict.get? inv.versionsD vdir

/-- `Version.state`, `ocfl/inventory.py` lines 611-618. -/
def stateOf (inv : Inv) (vdir : Str) : DigestMap :=
  match inv.versionData vdir with
  | none => []
  | some b => b.state.getD []

/-- `Version.logical_paths`, `ocfl/inventory.py` lines 673-681. -/
def logicalPaths (inv : Inv) (vdir : Str) : List Str := (inv.stateOf vdir).flatMap Prod.snd

/-- First key whose list contains the path: the loop of `digest_for_content_path` and
`digest_for_logical_path`. -/
def digestFor : DigestMap → Str → Option Str
  | [], _ => none
  | (digest, paths) :: rest, path => if path ∈ paths then some digest else digestFor rest path

/-- `digest_for_content_path(path)`, `ocfl/inventory.py` lines 320-332. -/
def digestForContentPath (inv : Inv) (path : Str) : Option Str := digestFor inv.manifestD path

/-- `content_paths_for_digest(digest)`, `ocfl/inventory.py` lines 334-341. -/
def contentPathsForDigest (inv : Inv) (digest : Str) : List Str :=
  (Dict.get? inv.manifestD digest).getD []

/-- `content_path_for_digest(digest)`, `ocfl/inventory.py` lines 343-357. -/
def contentPathForDigest (inv : Inv) (digest : Str) : Option Str :=
  (inv.contentPathsForDigest digest).head?

/-- `Version.digest_for_logical_path(path)`, `ocfl/inventory.py` lines 691-699. -/
def digestForLogicalPath (inv : Inv) (vdir : Str) (path : Str) : Option Str :=
  digestFor (inv.stateOf vdir) path

/-- `Version.content_path_for_logical_path(path)`, `ocfl/inventory.py` lines 701-711. -/
def contentPathForLogicalPath (inv : Inv) (vdir : Str) (path : Str) : Option Str :=
  match inv.digestForLogicalPath vdir path with
  | none => none
  | some digest => inv.contentPathForDigest digest

/-- The `for` loop of `_next_version_directory`, `ocfl/inventory.py` lines 374-379:
highest number so far and the last directory seen. -/
def highestLoop : List Str → Nat → Option Str → Py (Nat × Option Str)
  | [], hi, v => .ok (hi, v)
  | k :: ks, hi, _ =>
    match parseVersionDirectory k with
    | .error e => .error e
    | .ok n => highestLoop ks (max hi n) (some k)

/-- `_next_version_directory(zero_padded_width)`, `ocfl/inventory.py` lines 359-382. -/
def nextVersionDir (inv : Inv) (zeroPaddedWidth : Option Nat) : Py Str :=
  match inv.versionDirectories with
  | .error e => .error e
  | .ok vs =>
    match highestLoop vs 0 none with
    | .error e => .error e
    | .ok (highest, vdir) =>
      if highest = 0 then firstVersionDirectory zeroPaddedWidth
      else nextVersionDirectory (vdir.getD [])

/-- `add_version(vdir, metadata, state, zero_padded_width)`, `ocfl/inventory.py` lines 384-421.
`metadata` is the version block the metadata argument (a dict, or an object with `as_dict`)
stands for. Returns the new inventory; nothing is changed if the version directory cannot be
determined. -/
def addVersion (inv : Inv) (vdir : Option Str) (metadata : Option VBlock) (state : Option DigestMap)
    (zeroPaddedWidth : Option Nat) : Py Inv :=
  match (match vdir with
    | some v => Except.ok v
    | none => inv.nextVersionDir zeroPaddedWidth) with
  | .error e => .error e
  | .ok v =>
    let blk := metadata.getD {}
    let blk := match state with
      | none => blk
      | some st => { blk with state := some st }
    .ok { inv with versions := some (Dict.set inv.versionsD v blk), head := some v }

/-- `add_file_to_manifest(digest, content_path)`, `ocfl/inventory.py` lines 423-454. The
inventory after the call, and the outcome. -/
def addFileToManifest (inv : Inv) (digest contentPath : Str) : Inv × Py Unit :=
  if contentPath ∈ inv.contentPaths then (inv, .error .inventoryException)
  else
    match Dict.get? inv.manifestD digest with
    | some paths =>
      ({ inv with manifest := some (Dict.set inv.manifestD digest (paths ++ [contentPath])) }, .ok ())
    | none => ({ inv with manifest := some (Dict.set inv.manifestD digest [contentPath]) }, .ok ())

/-- The loop of `find_logical_path` over the versions, latest first. -/
def findLoop (inv : Inv) (logicalPath : Str) : List Str → Option Str × Option Str
  | [] => (none, none)
  | v :: vs =>
    if logicalPath ∈ inv.logicalPaths v then (some v, inv.contentPathForLogicalPath v logicalPath)
    else findLoop inv logicalPath vs

/-- `find_logical_path(logical_path)`, `ocfl/inventory.py` lines 456-488. -/
def findLogicalPath (inv : Inv) (logicalPath : Str) : Py (Option Str × Option Str) :=
  match inv.versionDirectories with
  | .error e => .error e
  | .ok vs => .ok (findLoop inv logicalPath vs.reverse)

/-- `init_manifest_and_versions()`, `ocfl/inventory.py` lines 502-505. -/
def initManifestAndVersions (inv : Inv) : Inv := { inv with manifest := some [], versions := some [] }

/-- `add_fixity_type(digest_algorithm, map)`, `ocfl/inventory.py` lines 507-521. -/
def addFixityType (inv : Inv) (alg : Str) (map : Option DigestMap) : Inv :=
  { inv with fixity := some (Dict.set inv.fixityD alg (map.getD [])) }

/-- `add_fixity_data(digest_algorithm, digest, filepath)`, `ocfl/inventory.py` lines 523-537.
Raises `KeyError` when there is no block for the algorithm. -/
def addFixityData (inv : Inv) (alg digest filepath : Str) : Py Inv :=
  match Dict.get? inv.fixityD alg with
  | none => .error .keyError
  | some fx =>
    let fx' := match Dict.get? fx digest with
      | none => Dict.set fx digest [filepath]
      | some fs => Dict.set fx digest (fs ++ [filepath])
    .ok { inv with fixity := some (Dict.set inv.fixityD alg fx') }

/-- The first loop of `normalize_digests`, `ocfl/inventory.py` lines 552-556: digests that are
not in normal form, with their normal form. -/
def fromTo (alg : Str) (keys : List Str) : List (Str × Str) :=
  keys.filterMap (fun digest =>
    let norm := normalizedDigest digest alg
    if digest ≠ norm then some (digest, norm) else none)

/-- `for (digest, norm) in from_to.items(): m[norm] = m.pop(digest)`,
`ocfl/inventory.py` lines 557-558 and 565-566. -/
def applyFromTo : List (Str × Str) → DigestMap → DigestMap
  | [], m => m
  | (digest, norm) :: rest, m =>
    match Dict.get? m digest with
    | none => applyFromTo rest m
    | some v => applyFromTo rest (Dict.set (Dict.erase m digest) norm v)

/-- Both loops, on the manifest or on one state. -/
def normalizeMap (alg : Str) (m : DigestMap) : DigestMap := applyFromTo (fromTo alg (Dict.keys m)) m

/-- `normalize_digests(digest_algorithm)`, `ocfl/inventory.py` lines 539-566. The versions are
visited through `versions()`, which raises for a bad version directory after the manifest has
been changed; otherwise every version's state is normalised (the order does not matter). -/
def normalizeDigests (inv : Inv) (alg : Str) : Inv × Py Unit :=
  let inv1 := { inv with manifest := inv.manifest.map (normalizeMap alg) }
  match inv.versionDirectories with
  | .error e => (inv1, .error e)
  | .ok _ =>
    ({ inv1 with versions := inv.versions.map (fun vs =>
        vs.map (fun p => (p.1, { p.2 with state := p.2.state.map (normalizeMap alg) }))) }, .ok ())

/-- Replace the state of an existing version. -/
def setState (inv : Inv) (vdir : Str) (st : DigestMap) : Inv :=
  match inv.versionData vdir with
  | none => inv
  | some b => { inv with versions := some (Dict.set inv.versionsD vdir { b with state := some st }) }

/-- `Version.state_add_if_not_present()`, `ocfl/inventory.py` lines 625-637. Raises `KeyError`
if the version itself does not exist. -/
def stateAddIfNotPresent (inv : Inv) (vdir : Str) : Inv × Py DigestMap :=
  match inv.versionData vdir with
  | none => (inv, .error .keyError)
  | some b =>
    match b.state with
    | some st => (inv, .ok st)
    | none => (inv.setState vdir [], .ok [])

/-- `state[digest].append(path)` or `state[digest] = [path]`. -/
def stateAppend (st : DigestMap) (digest path : Str) : DigestMap :=
  match Dict.get? st digest with
  | some paths => Dict.set st digest (paths ++ [path])
  | none => Dict.set st digest [path]

/-- `Version.add_file(digest, logical_path, content_path, dedupe)`, `ocfl/inventory.py` lines
713-755. The inventory after the call and the outcome. -/
def addFile (inv : Inv) (vdir digest logicalPath : Str) (contentPath : Option Str) (dedupe : Bool) :
    Inv × Py (Option Str) :=
  if logicalPath ∈ inv.logicalPaths vdir then (inv, .error .inventoryException)
  else
    let files := inv.contentPathsForDigest digest
    let (inv1, r) : Inv × Py (Option Str) :=
      if files = [] ∨ dedupe = false then
        let suggested := osPathJoin (osPathJoin vdir inv.contentDirectoryToUse)
          (contentPath.getD logicalPath)
        match makeUnusedFilepath suggested inv.contentPaths with
        | none => (inv, .error .valueError) -- not reachable: `C04_make_unused_filepath`
        | some cp =>
          match inv.addFileToManifest digest cp with
          | (inv', .ok ()) => (inv', .ok (some cp))
          | (inv', .error e) => (inv', .error e)
      else (inv, .ok none)
    match r with
    | .error e => (inv1, .error e)
    | .ok cp =>
      match inv1.stateAddIfNotPresent vdir with
      | (inv2, .error e) => (inv2, .error e)
      | (inv2, .ok st) => (inv2.setState vdir (stateAppend st digest logicalPath), .ok cp)

/-- The loop of `delete_logical_path`: the state after removing `path`, the digest, and whether
the last reference to the digest was removed. -/
def deleteFromState : DigestMap → Str → Option (DigestMap × Str × Bool)
  | [], _ => none
  | (digest, paths) :: rest, path =>
    if path ∈ paths then
      if paths.length > 1 then some ((digest, paths.erase path) :: rest, digest, false)
      else some (rest, digest, true)
    else
      match deleteFromState rest path with
      | none => none
      | some (rest', d, last) => some ((digest, paths) :: rest', d, last)

/-- Manifest without the content paths of version `vdir` for `digest`,
`ocfl/inventory.py` lines 789-794. The digest stays, possibly with an empty list. -/
def dropVersionPaths (m : DigestMap) (vdir digest : Str) : DigestMap :=
  match Dict.get? m digest with
  | none => m
  | some cpaths => Dict.set m digest (cpaths.filter (fun p => !startsWith p (vdir ++ c!"/")))

/-- `Version.delete_logical_path(path)`, `ocfl/inventory.py` lines 757-798. -/
def deleteLogicalPath (inv : Inv) (vdir path : Str) : Inv × Py Str :=
  match deleteFromState (inv.stateOf vdir) path with
  | none => (inv, .error .inventoryException)
  | some (st, digest, last) =>
    let inv1 := inv.setState vdir st
    if last then
      (match inv1.manifest with
        | none => inv1
        | some m => { inv1 with manifest := some (dropVersionPaths m vdir digest) }, .ok digest)
    else (inv1, .ok digest)

end Inv
end Ocfl
