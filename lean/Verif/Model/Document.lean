import Verif.Model.InventoryJson
import Verif.Model.Setters

/-!
# `Inventory.data` as the JSON document that it is

In `Verif.Model.Inventory` an inventory is a record of what the library knows. Here the methods of `ocfl/inventory.py` that
change an inventory change the document itself, in place, with whatever else is in it. What they read they read as there (`Inv.ofJson`).
Where a value is not a `dict` or a list as expected, these functions leave it as it is (Python raises an exception there); the theorems are
about documents where that does not happen.
-/

namespace Ocfl
namespace Doc

/-- `x[k] = v` -/
def put (k : Str) (v : Json) : Json → Json
  | .obj d => .obj (Dict.set d k v)
  | j => j

/-- `del x[k]` -/
def del (k : Str) : Json → Json
  | .obj d => .obj (Dict.erase d k)
  | j => j

/-- A change of `x[k]` in place; nothing if there is no such key. -/
def within (k : Str) (f : Json → Json) : Json → Json
  | .obj d =>
    match Dict.get? d k with
    | none => .obj d
    | some v => .obj (Dict.set d k (f v))
  | j => j

/-- `if k not in x: x[k] = {}` -/
def need (k : Str) : Json → Json
  | .obj d => if Dict.has d k then .obj d else .obj (Dict.set d k (.obj []))
  | j => j

/-- `x.append(v)` -/
def append (v : Str) : Json → Json
  | .arr l => .arr (l ++ [.str v])
  | j => j

/-- A list of strings. -/
def paths (l : List Str) : Json := .arr (l.map .str)

/-- A change in the `dict` that `versiondata(vdir)` returns, `ocfl/inventory.py` lines 295-300. -/
def block (vdir : Str) (f : Json → Json) (doc : Json) : Json := within c!"versions" (within vdir f) doc

/-- Is there a block for the version? -/
def hasVersion (doc : Json) (vdir : Str) : Bool := ((Inv.ofJson doc).versionData vdir).isSome

/-- `spec_version` setter, `ocfl/inventory.py` lines 148-151. -/
def setSpecVersion (v : Str) (doc : Json) : Json := put c!"type" (.str (c!"https://ocfl.io/" ++ v ++ c!"/spec/#inventory")) doc

/-- `add_version(vdir, metadata, state, zero_padded_width)`, `ocfl/inventory.py` lines 384-421; `metadata` is a `dict`. -/
def addVersion (vdir : Option Str) (metadata : Option Json) (state : Option DigestMap) (zeroPaddedWidth : Option Nat) (doc : Json) :
    Json × Py Unit :=
  match (match vdir with
    | some v => Except.ok v
    | none => (Inv.ofJson doc).nextVersionDir zeroPaddedWidth) with
  | .error e => (doc, .error e)
  | .ok v =>
    let doc := within c!"versions" (put v (metadata.getD (.obj []))) (need c!"versions" doc)
    let doc := match state with
      | none => doc
      | some st => block v (put c!"state" (DigestMap.toJson st)) doc
    (put c!"head" (.str v) doc, .ok ())

/-- `add_file_to_manifest(digest, content_path)`, `ocfl/inventory.py` lines 423-454. -/
def addFileToManifest (digest contentPath : Str) (doc : Json) : Json × Py Unit :=
  if contentPath ∈ (Inv.ofJson doc).contentPaths then (doc, .error .inventoryException)
  else
    let doc := need c!"manifest" doc
    if Dict.has (Inv.ofJson doc).manifestD digest then (within c!"manifest" (within digest (append contentPath)) doc, .ok ())
    else (within c!"manifest" (put digest (paths [contentPath])) doc, .ok ())

/-- `add_fixity_type(digest_algorithm, map)`, `ocfl/inventory.py` lines 507-521. -/
def addFixityType (alg : Str) (map : Option DigestMap) (doc : Json) : Json :=
  within c!"fixity" (put alg (DigestMap.toJson (map.getD []))) (need c!"fixity" doc)

/-- `add_fixity_data(digest_algorithm, digest, filepath)`, `ocfl/inventory.py` lines 523-537. -/
def addFixityData (alg digest filepath : Str) (doc : Json) : Json × Py Unit :=
  match Dict.get? (Inv.ofJson doc).fixityD alg with
  | none => (doc, .error .keyError)
  | some fx =>
    if Dict.has fx digest then (within c!"fixity" (within alg (within digest (append filepath))) doc, .ok ())
    else (within c!"fixity" (within alg (put digest (paths [filepath]))) doc, .ok ())

/-- `for (digest, norm) in from_to.items(): m[norm] = m.pop(digest)`, `ocfl/inventory.py` lines 557-558 and 565-566. -/
def renameKeys : List (Str × Str) → Dict Str Json → Dict Str Json
  | [], m => m
  | (digest, norm) :: rest, m =>
    match Dict.get? m digest with
    | none => renameKeys rest m
    | some v => renameKeys rest (Dict.set (Dict.erase m digest) norm v)

/-- The loops of `normalize_digests` on a manifest or a state, `ocfl/inventory.py` lines 552-558 and 560-566. -/
def normalizeBlock (alg : Str) : Json → Json
  | .obj d => .obj (renameKeys (Inv.fromTo alg (Dict.keys d)) d)
  | j => j

/-- `normalize_digests(digest_algorithm)`, `ocfl/inventory.py` lines 539-566. -/
def normalizeDigests (alg : Str) (doc : Json) : Json × Py Unit :=
  let doc1 := within c!"manifest" (normalizeBlock alg) doc
  match (Inv.ofJson doc1).versionDirectories with
  | .error e => (doc1, .error e)
  | .ok vs => (vs.foldl (fun doc v => block v (within c!"state" (normalizeBlock alg)) doc) doc1, .ok ())

/-- `user_add_if_not_present()[key] = value`, `ocfl/inventory.py` lines 640-644, 654-657 and 667-670. -/
def setUser (key vdir value : Str) (doc : Json) : Json × Py Unit :=
  if hasVersion doc vdir then (block vdir (fun b => within c!"user" (put key (.str value)) (need c!"user" b)) doc, .ok ())
  else (doc, .error .keyError)

/-- `state_add_if_not_present()`, `ocfl/inventory.py` lines 625-637. -/
def needState (vdir : Str) (doc : Json) : Json × Py Unit :=
  if hasVersion doc vdir then (block vdir (need c!"state") doc, .ok ()) else (doc, .error .keyError)

/-- `state[digest].append(path)` or `state[digest] = [path]`, `ocfl/inventory.py` lines 751-754. -/
def stateAppend (vdir digest path : Str) (doc : Json) : Json :=
  if Dict.has ((Inv.ofJson doc).stateOf vdir) digest then block vdir (within c!"state" (within digest (append path))) doc
  else block vdir (within c!"state" (put digest (paths [path]))) doc

/-- `Version.add_file(digest, logical_path, content_path, dedupe)`, `ocfl/inventory.py` lines 713-755. -/
def addFile (vdir digest logicalPath : Str) (contentPath : Option Str) (dedupe : Bool) (doc : Json) : Json × Py (Option Str) :=
  let inv := Inv.ofJson doc
  if logicalPath ∈ inv.logicalPaths vdir then (doc, .error .inventoryException)
  else
    let r : Json × Py (Option Str) :=
      if inv.contentPathsForDigest digest = [] ∨ dedupe = false then
        match makeUnusedFilepath (osPathJoin (osPathJoin vdir inv.contentDirectoryToUse) (contentPath.getD logicalPath)) inv.contentPaths with
        | none => (doc, .error .valueError) -- not reachable: `C04_make_unused_filepath`
        | some cp =>
          match addFileToManifest digest cp doc with
          | (doc1, .ok ()) => (doc1, .ok (some cp))
          | (doc1, .error e) => (doc1, .error e)
      else (doc, .ok none)
    match r with
    | (doc1, .error e) => (doc1, .error e)
    | (doc1, .ok cp) =>
      match needState vdir doc1 with
      | (doc2, .error e) => (doc2, .error e)
      | (doc2, .ok ()) => (stateAppend vdir digest logicalPath doc2, .ok cp)

/-- `Version.delete_logical_path(path)`, `ocfl/inventory.py` lines 757-798. -/
def deleteLogicalPath (vdir path : Str) (doc : Json) : Json × Py Str :=
  let inv := Inv.ofJson doc
  match inv.digestForLogicalPath vdir path with
  | none => (doc, .error .inventoryException)
  | some digest =>
    let lps := (Dict.get? (inv.stateOf vdir) digest).getD []
    if lps.length > 1 then (block vdir (within c!"state" (put digest (paths (lps.erase path)))) doc, .ok digest)
    else
      let doc1 := block vdir (within c!"state" (del digest)) doc
      match Dict.get? inv.manifestD digest with
      | none => (doc1, .ok digest)
      | some cpaths =>
        (within c!"manifest" (put digest (paths (cpaths.filter (fun p => !startsWith p (vdir ++ c!"/"))))) doc1, .ok digest)

/-- A call of a method or an assignment to a property of an `Inventory` or one of its versions. Not here: those that replace the block of all
versions (`versions_block`, `init_manifest_and_versions`). -/
inductive Call
  | setId (value : Str)
  | setSpecVersion (value : Str)
  | setDigestAlgorithm (value : Str)
  | setHead (value : Str)
  | setContentDirectory (value : Str)
  | setManifest (value : DigestMap)
  | addVersion (vdir : Option Str) (metadata : Option Json) (state : Option DigestMap) (zeroPaddedWidth : Option Nat)
  | addFileToManifest (digest contentPath : Str)
  | addFixityType (alg : Str) (map : Option DigestMap)
  | addFixityData (alg digest filepath : Str)
  | normalizeDigests (alg : Str)
  | setCreated (vdir value : Str)
  | setMessage (vdir value : Str)
  | setState (vdir : Str) (value : DigestMap)
  | setUserName (vdir value : Str)
  | setUserAddress (vdir value : Str)
  | addFile (vdir digest logicalPath : Str) (contentPath : Option Str) (dedupe : Bool)
  | deleteLogicalPath (vdir path : Str)

/-- What a method without a result returns. -/
def noResult : Py Unit → Py (Option Str)
  | .error e => .error e
  | .ok () => .ok none

/-- Perform one call: the document afterwards, and what it returned or raised. The setters: `ocfl/inventory.py` lines 153-234, 592-605 and
620-623. -/
def Call.exec (doc : Json) : Call → Json × Py (Option Str)
  | .setId v => (put c!"id" (.str v) doc, .ok none)
  | .setSpecVersion v => (Doc.setSpecVersion v doc, .ok none)
  | .setDigestAlgorithm v => (put c!"digestAlgorithm" (.str v) doc, .ok none)
  | .setHead v => (put c!"head" (.str v) doc, .ok none)
  | .setContentDirectory v => (put c!"contentDirectory" (.str v) doc, .ok none)
  | .setManifest m => (put c!"manifest" (DigestMap.toJson m) doc, .ok none)
  | .addVersion v m s w => ((Doc.addVersion v m s w doc).1, noResult (Doc.addVersion v m s w doc).2)
  | .addFileToManifest d p => ((Doc.addFileToManifest d p doc).1, noResult (Doc.addFileToManifest d p doc).2)
  | .addFixityType a m => (Doc.addFixityType a m doc, .ok none)
  | .addFixityData a d p => ((Doc.addFixityData a d p doc).1, noResult (Doc.addFixityData a d p doc).2)
  | .normalizeDigests a => ((Doc.normalizeDigests a doc).1, noResult (Doc.normalizeDigests a doc).2)
  | .setCreated v x => (block v (put c!"created" (.str x)) doc, .ok none)
  | .setMessage v x => (block v (put c!"message" (.str x)) doc, .ok none)
  | .setState v st => (block v (put c!"state" (DigestMap.toJson st)) doc, .ok none)
  | .setUserName v x => ((setUser c!"name" v x doc).1, noResult (setUser c!"name" v x doc).2)
  | .setUserAddress v x => ((setUser c!"address" v x doc).1, noResult (setUser c!"address" v x doc).2)
  | .addFile v d l c b => Doc.addFile v d l c b doc
  | .deleteLogicalPath v p => ((Doc.deleteLogicalPath v p doc).1, (Doc.deleteLogicalPath v p doc).2.map some)

/-- Calls one after the other, whatever they raise: the document afterwards and the results. -/
def execAll : List Call → Json → Json × List (Py (Option Str))
  | [], doc => (doc, [])
  | c :: cs, doc =>
    let r := c.exec doc
    let rest := execAll cs r.1
    (rest.1, r.2 :: rest.2)

end Doc
end Ocfl
