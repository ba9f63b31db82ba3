import Verif.Model.Inventory
import Verif.Model.Quote

/-!
# Model of `ocfl/new_version.py`

The object under construction is a record; a method call returns the record after the call
together with the outcome, so that a partial change made before an exception stays visible.
-/

namespace Ocfl

/-- What the code gets from outside: `file_digest` of a file in the source directory for an
algorithm, and `hashlib.md5(path.encode()).hexdigest()`. -/
structure NVEnv where
  /-- `file_digest(src_path, alg, fs=src_fs)`; an error if the file does not exist or the
  algorithm is not supported. -/
  srcDigest : Str → Str → Py Str
  md5hex : Str → Str

/-- `NewVersion`, `ocfl/new_version.py` lines 28-51. -/
structure NV where
  inv : Inv
  /-- `content_path_normalization` -/
  norm : Option Str := none
  forwardDelta : Option Bool := none
  dedupe : Bool := true
  oldDigestAlgorithm : Option Str := none
  /-- `files_to_copy`: source path to content path. -/
  filesToCopy : Dict Str Str := []
  deriving DecidableEq, Repr

namespace NV

/-- `NewVersion.first_version(...)`, `ocfl/new_version.py` lines 53-151. -/
def firstVersion (identifier specVersion : Str) (digestAlgorithm : Option Str)
    (contentDirectory : Option Str) (metadata : Option VBlock) (dedupe : Bool)
    (fixity : List Str) (norm : Option Str) : Py NV :=
  let inv : Inv := { id := some identifier }
  let inv := inv.setSpecVersion specVersion
  let inv := { inv with digestAlgorithm := digestAlgorithm }
  let inv := inv.initManifestAndVersions
  let inv := fixity.foldl (fun inv t => inv.addFixityType t none) inv
  match inv.addVersion none metadata none none with
  | .error e => .error e
  | .ok inv =>
    let inv := { inv with digestAlgorithm := some (digestAlgorithm.getD c!"sha512") }
    let inv := match contentDirectory with
      | none => inv
      | some cd => if cd = c!"content" then inv else { inv with contentDirectory := some cd }
    .ok { inv := inv, norm := norm, forwardDelta := none, dedupe := dedupe }

/-- Python's `<` on strings. -/
def strLt (a b : Str) : Bool :=
  match a, b with
  | [], [] => false
  | [], _ :: _ => true
  | _ :: _, [] => false
  | x :: a, y :: b => if x.toNat < y.toNat then true else if x = y then strLt a b else false

/-- `NewVersion.next_version(...)`, `ocfl/new_version.py` lines 153-242. An inventory whose
`type` cannot be parsed gives a `TypeError` in the comparison. -/
def nextVersion (inv : Inv) (specVersion : Str) (metadata : Option VBlock) (norm : Option Str)
    (forwardDelta dedupe carryContentForward : Bool) (oldDigestAlgorithm : Option Str) : Py NV :=
  let finish (inv : Inv) : Py NV :=
    let state : DigestMap :=
      if carryContentForward then
        match inv.head with
        | none => []
        | some h => inv.stateOf h
      else []
    match inv.addVersion none metadata (some state) none with
    | .error e => .error e
    | .ok inv => .ok { inv := inv, norm := norm, forwardDelta := some forwardDelta, dedupe := dedupe,
                       oldDigestAlgorithm := oldDigestAlgorithm }
  if some specVersion ≠ inv.specVersion then
    match inv.specVersion with
    | none => .error .typeError
    | some cur =>
      if strLt specVersion cur then .error .newVersionException
      else finish (inv.setSpecVersion specVersion)
  else finish inv

/-- `_map_filepath(filepath)`, `ocfl/new_version.py` lines 249-284, for head version `head`. -/
def mapFilepath (E : NVEnv) (nv : NV) (head filepath : Str) : Py Str :=
  let mapped : Py Str :=
    if nv.norm = some c!"uri" then
      match urlquote filepath with
      | [] => .error .indexError
      | '.' :: rest => .ok (c!"%2E" ++ rest)
      | q => .ok q
    else if nv.norm = some c!"md5" then .ok ((E.md5hex filepath).take 16)
    else if nv.norm ≠ none then .error .newVersionException
    else .ok filepath
  match mapped with
  | .error e => .error e
  | .ok fp =>
    let vfilepath := osPathJoin (osPathJoin head nv.inv.contentDirectoryToUse) fp
    let used := nv.inv.contentPaths
    if vfilepath ∈ used then
      match makeUnusedFilepath vfilepath used with
      | none => .error .valueError -- not reachable: `C04_make_unused_filepath`
      | some p => .ok p
    else .ok vfilepath

/-- The first part of `add`: the content path, `ocfl/new_version.py` lines 308-319. -/
def chooseContentPath (E : NVEnv) (nv : NV) (head srcPath : Str) (contentPath : Option Str) : Py Str :=
  let pfx := head ++ c!"/" ++ nv.inv.contentDirectoryToUse ++ c!"/"
  match contentPath with
  | none => nv.mapFilepath E head srcPath
  | some cp =>
    if !startsWith cp pfx then .error .newVersionException
    else if cp ∈ nv.inv.contentPaths then .error .newVersionException
    else .ok cp

/-- Whether `add` stores a new content file, `ocfl/new_version.py` lines 330-343. -/
def wantCopy (nv : NV) (head : Str) (existingPaths : List Str) : Bool :=
  let inCurrent := existingPaths.any (fun p => startsWith p (head ++ c!"/"))
  let inPrevious := existingPaths.any (fun p => !startsWith p (head ++ c!"/"))
  (!inPrevious && !inCurrent) || (!inCurrent && !(nv.forwardDelta.getD false)) || (inCurrent && !nv.dedupe)

/-- `add(src_path, logical_path, content_path)`, `ocfl/new_version.py` lines 286-346. -/
def add (E : NVEnv) (srcPath logicalPath : Str) (contentPath : Option Str) (nv : NV) : NV × Py Unit :=
  match nv.inv.head with
  | none => (nv, .error .typeError)
  | some head =>
    match nv.chooseContentPath E head srcPath contentPath with
    | .error e => (nv, .error e)
    | .ok cp =>
      if logicalPath ∈ nv.inv.logicalPaths head then (nv, .error .newVersionException)
      else
        match E.srcDigest (nv.inv.digestAlgorithm.getD []) srcPath with
        | .error e => (nv, .error e)
        | .ok digest =>
          match nv.inv.stateAddIfNotPresent head with
          | (inv1, .error e) => ({ nv with inv := inv1 }, .error e)
          | (inv1, .ok st) =>
            let nv1 := { nv with inv := inv1.setState head (Inv.stateAppend st digest logicalPath) }
            if nv1.wantCopy head (nv1.inv.contentPathsForDigest digest) then
              let nv2 := { nv1 with filesToCopy := Dict.set nv1.filesToCopy srcPath cp }
              match nv2.inv.addFileToManifest digest cp with
              | (inv3, .error e) => ({ nv2 with inv := inv3 }, .error e)
              | (inv3, .ok ()) => ({ nv2 with inv := inv3 }, .ok ())
            else (nv1, .ok ())

/-- `delete(logical_path)`, `ocfl/new_version.py` lines 348-366. -/
def delete (logicalPath : Str) (nv : NV) : NV × Py Unit :=
  match nv.inv.head with
  | none => (nv, .error .newVersionException)
  | some head =>
    match nv.inv.deleteLogicalPath head logicalPath with
    | (inv1, .error _) => ({ nv with inv := inv1 }, .error .newVersionException)
    | (inv1, .ok _) => ({ nv with inv := inv1 }, .ok ())

/-- `rename(old, new)`, `ocfl/new_version.py` lines 368-389. -/
def rename (oldPath newPath : Str) (nv : NV) : NV × Py Unit :=
  match nv.inv.head with
  | none => (nv, .error .newVersionException)
  | some head =>
    if newPath ∈ nv.inv.logicalPaths head then (nv, .error .newVersionException)
    else
      match nv.inv.deleteLogicalPath head oldPath with
      | (inv1, .error _) => ({ nv with inv := inv1 }, .error .newVersionException)
      | (inv1, .ok digest) =>
        ({ nv with inv := inv1.setState head (Inv.stateAppend (inv1.stateOf head) digest newPath) }, .ok ())

/-- The loop of `add_from_srcdir`, `ocfl/new_version.py` lines 391-394, over the sorted source
paths; stops at the first exception. -/
def addAll (E : NVEnv) : List Str → NV → NV × Py Unit
  | [], nv => (nv, .ok ())
  | p :: ps, nv =>
    match nv.add E p p none with
    | (nv1, .error e) => (nv1, .error e)
    | (nv1, .ok ()) => addAll E ps nv1

/-- A call of the public interface of a `NewVersion`. -/
inductive Op
  | add (srcPath logicalPath : Str) (contentPath : Option Str)
  | delete (logicalPath : Str)
  | rename (oldPath newPath : Str)
  deriving DecidableEq, Repr

/-- Perform one call. -/
def step (E : NVEnv) (op : Op) (nv : NV) : NV × Py Unit :=
  match op with
  | .add s l c => nv.add E s l c
  | .delete l => nv.delete l
  | .rename o n => nv.rename o n

/-- Perform a sequence of calls; the caller catches every exception and goes on. -/
def run (E : NVEnv) : List Op → NV → NV
  | [], nv => nv
  | op :: ops, nv => run E ops (step E op nv).1

/-- One entry of the difference report. -/
inductive DiffOp
  | added (digest logicalPath : Str)
  | deleted (digest logicalPath : Str)
  deriving DecidableEq, Repr

/-- `[(digest, lp) for digest, lps in state.items() for lp in lps]` -/
def flatten (st : DigestMap) : List (Str × Str) := st.flatMap (fun (d, lps) => lps.map (fun lp => (d, lp)))

/-- The loop that finds the previous version, `ocfl/new_version.py` lines 450-454. -/
def prevVersion (head : Option Str) : List Str → Option Str → Option Str
  | [], prev => prev
  | v :: vs, prev => if some v = head then prev else prevVersion head vs (some v)

/-- `diff_with_previous()`, `ocfl/new_version.py` lines 436-482. Python sets are represented by
lists; the order of the report is not determined in Python. An empty previous version name is
treated as absent, as `if not prev_vdir` does. -/
def diffWithPrevious (nv : NV) : Py (List DiffOp) :=
  let cur := match nv.inv.head with
    | none => []
    | some h => nv.inv.stateOf h
  match nv.inv.versionDirectories with
  | .error e => .error e
  | .ok vs =>
    match prevVersion nv.inv.head vs none with
    | none => .ok ((flatten cur).map (fun p => .added p.1 p.2))
    | some prev =>
      if prev = [] then .ok ((flatten cur).map (fun p => .added p.1 p.2))
      else
        let prevPaths := flatten (nv.inv.stateOf prev)
        let currPaths := flatten cur
        let adds := currPaths.filter (fun p => p ∉ prevPaths)
        let deletes := prevPaths.filter (fun p => p ∉ currPaths)
        .ok (adds.map (fun p => .added p.1 p.2) ++ deletes.map (fun p => .deleted p.1 p.2))

end NV
end Ocfl
