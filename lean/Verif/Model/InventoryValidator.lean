import Verif.Model.Validation
import Verif.Model.Digest
import Verif.Model.Inventory
import Verif.Model.W3CDatetime

/-!
# Model of `ocfl/inventory_validator.py`

The inventory is an arbitrary JSON value. Python sets are lists (only membership and emptiness
matter). The attributes the code keeps in `self` are results of the functions.
-/

namespace Ocfl
namespace IV
open V

/-- `SPEC_VERSIONS_SUPPORTED`, `ocfl/constants.py`. -/
def specVersionsSupported : List Str := [c!"1.0", c!"1.1"]

/-! ## Regular expressions -/

/-- `[a-z]` with `re.IGNORECASE` (Python also lets U+0130, U+0131, U+017F and U+212A match). -/
def isLetterIC (c : Char) : Bool :=
  ('a' ≤ c && c ≤ 'z') || ('A' ≤ c && c ≤ 'Z') || c.toNat = 0x130 || c.toNat = 0x131 || c.toNat = 0x17f || c.toNat = 0x212a

/-- `re.match(r"[a-z][a-z\d\+\-\.]*:.+", iid, re.IGNORECASE)`, `ocfl/inventory_validator.py` line
124. Only decides about a warning. -/
def matchUri (s : Str) : Bool :=
  match s with
  | [] => false
  | c :: t =>
    isLetterIC c &&
      match t.dropWhile (fun c => isLetterIC c || isDigit c || c = '+' || c = '-' || c = '.') with
      | ':' :: d :: _ => d ≠ '\n'
      | _ => false

/-- `re.match(r"\w{3,6}:", address)`, `ocfl/inventory_validator.py` line 455; `isWord` is `\w`. Only
decides about a warning. -/
def matchAddress (isWord : Char → Bool) (s : Str) : Bool :=
  let w := s.takeWhile isWord
  3 ≤ w.length && w.length ≤ 6 && (s.drop w.length).head? = some ':'

/-- The rest of a string after `\d\d`. -/
def twoDigits (s : Str) : Option Str := (takeDigits 2 s).map Prod.snd

/-- `[+-]\d\d:\d\d$` or `Z$` at the beginning of `s`. -/
def zoneHere (s : Str) : Bool :=
  match s with
  | [] => false
  | c :: t =>
    (c = 'Z' && atDollar t) ||
    ((c = '+' || c = '-') &&
      match ((twoDigits t).bind (takeChar ':')).bind twoDigits with
      | none => false
      | some r => atDollar r)

/-- `re.search(r"(Z|[+-]\d\d:\d\d)$", created)`, `ocfl/inventory_validator.py` line 429. -/
def searchZone : Str → Bool
  | [] => false
  | c :: t => zoneHere (c :: t) || searchZone t

/-- `T\d\d:\d\d:\d\d` at the beginning of `s`. -/
def timeHere (s : Str) : Bool :=
  (((((takeChar 'T' s).bind twoDigits).bind (takeChar ':')).bind twoDigits).bind (takeChar ':')).bind twoDigits |>.isSome

/-- `re.search(r"T\d\d:\d\d:\d\d", created)`, `ocfl/inventory_validator.py` line 431. -/
def searchTime : Str → Bool
  | [] => false
  | c :: t => timeHere (c :: t) || searchTime t

/-- `re.match(r"^(v\d+)/([^/]+)/(.+)", path)`, `ocfl/inventory_validator.py` line 557: the three
groups. Group 3 stops at a newline. -/
def matchContentPath (path : Str) : Option (Str × Str × Str) :=
  match path with
  | 'v' :: rest =>
    let ds := rest.takeWhile isDigit
    match rest.dropWhile isDigit with
    | '/' :: r =>
      let cd := r.takeWhile (· ≠ '/')
      match r.dropWhile (· ≠ '/') with
      | '/' :: r' =>
        let g3 := r'.takeWhile (· ≠ '\n')
        if ds ≠ [] ∧ cd ≠ [] ∧ g3 ≠ [] then some ('v' :: ds, cd, g3) else none
      | _ => none
    | _ => none
  | _ => none

/-! ## Pieces of `validate` -/

/-- The `id` part, `ocfl/inventory_validator.py` lines 117-128: the new value of `self.id`. -/
def checkId (inventory : Json) : V (Option Str) := do
  if ← lift (inventory.pyIn c!"id") then
    let iid ← lift (inventory.pyIndex c!"id")
    match iid with
    | .str s =>
      if s = [] then do
        err c!"E037a"
        ret none
      else do
        if !matchUri s then warn c!"W005" else ret ()
        ret (some s)
    | _ => do
      err c!"E037a"
      ret none
  else
    err c!"E036a"
    ret none

/-- The `type` part, `ocfl/inventory_validator.py` lines 129-145: the new value of
`self.spec_version`, given the present one. -/
def checkType (force : Option Str) (specVersion : Str) (inventory : Json) : V Str := do
  if !(← lift (inventory.pyIn c!"type")) then
    err c!"E036b"
    ret specVersion
  else
    match ← lift (inventory.pyIndex c!"type") with
    | .str t =>
      if force.getD [] ≠ [] ∧ t ≠ c!"https://ocfl.io/" ++ force.getD [] ++ c!"/spec/#inventory" then do
        err c!"E038a"
        ret specVersion
      else
        match Inv.matchSpecVersion t with
        | none => do
          err c!"E038b"
          ret specVersion
        | some v =>
          if v ∈ specVersionsSupported then ret v
          else do
            err c!"E038c"
            ret specVersion
    | _ => do
      err c!"E038d"
      ret specVersion

/-- The `digestAlgorithm` part, `ocfl/inventory_validator.py` lines 146-157: the new value of
`self.digest_algorithm`, or `none` where the code returns `False` at once. In lax mode it can be
any JSON value. -/
def checkDigestAlgorithm (lax : Bool) (inventory : Json) : V (Option Json) := do
  if !(← lift (inventory.pyIn c!"digestAlgorithm")) then
    err c!"E036c"
    ret (some (.str c!"sha512"))
  else
    let a ← lift (inventory.pyIndex c!"digestAlgorithm")
    if a.str? = some c!"sha512" then ret (some (.str c!"sha512"))
    else if lax then ret (some a)
    else if a.str? = some c!"sha256" then do
      warn c!"W004"
      ret (some a)
    else do
      err c!"E025a"
      ret none

/-- The `contentDirectory` part, `ocfl/inventory_validator.py` lines 158-167: `some cd` if it is set
and safe. -/
def checkContentDirectory (inventory : Json) : V (Option Str) := do
  if ← lift (inventory.pyIn c!"contentDirectory") then
    match ← lift (inventory.pyIndex c!"contentDirectory") with
    | .str cd =>
      if '/' ∈ cd then do
        err c!"E017"
        ret none
      else if cd = c!"." ∨ cd = c!".." then do
        err c!"E018"
        ret none
      else ret (some cd)
    | _ => do
      err c!"E017"
      ret none
  else ret none

/-- `self._digest_regex()`, `ocfl/inventory_validator.py` lines 518-526, for the algorithm `alg`. A
list or dict (in lax mode) is unhashable: `TypeError`. -/
def digestMatcher (lax : Bool) (alg : Json) : V (Str → Bool) :=
  let unknown : V (Str → Bool) := do
    if !lax then err c!"E026a" else ret ()
    ret matchAny
  match alg with
  | .str a =>
    match digestRegex a with
    | some m => ret m
    | none => unknown
  | .arr _ => raise .typeError
  | .obj _ => raise .typeError
  | _ => unknown

/-- `normalized_digest(digest, self.digest_algorithm)` -/
def normalizedDigestJ (digest : Str) (alg : Json) : Str :=
  match alg with
  | .str a => normalizedDigest digest a
  | _ => digest.map asciiLower

/-- Path segments that are not allowed. -/
def badElement (e : Str) : Bool := e = [] || e = c!"." || e = c!".."

/-- `_check_content_path(path, content_paths, content_directories)`,
`ocfl/inventory_validator.py` lines 547-575, on the two sets; the Boolean is the return value. -/
def checkContentPath (contentDirectory : Str) (path : Str) (paths dirs : List Str) :
    V (Bool × List Str × List Str) :=
  if startsWith path c!"/" || endsWith path c!"/" then do
    err c!"E100"
    ret (false, paths, dirs)
  else
    match matchContentPath path with
    | none => do
      err c!"E042a"
      ret (false, paths, dirs)
    | some (g1, g2, g3) =>
      if g2 ≠ contentDirectory then do
        err c!"E042c"
        ret (false, paths, dirs)
      else
        let elements := splitOn '/' g3
        if elements.any badElement then do
          err c!"E099"
          ret (false, paths, dirs)
        else if path ∈ paths then do
          err c!"E101a"
          ret (false, paths, dirs)
        else ret (true, path :: paths, joinWith '/' (g1 :: g2 :: elements.dropLast) :: dirs)

/-- What `_validate_manifest` accumulates. -/
structure MState where
  /-- `manifest_files` -/
  files : Dict Str Str := []
  /-- `manifest_files_correct_format` -/
  correct : List Str := []
  /-- `unnormalized_digests` -/
  unnorm : List Str := []
  /-- `manifest_digests` -/
  digests : List Str := []
  /-- `content_paths` -/
  paths : List Str := []
  /-- `content_directories` -/
  dirs : List Str := []

/-- One file of the manifest, `ocfl/inventory_validator.py` lines 292-295. A path that is not a
string raises (unhashable, or no `startswith`). -/
def manifestFile (contentDirectory normDigest : Str) (s : MState) (file : Json) : V MState :=
  match file with
  | .str f => do
    let (ok, paths, dirs) ← checkContentPath contentDirectory f s.paths s.dirs
    ret { s with
      files := Dict.set s.files f normDigest
      paths := paths
      dirs := dirs
      correct := if ok then s.correct ++ [f] else s.correct }
  | .arr _ => raise .typeError
  | .obj _ => raise .typeError
  | _ => raise .attributeError

/-- One digest of the manifest, `ocfl/inventory_validator.py` lines 278-295. -/
def manifestDigest (lax : Bool) (alg : Json) (contentDirectory : Str) (s : MState) (entry : Str × Json) : V MState := do
  let m ← digestMatcher lax alg
  if !m entry.1 then
    err c!"E025b"
    ret s
  else
    match entry.2 with
    | .arr files => do
      let norm := normalizedDigestJ entry.1 alg
      let s := { s with unnorm := s.unnorm ++ [entry.1] }
      let s ← if norm ∈ s.digests then do
          err c!"E096"
          ret s
        else ret { s with digests := s.digests ++ [norm] }
      forM (manifestFile contentDirectory norm) files s
    | _ => do
      err c!"E092"
      ret s

/-- `for path in directories: if path in paths: self._error(code)`. -/
def conflicts (code : Str) (paths : List Str) (dirs : List Str) : V Unit :=
  forM (fun _ d => if d ∈ paths then err code else ret ()) dirs ()

/-- `_validate_manifest(manifest)`, `ocfl/inventory_validator.py` lines 256-300. -/
def validateManifest (lax : Bool) (alg : Json) (contentDirectory : Str) (manifest : Json) : V MState :=
  match manifest with
  | .obj m => do
    let s ← forM (manifestDigest lax alg contentDirectory) m {}
    conflicts c!"E101b" s.paths s.dirs
    ret s
  | _ => do
    err c!"E041c"
    ret {}

/-- One file in a fixity block, `ocfl/inventory_validator.py` lines 346-348. `manifestFiles` is
`none` when there is no manifest. -/
def fixityFile (manifestFiles : Option (Dict Str Str)) (file : Json) : V Unit :=
  match manifestFiles with
  | none => raise .typeError
  | some mf =>
    match file with
    | .str f => if Dict.has mf f then ret () else err c!"E057d"
    | .arr _ => raise .typeError
    | .obj _ => raise .typeError
    | _ => err c!"E057d"

/-- One digest in a fixity block, `ocfl/inventory_validator.py` lines 330-348. The state is
`digests_seen`. -/
def fixityDigest (m : Str → Bool) (known : Bool) (alg : Str) (manifestFiles : Option (Dict Str Str))
    (seen : List Str) (entry : Str × Json) : V (List Str) := do
  if !m entry.1 then
    err c!"E057b"
    ret seen
  else
    match entry.2 with
    | .arr files => do
      let norm := if known then normalizedDigest entry.1 alg else entry.1
      let seen ← if norm ∈ seen then do
          err c!"E097"
          ret seen
        else ret (seen ++ [norm])
      forM (fun _ f => fixityFile manifestFiles f) files ()
      ret seen
    | _ => do
      err c!"E057c"
      ret seen

/-- The value for one algorithm in the fixity block, `ocfl/inventory_validator.py` lines 325-348. -/
def fixityBlock (m : Str → Bool) (known : Bool) (alg : Str) (manifestFiles : Option (Dict Str Str)) (block : Json) :
    V Unit :=
  match block with
  | .obj b => do
    let _ ← forM (fixityDigest m known alg manifestFiles) b []
    ret ()
  | _ => err c!"E057a"

/-- One algorithm in the fixity block, `ocfl/inventory_validator.py` lines 314-348. -/
def fixityAlgorithm (lax : Bool) (manifestFiles : Option (Dict Str Str)) (entry : Str × Json) : V Unit :=
  match digestRegex entry.1 with
  | some m => fixityBlock m true entry.1 manifestFiles entry.2
  | none => if !lax then err c!"E056b" else fixityBlock matchAny false entry.1 manifestFiles entry.2

/-- `_validate_fixity(fixity, manifest_files)`, `ocfl/inventory_validator.py` lines 302-348. -/
def validateFixity (lax : Bool) (specVersion : Str) (manifestFiles : Option (Dict Str Str)) (fixity : Json) : V Unit :=
  match fixity with
  | .obj fx => forM (fun _ e => fixityAlgorithm lax manifestFiles e) fx ()
  | _ => err (if specVersion = c!"1.0" then c!"E056a" else c!"E111")

/-- `fmt % n` for the format `v%d` (`none`) or `v%0<w>d` (`some w`). -/
def vfmt (w : Option Nat) (n : Nat) : Str :=
  match w with
  | none => c!"v" ++ natStr n
  | some w => c!"v" ++ padStr w n

/-- The loop over widths, `ocfl/inventory_validator.py` lines 373-380. -/
def findWidth (versions : List (Str × Json)) : List Nat → Option Nat
  | [] => none
  | w :: ws => if Dict.has versions (vfmt (some w) 1) then some w else findWidth versions ws

/-- The loop `for n in range(2, max_version_num + 1)`, `ocfl/inventory_validator.py` lines 387-394,
with `fuel` numbers left, starting at `n`: the versions found, and `some n` if version `n` is the
first that is missing. -/
def seqLoop (versions : List (Str × Json)) (w : Option Nat) : (fuel : Nat) → (n : Nat) → List Str × Option Nat
  | 0, _ => ([], none)
  | fuel + 1, n =>
    if Dict.has versions (vfmt w n) then
      let (vs, r) := seqLoop versions w fuel (n + 1)
      (vfmt w n :: vs, r)
    else ([], some n)

/-- The part after the format is known, `ocfl/inventory_validator.py` lines 384-401. -/
def sequenceFrom (versions : List (Str × Json)) (w : Option Nat) (maxNum : Nat) : V (List Str) :=
  let (vs, r) := seqLoop versions w (maxNum - 1) 2
  match r with
  | some n => do
    if versions.length ≠ n - 1 then err c!"E010" else ret ()
    ret (vfmt w 1 :: vs)
  | none => do
    if versions.length > maxNum then err c!"E011" else ret ()
    ret (vfmt w 1 :: vs)

/-- `_validate_version_sequence(versions)`, `ocfl/inventory_validator.py` lines 350-401. -/
def validateVersionSequence (versions : Json) : V (List Str) :=
  match versions with
  | .obj vs =>
    if vs.length = 0 then do
      err c!"E008"
      ret []
    else if Dict.has vs c!"v1" then sequenceFrom vs none 999999
    else
      match findWidth vs [2, 3, 4, 5, 6, 7, 8, 9, 10] with
      | none => do
        err c!"E009"
        ret []
      | some w => do
        warn c!"W001"
        sequenceFrom vs (some w) (10 ^ (w - 1) - 1)
  | _ => do
    err c!"E044"
    ret []

/-- `_check_logical_path(path, version, logical_paths, logical_directories)`,
`ocfl/inventory_validator.py` lines 528-545, on the two sets. -/
def checkLogicalPath (path : Str) (s : List Str × List Str) : V (List Str × List Str) :=
  if startsWith path c!"/" || endsWith path c!"/" then do
    err c!"E053"
    ret s
  else
    let elements := splitOn '/' path
    if elements.any badElement then do
      err c!"E052"
      ret s
    else ret (path :: s.1, joinWith '/' elements.dropLast :: s.2)

/-- One logical path, `ocfl/inventory_validator.py` lines 479-483. -/
def statePath (s : List Str × List Str) (path : Json) : V (List Str × List Str) :=
  match path with
  | .str p =>
    if p ∈ s.1 then do
      err c!"E095a"
      ret s
    else checkLogicalPath p s
  | .arr _ => raise .typeError
  | .obj _ => raise .typeError
  | _ => raise .attributeError

/-- One digest of a state block, `ocfl/inventory_validator.py` lines 473-488; the state is the two
sets and the list of digests. `unnorm` is `none` when there is no manifest: `TypeError`. -/
def stateDigest (m : Str → Bool) (alg : Json) (unnorm : Option (List Str))
    (s : (List Str × List Str) × List Str) (entry : Str × Json) : V ((List Str × List Str) × List Str) := do
  if !m entry.1 then
    err c!"E050d"
    ret s
  else
    match entry.2 with
    | .arr paths => do
      let s1 ← forM statePath paths s.1
      match unnorm with
      | none => raise .typeError
      | some u =>
        if entry.1 ∉ u then err c!"E050f" else ret ()
        ret (s1, s.2 ++ [normalizedDigestJ entry.1 alg])
    | _ => do
      err c!"E050e"
      ret s

/-- `_validate_state_block(state, version, unnormalized_digests)`,
`ocfl/inventory_validator.py` lines 459-493. -/
def validateStateBlock (lax : Bool) (alg : Json) (unnorm : Option (List Str)) (state : Json) : V (List Str) :=
  match state with
  | .obj st => do
    let m ← digestMatcher lax alg
    let s ← forM (stateDigest m alg unnorm) st (([], []), [])
    conflicts c!"E095b" s.1.1 s.1.2
    ret s.2
  | _ => do
    err c!"E050c"
    ret []

/-- The `created` part of a version, `ocfl/inventory_validator.py` lines 420-434. -/
def checkCreated (version : Json) : V Unit := do
  if !(← lift (version.pyIn c!"created")) then err c!"E048"
  else
    match ← lift (version.pyIndex c!"created") with
    | .str created =>
      match strToDatetime created with
      | .error .valueError => err c!"E049c"
      | .error e => raise e
      | .ok _ => do
        if !searchZone created then err c!"E049a" else ret ()
        if !searchTime created then err c!"E049b" else ret ()
    | _ => err c!"E049d"

/-- The `message` part of a version, `ocfl/inventory_validator.py` lines 438-441. -/
def checkMessage (version : Json) : V Unit := do
  if !(← lift (version.pyIn c!"message")) then warn c!"W007a"
  else
    match ← lift (version.pyIndex c!"message") with
    | .str _ => ret ()
    | _ => err c!"E094"

/-- The `user` part of a version, `ocfl/inventory_validator.py` lines 442-456. -/
def checkUser (isWord : Char → Bool) (version : Json) : V Unit := do
  if !(← lift (version.pyIn c!"user")) then warn c!"W007b"
  else
    match ← lift (version.pyIndex c!"user") with
    | .obj u => do
      match (Dict.get? u c!"name").bind Json.str? with
      | some _ => ret ()
      | none => err c!"E054b"
      match Dict.get? u c!"address" with
      | none => warn c!"W008"
      | some (.str a) => if !matchAddress isWord a then warn c!"W009" else ret ()
      | some _ => err c!"E054c"
    | _ => err c!"E054a"

/-- One version, `ocfl/inventory_validator.py` lines 418-456: the digests used so far. -/
def validateVersion (isWord : Char → Bool) (lax : Bool) (alg : Json) (unnorm : Option (List Str)) (versions : Json)
    (used : List Str) (v : Str) : V (List Str) := do
  let version ← lift (versions.pyIndex v)
  checkCreated version
  let used ← if ← lift (version.pyIn c!"state") then do
      let st ← lift (version.pyIndex c!"state")
      let ds ← validateStateBlock lax alg unnorm st
      ret (used ++ ds)
    else do
      err c!"E048c"
      ret used
  checkMessage version
  checkUser isWord version
  ret used

/-- `_validate_versions(versions, all_versions, unnormalized_digests)`,
`ocfl/inventory_validator.py` lines 403-457. -/
def validateVersions (isWord : Char → Bool) (lax : Bool) (alg : Json) (unnorm : Option (List Str)) (versions : Json)
    (allVersions : List Str) : V (List Str) :=
  forM (validateVersion isWord lax alg unnorm versions) allVersions []

/-- `__check_content_paths_map_to_versions(manifest_files, all_versions)`,
`ocfl/inventory_validator.py` lines 495-505. -/
def checkPathVersions (correct allVersions : List Str) : V Unit :=
  forM (fun _ path => if path.takeWhile (· ≠ '/') ∉ allVersions then err c!"E042b" else ret ()) correct ()

/-- `_check_digests_present_and_used(manifest_files, digests_used)`,
`ocfl/inventory_validator.py` lines 507-516. -/
def checkDigestsUsed (files : Dict Str Str) (used : List Str) : V Unit := do
  if used.any (fun d => d ∉ Dict.values files) then err c!"E050a" else ret ()
  if (Dict.values files).any (fun d => d ∉ used) then err c!"E107" else ret ()

/-- The attributes of an `InventoryValidator` after `validate`. -/
structure Result where
  id : Option Str := none
  specVersion : Str
  digestAlgorithm : Json := .str c!"sha512"
  contentDirectory : Str := c!"content"
  contentDirectorySet : Bool := false
  allVersions : List Str := []
  manifestFiles : Option (Dict Str Str) := none
  unnormalizedDigests : Option (List Str) := none
  head : Str := c!"UNKNOWN"

/-- The `manifest` part, `ocfl/inventory_validator.py` lines 168-172: `none` if there is no manifest. -/
def manifestPart (lax : Bool) (alg : Json) (cdir : Str) (inventory : Json) : V (Option MState) := do
  if ← lift (inventory.pyIn c!"manifest") then
    let m ← lift (inventory.pyIndex c!"manifest")
    let s ← validateManifest lax alg cdir m
    ret (some s)
  else
    err c!"E041a"
    ret none

/-- The `versions` part, `ocfl/inventory_validator.py` lines 173-178: the versions and the digests
used. -/
def versionsPart (isWord : Char → Bool) (lax : Bool) (alg : Json) (unnorm : Option (List Str)) (inventory : Json) :
    V (List Str × List Str) := do
  if ← lift (inventory.pyIn c!"versions") then
    let vs ← lift (inventory.pyIndex c!"versions")
    let av ← validateVersionSequence vs
    let used ← validateVersions isWord lax alg unnorm vs av
    ret (av, used)
  else
    err c!"E041b"
    ret ([], [])

/-- The check of `head` against the last version. -/
def checkHead (allVersions : List Str) (h : Json) : V Unit :=
  if h.str? ≠ allVersions.getLast? then err c!"E040" else ret ()

/-- The `head` part, `ocfl/inventory_validator.py` lines 179-184: the new value of `self.head`. -/
def headPart (allVersions : List Str) (inventory : Json) : V Str := do
  if ← lift (inventory.pyIn c!"head") then
    if allVersions.length > 0 then
      let h ← lift (inventory.pyIndex c!"head")
      checkHead allVersions h
      ret (allVersions.getLast?.getD c!"UNKNOWN")
    else ret c!"UNKNOWN"
  else
    err c!"E036d"
    ret c!"UNKNOWN"

/-- The checks of the manifest against the versions, `ocfl/inventory_validator.py` lines 194-198. -/
def crossPart (man : Option MState) (allVersions used : List Str) : V Unit :=
  match man with
  | none => ret ()
  | some s => do
    checkPathVersions s.correct allVersions
    checkDigestsUsed s.files used

/-- The `fixity` part, `ocfl/inventory_validator.py` lines 199-200. -/
def fixityPart (lax : Bool) (spec : Str) (manifestFiles : Option (Dict Str Str)) (inventory : Json) : V Unit := do
  if ← lift (inventory.pyIn c!"fixity") then
    let fx ← lift (inventory.pyIndex c!"fixity")
    validateFixity lax spec manifestFiles fx
  else ret ()

/-- The part of `validate` after the `contentDirectory`, `ocfl/inventory_validator.py` lines 168-201:
the attributes, and whether the end was reached (`false`: the early `return False`). -/
def validateRest (isWord : Char → Bool) (lax : Bool) (id : Option Str) (spec : Str) (alg : Json) (cd : Option Str)
    (inventory : Json) : V (Result × Bool) := do
  let man ← manifestPart lax alg (cd.getD c!"content") inventory
  let vu ← versionsPart isWord lax alg (man.map MState.unnorm) inventory
  let head ← headPart vu.1 inventory
  let res : Result := {
    id := id, specVersion := spec, digestAlgorithm := alg, contentDirectory := cd.getD c!"content",
    contentDirectorySet := cd.isSome, allVersions := vu.1,
    manifestFiles := man.map MState.files, unnormalizedDigests := man.map MState.unnorm, head := head }
  if vu.1.length = 0 then ret (res, false)
  else do
    crossPart man vu.1 vu.2
    fixityPart lax spec (man.map MState.files) inventory
    ret (res, true)

/-- The part of `validate` before the verdict, `ocfl/inventory_validator.py` lines 113-201: the
attributes, and whether the end was reached (`false`: one of the two early `return False`). -/
def validateBody (isWord : Char → Bool) (lax : Bool) (defaultSpec : Str) (force : Option Str) (inventory : Json) :
    V (Result × Bool) := do
  let id ← checkId inventory
  let spec ← checkType force (force.getD defaultSpec) inventory
  match ← checkDigestAlgorithm lax inventory with
  | none => ret ({ id := id, specVersion := spec }, false)
  | some alg => do
    let cd ← checkContentDirectory inventory
    validateRest isWord lax id spec alg cd inventory

/-- Number of errors in a log. -/
def numErrors (es : List Entry) : Nat := (es.filter (fun e => e.isError)).length

/-- `InventoryValidator.validate(inventory, force_spec_version)`,
`ocfl/inventory_validator.py` lines 98-202: the attributes, the returned Boolean and the log
entries. Before the early return for an empty version sequence the code adds E008 if there was no
error. -/
def validate (isWord : Char → Bool) (lax : Bool) (defaultSpec : Str) (force : Option Str) (inventory : Json) :
    Py (Result × Bool × List Entry) :=
  match validateBody isWord lax defaultSpec force inventory with
  | .raised e => .error e
  | .done (res, true) es => .ok (res, numErrors es = 0, es)
  | .done (res, false) es =>
    .ok (res, false, if res.allVersions = [] ∧ numErrors es = 0 then es ++ [⟨true, c!"E008"⟩] else es)

end IV
end Ocfl
