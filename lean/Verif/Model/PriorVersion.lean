import Verif.Model.InventoryValidator

/-!
# Model of `InventoryValidator.validate_as_prior_version`
-/

namespace Ocfl
namespace IV
open V

/-- The value of `for x in j` where the code expects a list of paths. Simplification: Python also
iterates over the characters of a string and the keys of a dict, here that is a `TypeError`, as is a
list element that is not a string. -/
def strings (j : Json) : Py (List Str) :=
  match j with
  | .arr l => l.mapM (fun x => match x with
    | .str s => .ok s
    | _ => .error .typeError)
  | _ => .error .typeError

/-- One digest of the state, `ocfl/inventory_validator.py` lines 48-50. -/
def addDigest (manifest : Json) (fileMap : Dict Str (List Str)) (entry : Str × Json) : Py (Dict Str (List Str)) := do
  if ← manifest.pyIn entry.1 then
    let files ← strings entry.2
    let content ← (manifest.pyIndex entry.1).bind strings
    .ok (files.foldl (fun fm f => Dict.set fm f content) fileMap)
  else .ok fileMap

/-- `inventory["versions"][version]["state"]` -/
def stateBlock (inventory : Json) (version : Str) : Py Json :=
  ((inventory.pyIndex c!"versions").bind (Json.pyIndex version)).bind (Json.pyIndex c!"state")

/-- `_get_logical_path_map(inventory, version)`, `ocfl/inventory_validator.py` lines 36-51. A set of
content files is a list. Simplification: a state that is not an object is a `TypeError` (see
`strings`). -/
def logicalPathMap (inventory : Json) (version : Str) : Py (Dict Str (List Str)) := do
  let state ← stateBlock inventory version
  let manifest ← inventory.pyIndex c!"manifest"
  match state with
  | .obj st => st.foldlM (addDigest manifest) []
  | _ => .error .typeError

/-- `_compare_states_for_version(prior, version)`, `ocfl/inventory_validator.py` lines 577-600. The
code goes through a set; the order only affects the order of log entries. -/
def compareStates (self prior : Json) (version : Str) : V Unit := do
  match ← lift (stateBlock self version), ← lift (stateBlock prior version) with
  | .obj s, .obj p =>
    forM (fun _ d => if !Dict.has p d then err c!"E066d" else if !Dict.has s d then err c!"E066e" else ret ())
      (Dict.keys s ++ Dict.keys p) ()
  | _, _ => raise .attributeError

/-- The comparison of the two maps, `ocfl/inventory_validator.py` lines 231-245. -/
def compareMaps (priorMap selfMap : Dict Str (List Str)) : V Unit :=
  let onlyPrior := (Dict.keys priorMap).filter (fun k => !Dict.has selfMap k)
  let onlySelf := (Dict.keys selfMap).filter (fun k => !Dict.has priorMap k)
  if onlyPrior ≠ [] ∨ onlySelf ≠ [] then do
    if onlyPrior ≠ [] then err c!"E066b" else ret ()
    if onlySelf ≠ [] then err c!"E066b" else ret ()
  else
    forM (fun _ e => if e.2.all (fun c => c ∈ (Dict.get? selfMap e.1).getD []) then ret () else err c!"E066c") priorMap ()

/-- The comparison of metadata, `ocfl/inventory_validator.py` lines 246-251, `same` being Python's
`==` on optional JSON values. -/
def compareMetadata (same : Option Json → Option Json → Bool) (self prior : Json) (version : Str) : V Unit := do
  match ← lift ((prior.pyIndex c!"versions").bind (Json.pyIndex version)),
      ← lift ((self.pyIndex c!"versions").bind (Json.pyIndex version)) with
  | .obj p, .obj s =>
    forM (fun _ k => if same (Dict.get? p k) (Dict.get? s k) then ret () else warn c!"W011")
      [c!"created", c!"message", c!"user"] ()
  | _, _ => raise .attributeError

/-- The comparison of state blocks if the digest algorithms are the same,
`ocfl/inventory_validator.py` lines 222-225. -/
def compareStatesIf (c : Bool) (self prior : Json) (version : Str) : V Unit :=
  if c then compareStates self prior version else ret ()

/-- One version, `ocfl/inventory_validator.py` lines 221-251. -/
def priorStep (same : Option Json → Option Json → Bool) (self : Json × Result) (prior : Json × Result)
    (version : Str) : V Unit := do
  compareStatesIf (same (some prior.2.digestAlgorithm) (some self.2.digestAlgorithm)) self.1 prior.1 version
  let priorMap ← lift (logicalPathMap prior.1 version)
  let selfMap ← lift (logicalPathMap self.1 version)
  compareMaps priorMap selfMap
  compareMetadata same self.1 prior.1 version

/-- The part of `validate_as_prior_version` before the verdict. A validator is its inventory and the
attributes set by `validate`. -/
def priorBody (same : Option Json → Option Json → Bool) (self : Json × Result) (prior : Json × Result) : V Unit :=
  let strict := prior.2.allVersions.all (fun v => v ∈ self.2.allVersions) &&
    self.2.allVersions.any (fun v => v ∉ prior.2.allVersions)
  if !strict then err c!"E066a"
  else forM (fun _ v => priorStep same self prior v) prior.2.allVersions ()

/-- `validate_as_prior_version(prior)`, `ocfl/inventory_validator.py` lines 204-254. -/
def validateAsPriorVersion (same : Option Json → Option Json → Bool) (self : Json × Result) (prior : Json × Result) :
    Py (Bool × List Entry) :=
  match priorBody same self prior with
  | .raised e => .error e
  | .done _ es => .ok (numErrors es = 0, es)

end IV
end Ocfl
