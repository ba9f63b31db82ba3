import Verif.Model.StorageRoot

/-!
# The log and the list of errors of `StorageRoot.validate`

`Verif.Model.StorageRoot` has the result and the counts. This module has what `validate` leaves in `log` and in `errors`. An entry
of the log is its code and the argument that says where (`path`, `entry` or `root`).
-/

namespace Ocfl
namespace Store

/-- The code of the error for the layout file, `ocfl/storage_root.py` lines 257-260 and 283-293. -/
def layoutCode (E : Env) (reg : Dict Str LayoutObj) (s : FS) (base : Path) : Option Str :=
  if FS.exists_ s (FS.resolve base layoutFile) then
    match FS.read s (FS.resolve base layoutFile) with
    | .error _ => some c!"E070a"
    | .ok b =>
      match E.lib.loadb b with
      | none => some c!"E070a"
      | some (.obj d) =>
        match Dict.get? d c!"extension", Dict.get? d c!"description" with
        | some (.str name), some (.str _) => if layoutIsSupported reg name then none else some c!"E071"
        | _, _ => some c!"E070c"
      | some _ => some c!"E070b"
  else none

/-- The code of the `StorageRootException` that `check_root_structure()` raises, `ocfl/storage_root.py` lines 234-269; `none` if it
raises none, or something else. -/
def structureCode (E : Env) (reg : Dict Str LayoutObj) (s : FS) (base : Path) (want : Option Str) : Option Str :=
  match findNamastes s base 0 [] 10 with
  | .error _ => none
  | .ok [] => some c!"E069a"
  | .ok [tvalue] =>
    match declaredVersion tvalue with
    | none => some c!"E069c"
    | some v =>
      if want ≠ none ∧ want ≠ some v then some c!"E069c"
      else
        match namasteContentOk E.isWord s base 0 tvalue [] with
        | .error _ => none
        | .ok false => some c!"E069e"
        | .ok true => layoutCode E reg s base
  | .ok _ => some c!"E069b"

/-- The code of the error for a directory below the root, `ocfl/storage_root.py` lines 314-332. -/
def faultCode (v : Visit) : Option Str :=
  if v.dirs.length + v.files.length = 0 then some c!"E073"
  else if v.files.length = 0 then none
  else
    match v.files.filter (fun f => startsWith f c!"0=") with
    | [] => some c!"E072"
    | [declaration] =>
      match matchObjectDeclaration declaration with
      | some v => if v ∈ specVersionsSupported then none else some c!"E004a"
      | none => some c!"E004b"
    | _ => some c!"E003d"

/-- What `validate_extensions_dir()` logs for the entries, `ocfl/storage_root.py` lines 350-356. -/
def extensionLog (E : Env) : List (Str × Bool) → Py (List (Str × Str))
  | [] => .ok []
  | (name, true) :: rest =>
    match relpath E.cwd name c!"extensions" with
    | .error e => .error e
    | .ok ext =>
      match extensionLog E rest with
      | .error e => .error e
      | .ok l => .ok (if ext ∉ registeredExtensions then (c!"W901", name) :: l else l)
  | (name, false) :: rest =>
    match extensionLog E rest with
    | .error e => .error e
    | .ok l => .ok ((c!"E086", name) :: l)

/-- What `object_paths()` logs when it is consumed to the end, `ocfl/storage_root.py` lines 295-339. The root is visited first. -/
def traversalLog (E : Env) (s : FS) (base : Path) : Py (List (Str × Str)) :=
  match fswWalkPruned s base pruneDirs c!"/" with
  | .error e => .error e
  | .ok visits =>
    let below := (visits.filter (fun v => v.dirpath ≠ c!"/")).filterMap (fun v => (faultCode v).map (fun c => (c, v.dirpath)))
    if visits.any (fun v => v.dirpath = c!"/" ∧ c!"extensions" ∈ v.dirs) then
      match FS.listdir s base c!"extensions" with
      | .error e => .error e
      | .ok entries =>
        match extensionLog E entries with
        | .error e => .error e
        | .ok l => .ok (l ++ below)
    else .ok below

/-- The loop of `validate_hierarchy`, `ocfl/storage_root.py` lines 396-418, with the counts and the errors so far. What is recorded of
an object is its path and those entries of its log that are shown; the text made of them (`status_str`) is empty if and only if there
are none. -/
def hierarchyLoop (E : Env) (cfg : Validator.Config) (logWarnings : Bool) (maxErrors : Int) (s : FS) (base : Path) :
    Nat → Nat → List (Str × List Entry) → List Str → Py (Nat × Nat × List (Str × List Entry))
  | num, good, errors, [] => .ok (num, good, errors)
  | num, good, errors, p :: ps =>
    match Validator.validateAt E cfg 0 s (FS.resolve base p) with
    | .error e => .error e
    | .ok (ok, entries) =>
      let shown := entries.filter (fun e => e.isError || logWarnings)
      hierarchyLoop E cfg logWarnings maxErrors s base (num + 1) (if ok then good + 1 else good)
        (if (errors.length : Int) < maxErrors ∧ shown ≠ [] then errors ++ [(p, shown)] else errors) ps

/-- What `validate` leaves behind. -/
structure FullReport where
  report : Report
  /-- `errors` -/
  errors : List (Str × List Entry)
  /-- the entries made in `log` -/
  log : List (Str × Str)
  deriving DecidableEq, Repr

/-- `validate(validate_objects, check_digests, log_warnings, max_errors)`, `ocfl/storage_root.py` lines 419-458, and
`validate_hierarchy`, lines 379-418. As for `validate`: if the structure is in error the counts and the errors are those of before; the
model has none. -/
def validateFull (E : Env) (reg : Dict Str LayoutObj) (validateObjects checkDigests logWarnings : Bool) (maxErrors : Int) (s : FS) (r : StorageRoot) :
    StorageRoot × Py FullReport :=
  let r := { r with log := true }
  match openRoot E r s with
  | .error e => (r, .error e)
  | .ok base =>
    let fault := ((structureCode E reg s base r.specVersion).getD [], r.root)
    match checkStructure E reg s base r with
    | (r, .error .storageRootException) => (r, .ok ⟨⟨false, 0, 0⟩, [], [fault]⟩)
    | (r, .error e) => (r, .error e)
    | (r, .ok _) =>
      match objectPaths E r.log s base, traversalLog E s base with
      | .error e, _ => (r, .error e)
      | _, .error e => (r, .error e)
      | .ok l, .ok log =>
        let r := { r with traversalErrors := r.traversalErrors + l.numErrors }
        if validateObjects then
          match hierarchyLoop E { checkDigests := checkDigests, lax := r.lax } logWarnings maxErrors s base 0 0 [] l.paths with
          | .error e => (r, .error e)
          | .ok (num, good, errors) => (r, .ok ⟨⟨r.traversalErrors = 0, num, good⟩, errors, log⟩)
        else (r, .ok ⟨⟨r.traversalErrors = 0, 0, 0⟩, [], log⟩)

end Store
end Ocfl
