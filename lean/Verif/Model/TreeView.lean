import Verif.Model.Object

/-!
# Model of `Object.tree`
-/

namespace Ocfl
namespace TreeView

/-- `validator.spec_version` and `validator.content_directory` after `validate_object`, `ocfl/validator.py` lines 88-182, if it did
not raise: they are set when the declaration and the root inventory have been read. -/
def validatorSees (E : Env) (cfg : Validator.Config) (s : FS) (base : Path) : Str × Str :=
  match findNamastes s base 0 [] 10 with
  | .error _ => (c!"1.1", c!"content")
  | .ok tvalues =>
    match Validator.checkDeclaration E cfg s base tvalues with
    | .done spec _ =>
      match Validator.validateFirst E cfg s base tvalues with
      | .done (some (_, jr)) _ => (spec, jr.2.contentDirectory)
      | _ => (spec, c!"content")
    | _ => (c!"1.1", c!"content")

/-- The number of files that `walk(path)` of the file system library gives, `ocfl/object.py` lines 589-591: all files below
a directory; a file itself counts as one. -/
def countFiles (s : FS) (p : Path) : Nat :=
  (s.filter (fun e => p.isPrefixOf e.1 && (match e.2 with | .file _ => true | .dir => false))).length

/-- The decimal digits of a number, `"%d" % n`. -/
def decimal (n : Nat) : Str := natStr n

/-- The line of an entry in a version directory, `ocfl/object.py` lines 580-595. `seen_v_sidecar` never becomes true. -/
def versionNote (s : FS) (base : Path) (contentDirectory entry vEntry : Str) : Str :=
  if vEntry = inventoryFilename then vEntry ++ c!" "
  else if startsWith vEntry (inventoryFilename ++ c!".") then vEntry ++ c!" "
  else if vEntry = contentDirectory then
    vEntry ++ c!" (" ++ decimal (countFiles s (FS.resolve base (osPathJoin entry vEntry))) ++ c!" files)"
  else vEntry ++ c!" <--- ???"

/-- One entry of the object root, `ocfl/object.py` lines 574-606: its line, those of the version directory, and
`seen_sidecar` afterwards. -/
def rootNote (s : FS) (base : Path) (contentDirectory declaration : Str) (seen : Bool) (entry : Str) : Py (Str × List Str × Bool) :=
  if Validator.looksLikeVersion entry then
    match fswListdirNames s base entry with
    | .error e => .error e
    | .ok names => .ok (entry ++ c!" ", (sortStr names).map (versionNote s base contentDirectory entry), seen)
  else if entry = declaration ∨ entry = inventoryFilename then .ok (entry ++ c!" ", [], seen)
  else if startsWith entry (inventoryFilename ++ c!".") then
    .ok (entry ++ (if seen then c!" <--- multiple inventory digests?" else c!" "), [], true)
  else .ok (entry ++ c!" <--- ???", [], seen)

/-- The loop over the entries, the same lines. -/
def rootNotes (s : FS) (base : Path) (contentDirectory declaration : Str) : Bool → List Str → Py (List (Str × List Str))
  | _, [] => .ok []
  | seen, entry :: rest =>
    match rootNote s base contentDirectory declaration seen entry with
    | .error e => .error e
    | .ok (note, vNotes, seen') =>
      match rootNotes s base contentDirectory declaration seen' rest with
      | .error e => .error e
      | .ok notes => .ok ((note, vNotes) :: notes)

/-- `_show_indent(level, last, last_v)`, `ocfl/object.py` lines 551-560. -/
def indent (level : Nat) (last lastV : Bool) : Str :=
  if level = 0 then (if last then c!"└── " else c!"├── ")
  else (if last then c!"    " else c!"│   ") ++ (if lastV then c!"└── " else c!"├── ")

/-- The lines of a version directory, `ocfl/object.py` lines 608-611. -/
def vLines (last : Bool) : List Str → Str
  | [] => []
  | [v] => indent 1 last true ++ v ++ c!"\n"
  | v :: rest => indent 1 last false ++ v ++ c!"\n" ++ vLines last rest

/-- The lines of the object, `ocfl/object.py` lines 606-611. -/
def lines : List (Str × List Str) → Str
  | [] => []
  | [(note, vs)] => indent 0 true false ++ note ++ c!"\n" ++ vLines true vs
  | (note, vs) :: rest => indent 0 false false ++ note ++ c!"\n" ++ vLines false vs ++ lines rest

/-- The notes of `tree(objdir)`, `ocfl/object.py` lines 562-606. -/
def notes (E : Env) (lax : Bool) (objdir : Str) (s : FS) : Py (List (Str × List Str)) :=
  match Validator.validateObject E { checkDigests := false, lax := lax } 0 s objdir with
  | .error e => .error e
  | .ok _ =>
    match openObj E objdir s with
    | .error e => .error e
    | .ok base =>
      match fswListdirNames s base [] with
      | .error e => .error e
      | .ok names =>
        rootNotes s base (validatorSees E { checkDigests := false, lax := lax } s base).2
          (c!"0=ocfl_object_" ++ (validatorSees E { checkDigests := false, lax := lax } s base).1) false (sortStr names)

/-- `tree(objdir)`, `ocfl/object.py` lines 542-616. -/
def tree (E : Env) (lax : Bool) (objdir : Str) (s : FS) : Py Str :=
  match notes E lax objdir s with
  | .error e => .error e
  | .ok ns => .ok (c!"[" ++ objdir ++ c!"]\n" ++ lines ns)

end TreeView
end Ocfl
