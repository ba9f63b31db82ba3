import Verif.Model.Bagger
import Verif.Model.TreeView

/-!
# Model of `ocfl-object.py`

The arguments are those that `argparse` gives. Options that change the log only are left out, and so is `--skip`, which the
command does not use. What is printed is given as a value.
-/

namespace Ocfl
namespace ObjectCli

/-- The arguments that all commands take, `ocfl-object.py` lines 22-41 and `ocfl/command_line_utils.py` lines 57-76, with their
defaults. -/
structure Common where
  id : Option Str := none
  specVersion : Str := c!"1.1"
  digest : Str := c!"sha512"
  fixity : Option (List Str) := none
  normalization : Option Str := none
  noForwardDelta : Bool := false
  noDedupe : Bool := false
  laxDigests : Bool := false
  deriving DecidableEq, Repr

/-- The arguments about a version, `ocfl/command_line_utils.py` lines 40-54. -/
structure About where
  created : Option Str := none
  message : Option Str := none
  name : Option Str := none
  address : Option Str := none
  deriving DecidableEq, Repr

/-- The commands, `ocfl-object.py` lines 44-121. -/
inductive Command where
  | create (objdir : Option Str) (about : About) (srcdir srcbag : Option Str)
  | build (objdir srcdir metadata : Option Str)
  | update (objdir : Str) (about : About) (srcdir srcbag : Option Str)
  | show_ (objdir : Str)
  | validate (objdir : Str)
  | extract (objdir : Str) (objver : Str := c!"head") (dstdir : Str := c!"/tmp/ocfl-out") (dstbag : Option Str := none)
      (setBaggingDate : Bool := false) (logicalPath : Option Str := none)
  deriving DecidableEq, Repr

/-- What a command prints. -/
inductive Output where
  | nothing
  /-- the inventory -/
  | inventory (inv : Inv)
  /-- `Updated object ... to ...` -/
  | updated (id head : Option Str)
  /-- `Object tree ...` -/
  | tree (id : Option Str) (text : Str)
  /-- `OCFL ... Object at ... is VALID`, or `INVALID` -/
  | verdict (valid : Bool)
  /-- `Extracted ... in ... to ...`, or `Extracted content for ...` -/
  | extracted (version : Option Str)
  deriving DecidableEq

/-- The `Object`, `ocfl-object.py` lines 132-139. -/
def object (c : Common) : Obj where
  id := c.id
  specVersion := c.specVersion
  digestAlgorithm := c.digest
  norm := c.normalization
  forwardDelta := !c.noForwardDelta
  dedupe := !c.noDedupe
  lax := c.laxDigests
  fixity := c.fixity

/-- The `VersionMetadata`, `ocfl-object.py` lines 142-145 and 178-181. -/
def metadata (a : About) : VMeta := { created := a.created, message := a.message, name := a.name, address := a.address }

/-- `print_inventory(inventory)` if there is no object directory, `ocfl-object.py` lines 124-127, 158-159 and 174-175; without an
inventory it raises `AttributeError`. -/
def printInventory (objdir : Option Str) (inv : Option Inv) : Py Output :=
  match objdir, inv with
  | some _, _ => .ok .nothing
  | none, some inv => .ok (.inventory inv)
  | none, none => .error .attributeError

/-- The blocks of the versions in the order of their directories, `ocfl-object.py` lines 166-169: a later directory with the same number
replaces an earlier one. -/
def blocksOf (now : Str) (inv : Inv) : List Str → (Nat → VBlock) → Py (Nat → VBlock)
  | [], f => .ok f
  | vdir :: rest, f =>
    match parseVersionDirectory vdir, versionMetadata inv vdir with
    | .error e, _ => .error e
    | _, .error e => .error e
    | .ok n, .ok m => blocksOf now inv rest (fun k => if k = n then m.asDict now else f k)

/-- The metadata of the versions to build, `ocfl-object.py` lines 163-169, and `ocfl/object.py` lines 214-216. Simplification:
what has another type in the file than in an inventory is as if it were not there. -/
def blocks (E : Env) (now : Str) (path : Option Str) (s : FS) : Py (Nat → VBlock) :=
  match path with
  | none => .ok (fun _ => ({} : VMeta).asDict now)
  | some path =>
    match readText s (absComps E.cwd path) with
    | .error e => .error e
    | .ok text =>
      match E.lib.loads text with
      | none => .error .jsonDecodeError
      | some (.obj d) =>
        match (Inv.ofJson (.obj d)).versionDirectories with
        | .error e => .error e
        | .ok vdirs => blocksOf now (Inv.ofJson (.obj d)) vdirs (fun _ => ({} : VMeta).asDict now)
      | some _ => .error .attributeError

/-- What a command prints when it succeeded. -/
def andPrint {α : Type} (f : α → Py Output) : FS × Py α → FS × Py Output
  | (s, .error e) => (s, .error e)
  | (s, .ok a) => (s, f a)

/-- `create`, `ocfl-object.py` lines 140-159. `FatalError` is a plain exception here. -/
def doCreate (B : Bagit) (E : Env) (now : Str) (c : Common) (objdir : Option Str) (a : About) (srcdir srcbag : Option Str) (s : FS) :
    FS × Py Output :=
  andPrint (fun inv => printInventory objdir (some inv))
    (match srcbag, srcdir with
    | some bag, _ => Bagger.createFromBag B E now (object c) (metadata a) bag objdir s
    | none, none => (s, .error .exception)
    | none, some srcdir => Prog.run (create E (object c) srcdir (some ((metadata a).asDict now)) objdir) s)

/-- `build`, `ocfl-object.py` lines 160-175. -/
def doBuild (E : Env) (now : Str) (c : Common) (objdir srcdir metadata : Option Str) (s : FS) : FS × Py Output :=
  match srcdir with
  | none => (s, .error .exception)
  | some srcdir =>
    match blocks E now metadata s with
    | .error e => (s, .error e)
    | .ok bs => andPrint (printInventory objdir) (Prog.run (build E (object c) srcdir bs objdir) s)

/-- `update`, `ocfl-object.py` lines 176-189. -/
def doUpdate (B : Bagit) (E : Env) (now : Str) (c : Common) (objdir : Str) (a : About) (srcdir srcbag : Option Str) (s : FS) :
    FS × Py Output :=
  andPrint (fun inv =>
      match inv with
      | none => .error .attributeError
      | some inv => .ok (.updated inv.id inv.head))
    (match srcbag, srcdir with
    | some bag, _ => Bagger.updateFromBag B E now (object c) (metadata a) bag objdir s
    | none, none => (s, .error .exception)
    | none, some srcdir => Prog.run (addVersionWithContent E (object c) objdir (some srcdir) (some ((metadata a).asDict now)) false) s)

/-- `extract`, `ocfl-object.py` lines 195-215. An empty argument is as if it were not given; without any destination
`os.path.normpath(None)` raises `TypeError`. -/
def doExtract (B : Bagit) (E : Env) (objdir objver dstdir : Str) (dstbag : Option Str) (setBaggingDate : Bool) (logicalPath : Option Str)
    (s : FS) : FS × Py Output :=
  andPrint (fun m => .ok (.extracted m.version))
    (if Bagger.isSet logicalPath then
      if Bagger.isSet dstbag then (s, .error .exception)
      else Prog.run (extractFile E objdir objver dstdir (logicalPath.getD [])) s
    else if Bagger.isSet dstbag then Bagger.exportBag B E objdir objver (dstbag.getD []) setBaggingDate s
    else if dstdir = [] then
      (s, match extractSetup E objdir objver s with
        | .error e => .error e
        | .ok _ => .error .typeError)
    else Prog.run (extract E objdir objver dstdir) s)

/-- `do_object_operation(args)`, `ocfl-object.py` lines 130-217, with `validate_object`, `ocfl/command_line_utils.py` lines 110-135; `now` is
the time at which the command runs. -/
def doObjectOperation (B : Bagit) (E : Env) (now : Str) (c : Common) (cmd : Command) (s : FS) : FS × Py Output :=
  match cmd with
  | .create objdir a srcdir srcbag => doCreate B E now c objdir a srcdir srcbag s
  | .build objdir srcdir metadata => doBuild E now c objdir srcdir metadata s
  | .update objdir a srcdir srcbag => doUpdate B E now c objdir a srcdir srcbag s
  | .show_ objdir =>
    (s, match TreeView.tree E c.laxDigests objdir s with
      | .error e => .error e
      | .ok t => .ok (.tree c.id t))
  | .validate objdir =>
    (s, match Validator.validateObject E { lax := c.laxDigests } 0 s objdir with
      | .error e => .error e
      | .ok (passed, _) => .ok (.verdict passed))
  | .extract objdir objver dstdir dstbag setDate logicalPath => doExtract B E objdir objver dstdir dstbag setDate logicalPath s

/-- The exit status, `ocfl-object.py` lines 220-226: any exception makes it 1. -/
def exitStatus (r : FS × Py Output) : Nat :=
  match r.2 with
  | .ok _ => 0
  | .error _ => 1

end ObjectCli
end Ocfl
