import Verif.Model.Layout
import Verif.Model.JsonLib

/-!
# Model of reading and writing layout parameters, `ocfl/layout.py`
-/

namespace Ocfl
namespace LayoutObj

/-- `os.path.dirname(self.config_file)` -/
def configDir (l : LayoutObj) : Str := osPathJoin c!"extensions" l.name

/-- `config_file`, `ocfl/layout.py` lines 60-63. -/
def configFile (l : LayoutObj) : Str := osPathJoin l.configDir c!"config.json"

/-- `read_layout_params(root_fs, params_required)`, `ocfl/layout.py` lines 151-179: the layout
object after the call. -/
def readParams (lib : JsonLib) (raw : Str → Bytes → Str) (s : FS) (root : Path) (required : Bool) (l : LayoutObj) :
    Py LayoutObj :=
  if FS.exists_ s (FS.resolve root l.configFile) then
    match FS.read s (FS.resolve root l.configFile) with
    | .error _ => .error .layoutException
    | .ok b =>
      match lib.loadb b with
      | some (.obj config) => l.checkAndSet raw config true
      | _ => .error .layoutException
  else if required then .error .layoutException
  else .ok l

/-- `write_layout_params(root_fs)`, `ocfl/layout.py` lines 211-235. -/
def writeParams (lib : JsonLib) (root : Path) (l : LayoutObj) : Prog Unit :=
  match l.config with
  | none => .ret (.ok ())
  | some config =>
    Prog.get (fun s =>
      if FS.exists_ s (FS.resolve root l.configFile) then .ret (.error .layoutException)
      else Prog.handle
        (Prog.bind (FS.makedirs (FS.resolve root l.configDir) false) (fun _ =>
          FS.writeFile (FS.resolve root l.configFile) (utf8 (lib.dumps (.obj config)))))
        (fun _ => .ret (.error .layoutException)))

end LayoutObj
end Ocfl
