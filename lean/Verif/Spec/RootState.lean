import Verif.Model.RootState
import Verif.Spec.StorageLog
import Verif.Spec.FS

/-!
# What it means that the calls on a `StorageRoot` do not influence each other
-/

namespace Ocfl.Spec
open Ocfl Store

/-- Calls, each on a new `StorageRoot` that was made with the same arguments. -/
def freshRootCalls (E : Env) (reg : Dict Str LayoutObj) (enc : Str → Str) (r : StorageRoot) (calls : List (RootCall × FS)) :
    List (FS × RootReply) :=
  calls.map (fun c => ((c.1.exec E reg enc r c.2).1, (c.1.exec E reg enc r c.2).2.2))

/-- The layout of a storage root, with its parameters; `none` if no layout is given. -/
inductive LayoutIs (E : Env) (reg : Dict Str LayoutObj) (s : FS) (root : Path) : Option LayoutObj → Prop
  | none : FS.look s (root ++ [c!"ocfl_layout.json"]) = none → LayoutIs E reg s root none
  | default {b : Bytes} {d : Dict Str Json} {name desc : Str} {l : LayoutObj} : FS.look s (root ++ [c!"ocfl_layout.json"]) = some (.file b) →
      E.lib.loadb b = some (.obj d) → Dict.get? d c!"extension" = some (.str name) → Dict.get? d c!"description" = some (.str desc) →
      Dict.get? reg name = some l → FS.look s (root ++ [c!"extensions", l.name, c!"config.json"]) = Option.none → LayoutIs E reg s root (some l)
  | configured {b c : Bytes} {d config : Dict Str Json} {name desc : Str} {l l' : LayoutObj} :
      FS.look s (root ++ [c!"ocfl_layout.json"]) = some (.file b) → E.lib.loadb b = some (.obj d) →
      Dict.get? d c!"extension" = some (.str name) → Dict.get? d c!"description" = some (.str desc) → Dict.get? reg name = some l →
      FS.look s (root ++ [c!"extensions", l.name, c!"config.json"]) = some (.file c) → E.lib.loadb c = some (.obj config) →
      Dict.get? config c!"extensionName" = some (.str l.name) → Configures E.raw config l l' → LayoutIs E reg s root (some l')

/-- A storage root of version `v` with the layout `lay`, in which nothing is to be remarked on. -/
structure Orderly (E : Env) (reg : Dict Str LayoutObj) (root : Path) (v : Str) (lay : Option LayoutObj) (s : FS) : Prop where
  wf : s.WF
  dir : FS.look s root = some .dir
  declared : RootDeclared E s root v
  layout : LayoutIs E reg s root lay
  quiet : ∀ line, ¬ Remark s root line

end Ocfl.Spec
