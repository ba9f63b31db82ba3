import Verif.Spec.ValidObject
import Verif.Spec.InventoryShape

/-!
# Specification: objects on which validation gives a verdict
-/

namespace Ocfl.Spec
open Ocfl

/-- A file with UTF-8 text. -/
def TextFile (s : FS) (p : Path) : Prop := ∃ b t, FS.look s p = some (.file b) ∧ utf8Decode b = some t

/-- A JSON document with a manifest, a state in every version block and, if there is one, a fixity block
with known algorithms, all of which map strings to lists of strings. Nothing is said about the strings
or about any other value. -/
structure WellShaped (j : Json) : Prop where
  manifest : ∃ m, Member j c!"manifest" (ofDigestMap m)
  state : ∀ vs v b, Member j c!"versions" vs → Member vs v b → ∃ st, Member b c!"state" (ofDigestMap st)
  fixity : ∀ fx, Member j c!"fixity" fx → (∃ d, fx = .obj d) ∧
    ∀ a b, Member fx a b → KnownAlg a ∧ ∃ m, b = ofDigestMap m

/-- What is assumed of the tree in `base`. It may break any number of rules for objects. -/
structure Tidy (E : Env) (s : FS) (base : Path) : Prop where
  /-- There are at most ten declarations. -/
  fewDeclarations : ∀ ts : List Str, ts.Nodup → (∀ t ∈ ts, FS.look s (base ++ [c!"0=" ++ t]) ≠ none) → ts.length ≤ 10
  /-- Those of OCFL objects are text files. -/
  declarations : ∀ v ∈ supported, FS.look s (base ++ [c!"0=ocfl_object_" ++ v]) ≠ none →
    TextFile s (base ++ [c!"0=ocfl_object_" ++ v])
  /-- The root inventory is a text file. -/
  inventory : FS.look s (base ++ [c!"inventory.json"]) ≠ none → TextFile s (base ++ [c!"inventory.json"])
  shape : ∀ j, StoredJson E.lib s (base ++ [c!"inventory.json"]) j → Shape false j
  /-- The sidecars are not directories. -/
  sidecars : ∀ dir alg, (dir = [] ∨ ∃ v, dir = [v]) → FS.look s (base ++ dir ++ [c!"inventory.json." ++ alg]) ≠ some .dir
  /-- Other inventories are text files. -/
  others : ∀ v, FS.look s (base ++ [v, c!"inventory.json"]) ≠ none → TextFile s (base ++ [v, c!"inventory.json"])
  /-- If there are any, all inventories are well shaped. -/
  shapes : ∀ v j', StoredJson E.lib s (base ++ [v, c!"inventory.json"]) j' →
    WellShaped j' ∧ ∀ j, StoredJson E.lib s (base ++ [c!"inventory.json"]) j → WellShaped j

end Ocfl.Spec
