import Verif.Model.JsonLib
import Verif.Spec.PriorVersion

/-!
# Specification: what an object in a directory says
-/

namespace Ocfl.Spec
open Ocfl

/-- The file at `p` holds the JSON document `j`. Text is read as Python reads it. -/
def StoredJson (lib : JsonLib) (s : FS) (p : Path) (j : Json) : Prop :=
  ∃ b t, FS.look s p = some (.file b) ∧ utf8Decode b = some t ∧ lib.loads (univNewlines t) = some j

/-- The content paths in the manifest of the inventory at `p` are relative paths. -/
def PlainContent (lib : JsonLib) (s : FS) (p : Path) : Prop :=
  ∀ j m c, StoredJson lib s p j → Member j c!"manifest" (ofDigestMap m) → c ∈ listed m → ∃ ws, LogicalPath ws c

/-- `version` asks for the version `v` of the inventory: its name, or `head`. -/
def Selects (inv : Json) (vs : List (Str × Json)) (version v : Str) : Prop :=
  v ∈ vs.map Prod.fst ∧ (version = v ∨ (version = c!"head" ∧ Member inv c!"head" (.str v)))

/-- There is nothing at `d`, or an empty directory. -/
def Vacant (s : FS) (d : Path) : Prop :=
  (FS.look s d = none ∨ FS.look s d = some .dir) ∧ ∀ r, r ≠ [] → FS.look s (d ++ r) = none

/-- What an extraction has done when it succeeds. -/
structure Extracted (s s' : FS) (base dst : Path) (m st : List (Str × List Str)) : Prop where
  root : FS.look s' dst = some .dir
  untouched : ∀ q, ¬ dst <+: q → FS.look s' q = FS.look s q
  files : ∀ r b, FS.look s' (dst ++ r) = some (.file b) →
    ∃ ws, Resolves m st (pathOf r) (pathOf ws) ∧ FS.look s (base ++ ws) = some (.file b)
  complete : ∀ p ∈ listed st, ∃ r b, p = pathOf r ∧ FS.look s' (dst ++ r) = some (.file b)
  dirs : ∀ r, FS.look s' (dst ++ r) = some .dir → r = [] ∨ ∃ t, t ≠ [] ∧ pathOf (r ++ t) ∈ listed st

end Ocfl.Spec
