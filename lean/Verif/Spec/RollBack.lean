import Verif.Spec.ValidObject

/-!
# Going back to an earlier version of an object
-/

namespace Ocfl.Spec
open Ocfl

/-- The content files of an object in `base` with the version directories `names` and the content directory `cd`. -/
def FilesOf (s : FS) (base : Path) (names : List Str) (cd p : Str) : Prop :=
  ∃ v ws b, v ∈ names ∧ ws ≠ [] ∧ p = pathOf (v :: cd :: ws) ∧ FS.look s (base ++ v :: cd :: ws) = some (.file b)

/-- In `s'` the object that is in the directory `base` in `s` has been taken back to the version `v`: inventory and sidecar of that version have
been copied to the object root, the directories of later versions are gone, and the declaration is that of the version `spec` of the
specification, which the inventory names. `alg` is its digest algorithm, `names` are its versions. -/
structure RolledBack (s s' : FS) (base : Path) (v spec alg : Str) (names : List Str) : Prop where
  root : FS.look s' base = some .dir
  declaration : FS.look s' (base ++ [c!"0=ocfl_object_" ++ spec]) = some (.file (utf8 (c!"ocfl_object_" ++ spec ++ c!"\n")))
  inventory : FS.look s' (base ++ [c!"inventory.json"]) = FS.look s (base ++ [v, c!"inventory.json"])
  sidecar : FS.look s' (base ++ [c!"inventory.json." ++ alg]) = FS.look s (base ++ [v, c!"inventory.json." ++ alg])
  versions : ∀ w ∈ names, ∀ ws, FS.look s' (base ++ w :: ws) = FS.look s (base ++ w :: ws)
  /-- Of the rest, only logs and extensions may still be there. -/
  rest : ∀ w ws, FS.look s' (base ++ w :: ws) ≠ none → w = c!"0=ocfl_object_" ++ spec ∨ w = c!"inventory.json" ∨
    w = c!"inventory.json." ++ alg ∨ w ∈ names ∨
    ((w = c!"logs" ∨ w = c!"extensions") ∧ FS.look s' (base ++ w :: ws) = FS.look s (base ++ w :: ws))

/-- What the rules that validation enforces leave open about the inventory `j` of an earlier version, beside the root inventory `j0`: the
inventories up to it are those of the versions in whose directories they are, they use the algorithm `alg` of `j0`, the manifest lists the content
files of its versions and no others, and the content directory is given only if `j0` gives it. -/
structure OwnHistory (E : Env) (s : FS) (base : Path) (j0 j : Json) (alg : Str) (names : List Str) : Prop where
  heads : ∀ w ∈ names, ∀ j', StoredJson E.lib s (base ++ [w, c!"inventory.json"]) j' → Member j' c!"head" (.str w)
  algorithm : ∀ w ∈ names, ∀ j', StoredJson E.lib s (base ++ [w, c!"inventory.json"]) j' → InventoryAlg j' alg
  content : ∀ cd m, ContentDir j cd → Member j c!"manifest" (ofDigestMap m) → ∀ p, p ∈ listed m ↔ FilesOf s base names cd p
  contentDirectory : (∃ x, Member j c!"contentDirectory" x) → ∃ x, Member j0 c!"contentDirectory" x

end Ocfl.Spec
