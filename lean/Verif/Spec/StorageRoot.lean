import Verif.Spec.ValidObject
import Verif.Spec.LayoutConfig

/-!
# Specification: where the objects of a storage root are
-/

namespace Ocfl.Spec
open Ocfl

/-- There is a file in the directory. -/
def FileBearing (s : FS) (p : Path) : Prop := ∃ w b, FS.look s (p ++ [w]) = some (.file b)

/-- There is nothing in the directory. -/
def EmptyDir (s : FS) (p : Path) : Prop := ∀ w, FS.look s (p ++ [w]) = none

/-- A directory below the root that is not in the extensions directory and has no file-bearing
directory between itself and the root. -/
structure Reached (s : FS) (root : Path) (ws : List Str) : Prop where
  below : ws ≠ []
  dir : FS.look s (root ++ ws) = some .dir
  notExtension : ws.head? ≠ some c!"extensions"
  noFiles : ∀ a b, ws = a ++ b → a ≠ [] → b ≠ [] → ¬ FileBearing s (root ++ a)

/-- The directory has one declaration, and it is that of an object of a supported version. -/
def ObjectDir (s : FS) (p : Path) : Prop :=
  ∃ v ∈ supported, (∃ b, FS.look s (p ++ [c!"0=ocfl_object_" ++ v]) = some (.file b)) ∧
    ∀ t b, FS.look s (p ++ [c!"0=" ++ t]) = some (.file b) → t = c!"ocfl_object_" ++ v

/-- The same, but the name of the declaration may go on after the version, with anything but a digit. -/
def LooseObjectDir (s : FS) (p : Path) : Prop :=
  ∃ v ∈ supported, ∃ rest, (∀ c ∈ rest.head?, isDigit c = false) ∧
    (∃ b, FS.look s (p ++ [c!"0=ocfl_object_" ++ v ++ rest]) = some (.file b)) ∧
    ∀ t b, FS.look s (p ++ [c!"0=" ++ t]) = some (.file b) → t = c!"ocfl_object_" ++ v ++ rest

/-- The directory has the declaration of a storage root of version `v`, and no other. -/
structure RootDeclared (E : Env) (s : FS) (root : Path) (v : Str) : Prop where
  supported : v ∈ Spec.supported
  declaration : ∃ b t, FS.look s (root ++ [c!"0=ocfl_" ++ v]) = some (.file b) ∧ utf8Decode b = some t ∧
    IsTvalue E.isWord (univNewlines t) (c!"ocfl_" ++ v)
  one : ∀ t, FS.look s (root ++ [c!"0=" ++ t]) ≠ none → t = c!"ocfl_" ++ v

/-- The parameters of the layout `l` in a storage root, if there are any, are allowed. -/
def RootParams (E : Env) (s : FS) (root : Path) (l : LayoutObj) : Prop :=
  FS.look s (root ++ [c!"extensions", l.name, c!"config.json"]) = none ∨
  ∃ b config l', FS.look s (root ++ [c!"extensions", l.name, c!"config.json"]) = some (.file b) ∧
    E.lib.loadb b = some (.obj config) ∧ Dict.get? config c!"extensionName" = some (.str l.name) ∧ Configures E.raw config l l'

/-- The layout of a storage root, if it has any, is one that is known, with allowed parameters. -/
def RootLayout (E : Env) (reg : Dict Str LayoutObj) (s : FS) (root : Path) : Prop :=
  FS.look s (root ++ [c!"ocfl_layout.json"]) = none ∨
  ∃ b d name desc l, FS.look s (root ++ [c!"ocfl_layout.json"]) = some (.file b) ∧ E.lib.loadb b = some (.obj d) ∧
    Dict.get? d c!"extension" = some (.str name) ∧ Dict.get? d c!"description" = some (.str desc) ∧
    Dict.get? reg name = some l ∧ RootParams E s root l

end Ocfl.Spec
