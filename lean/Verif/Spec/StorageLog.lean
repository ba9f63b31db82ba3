import Verif.Spec.StorageRoot

/-!
# Specification: what is wrong with a storage root, and which code stands for it
-/

namespace Ocfl.Spec
open Ocfl

/-- The name is that of the declaration of an object of version `v`, perhaps with something after it. -/
def NamesVersion (f v : Str) : Prop :=
  ∃ a b rest, a ≠ [] ∧ b ≠ [] ∧ (∀ c ∈ a, isDigit c = true) ∧ (∀ c ∈ b, isDigit c = true) ∧
    (∀ c ∈ rest.head?, isDigit c = false) ∧ f = c!"0=ocfl_object_" ++ (a ++ '.' :: b) ++ rest ∧ v = a ++ '.' :: b

/-- A file in the directory whose name begins with `0=`. -/
def DeclarationIn (s : FS) (p : Path) (f : Str) : Prop := (∃ t, f = c!"0=" ++ t) ∧ ∃ b, FS.look s (p ++ [f]) = some (.file b)

/-- What is wrong with a directory in the hierarchy of a storage root. -/
inductive DirFault (s : FS) (p : Path) : Str → Prop
  | empty : EmptyDir s p → DirFault s p c!"E073"
  | undeclared : FileBearing s p → (∀ f, ¬ DeclarationIn s p f) → DirFault s p c!"E072"
  | several {f g : Str} : DeclarationIn s p f → DeclarationIn s p g → f ≠ g → DirFault s p c!"E003d"
  | unsupported {f v : Str} : DeclarationIn s p f → (∀ g, DeclarationIn s p g → g = f) → NamesVersion f v → v ∉ supported →
      DirFault s p c!"E004a"
  | unknown {f : Str} : DeclarationIn s p f → (∀ g, DeclarationIn s p g → g = f) → (∀ v, ¬ NamesVersion f v) → DirFault s p c!"E004b"

/-- The extensions for storage roots that are registered. -/
def registered : List Str := [c!"0002-flat-direct-storage-layout", c!"0003-hash-and-id-n-tuple-storage-layout"]

/-- What is to be said about the hierarchy: a code and a place. -/
inductive Remark (s : FS) (root : Path) : Str × Str → Prop
  | dir {ws : List Str} {code : Str} : Reached s root ws → DirFault s (root ++ ws) code → Remark s root (code, '/' :: joinWith '/' ws)
  | file {w : Str} {b : Bytes} : FS.look s (root ++ [c!"extensions", w]) = some (.file b) → Remark s root (c!"E086", c!"extensions/" ++ w)
  | extension {w : Str} : FS.look s (root ++ [c!"extensions", w]) = some .dir → w ∉ registered → Remark s root (c!"W901", c!"extensions/" ++ w)

/-- What is wrong with the file that names the layout. -/
inductive LayoutFault (E : Env) (reg : Dict Str LayoutObj) (s : FS) (root : Path) : Str → Prop
  | directory : FS.look s (root ++ [c!"ocfl_layout.json"]) = some .dir → LayoutFault E reg s root c!"E070a"
  | notJson {b : Bytes} : FS.look s (root ++ [c!"ocfl_layout.json"]) = some (.file b) → E.lib.loadb b = none → LayoutFault E reg s root c!"E070a"
  | notObject {b : Bytes} {j : Json} : FS.look s (root ++ [c!"ocfl_layout.json"]) = some (.file b) → E.lib.loadb b = some j →
      (∀ d, j ≠ .obj d) → LayoutFault E reg s root c!"E070b"
  | keys {b : Bytes} {d : Dict Str Json} : FS.look s (root ++ [c!"ocfl_layout.json"]) = some (.file b) → E.lib.loadb b = some (.obj d) →
      (¬ ∃ name desc, Dict.get? d c!"extension" = some (.str name) ∧ Dict.get? d c!"description" = some (.str desc)) →
      LayoutFault E reg s root c!"E070c"
  | unknown {b : Bytes} {d : Dict Str Json} {name desc : Str} : FS.look s (root ++ [c!"ocfl_layout.json"]) = some (.file b) →
      E.lib.loadb b = some (.obj d) → Dict.get? d c!"extension" = some (.str name) → Dict.get? d c!"description" = some (.str desc) →
      Dict.get? reg name = none → LayoutFault E reg s root c!"E071"

/-- `0=t` is the one entry of the directory whose name begins with `0=`. -/
def OneDeclaration (s : FS) (root : Path) (t : Str) : Prop := ∀ u, FS.look s (root ++ [c!"0=" ++ u]) ≠ none ↔ u = t

/-- What is wrong with a storage root itself, of which version `want` is expected. -/
inductive RootFault (E : Env) (reg : Dict Str LayoutObj) (s : FS) (root : Path) (want : Option Str) : Str → Prop
  | undeclared : (∀ t, FS.look s (root ++ [c!"0=" ++ t]) = none) → RootFault E reg s root want c!"E069a"
  | several {t u : Str} : FS.look s (root ++ [c!"0=" ++ t]) ≠ none → FS.look s (root ++ [c!"0=" ++ u]) ≠ none → t ≠ u →
      RootFault E reg s root want c!"E069b"
  | unknown {t : Str} : OneDeclaration s root t → (∀ v ∈ supported, t ≠ c!"ocfl_" ++ v) → RootFault E reg s root want c!"E069c"
  | unexpected {v w : Str} : v ∈ supported → OneDeclaration s root (c!"ocfl_" ++ v) → want = some w → w ≠ v → RootFault E reg s root want c!"E069c"
  | content {v text : Str} {b : Bytes} : v ∈ supported → OneDeclaration s root (c!"ocfl_" ++ v) → (want = none ∨ want = some v) →
      FS.look s (root ++ [c!"0=ocfl_" ++ v]) = some (.file b) → utf8Decode b = some text →
      ¬ IsTvalue E.isWord (univNewlines text) (c!"ocfl_" ++ v) → RootFault E reg s root want c!"E069e"
  | layout {v code : Str} : RootDeclared E s root v → (want = none ∨ want = some v) → LayoutFault E reg s root code →
      RootFault E reg s root want code

end Ocfl.Spec
