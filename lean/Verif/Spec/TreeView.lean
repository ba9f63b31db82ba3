import Verif.Model.Namaste

/-!
# Specification: a drawing of a directory and the directories in it
-/

namespace Ocfl.Spec

open Ocfl FS

/-- The names in a directory, each once, in the order of their code points. -/
structure NamesIn (s : FS) (dir : Path) (names : List Str) : Prop where
  nodup : names.Nodup
  sorted : names.Pairwise (fun a b => strLe a b = true)
  mem : ∀ n, n ∈ names ↔ look s (dir ++ [n]) ≠ none

/-- There are `n` files below the directory. -/
def FileCount (s : FS) (dir : Path) (n : Nat) : Prop :=
  ∃ files : List Path, files.Nodup ∧ files.length = n ∧ ∀ r, r ∈ files ↔ ∃ b, look s (dir ++ r) = some (.file b)

/-- The stroke in front of a name. -/
def branch (last : Bool) : Str := if last then c!"└── " else c!"├── "

/-- The stroke below a name, beside the names in that directory. -/
def stem (last : Bool) : Str := if last then c!"    " else c!"│   "

/-- The lines for names and what is below them. -/
def drawing (rows : List (Str × List Str)) : List Str :=
  (rows.mapIdx fun i row =>
    (branch (i + 1 = rows.length) ++ row.1) ::
      row.2.mapIdx fun j sub => stem (i + 1 = rows.length) ++ branch (j + 1 = row.2.length) ++ sub).flatten

/-- The drawing as a text, with a title. -/
def drawn (title : Str) (rows : List (Str × List Str)) : Str :=
  ((c!"[" ++ title ++ c!"]") :: drawing rows).flatMap (· ++ c!"\n")

/-- A name, a space and a remark, which may be empty. -/
def remarked (e : Str × Str) : Str := e.1 ++ c!" " ++ e.2

/-- The name of a version directory, or something that looks like one. -/
def VersionLike (name : Str) : Prop := ∃ ds, ds ≠ [] ∧ (∀ c ∈ ds, isDigit c = true) ∧ (name = 'v' :: ds ∨ name = 'v' :: ds ++ c!"\n")

/-- The name of a sidecar for some algorithm. -/
def SidecarLike (name : Str) : Prop := ∃ alg, name = c!"inventory.json." ++ alg

/-- The remark on something in a version directory. -/
def VersionRemark (s : FS) (dir : Path) (contentDirectory : Str) (e : Str × Str) : Prop :=
  ((e.1 = c!"inventory.json" ∨ SidecarLike e.1) ∧ e.2 = []) ∨
  (¬ (e.1 = c!"inventory.json" ∨ SidecarLike e.1) ∧ e.1 = contentDirectory ∧
    ∃ n, FileCount s (dir ++ [contentDirectory]) n ∧ e.2 = c!"(" ++ natStr n ++ c!" files)") ∨
  (¬ (e.1 = c!"inventory.json" ∨ SidecarLike e.1) ∧ e.1 ≠ contentDirectory ∧ e.2 = c!"<--- ???")

/-- The remark on something in the object root, and what is shown below it. `again` says that there was a sidecar before. -/
def RootRemark (s : FS) (base : Path) (contentDirectory declaration : Str) (again : Prop) (r : (Str × Str) × List (Str × Str)) : Prop :=
  (VersionLike r.1.1 ∧ r.1.2 = [] ∧ NamesIn s (base ++ [r.1.1]) (r.2.map Prod.fst) ∧
    ∀ e ∈ r.2, VersionRemark s (base ++ [r.1.1]) contentDirectory e) ∨
  (¬ VersionLike r.1.1 ∧ r.2 = [] ∧
    (((r.1.1 = declaration ∨ r.1.1 = c!"inventory.json") ∧ r.1.2 = []) ∨
     (SidecarLike r.1.1 ∧ ((¬ again ∧ r.1.2 = []) ∨ (again ∧ r.1.2 = c!"<--- multiple inventory digests?"))) ∨
     (¬ (r.1.1 = declaration ∨ r.1.1 = c!"inventory.json" ∨ SidecarLike r.1.1) ∧ r.1.2 = c!"<--- ???")))

end Ocfl.Spec
