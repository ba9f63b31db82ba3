import Verif.Model.FS
import Verif.Spec.Layout

/-!
# Specification: what every file system state satisfies
-/

namespace Ocfl

open Spec

/-- A state of a file system: one node per path, every entry lies in a directory, and names are
possible names. -/
structure FS.WF (s : FS) : Prop where
  nk : Dict.NK s
  noRoot : [] ∉ Dict.keys s
  parent : ∀ p ∈ Dict.keys s, FS.look s p.dropLast = some .dir
  names : ∀ p ∈ Dict.keys s, ∀ w ∈ p, SafeName w

end Ocfl
