import Verif.Py.Json
import Mathlib.Data.List.Perm.Basic

/-!
# Specification: JSON documents that differ only in the order of members
-/

namespace Ocfl.Spec
open Ocfl

/-- `Reorder j j'`: `j'` is `j` with the members of some of its objects, at any depth, in another
order. -/
inductive Reorder : Json → Json → Prop
  | refl {j} : Reorder j j
  | trans {a b c} : Reorder a b → Reorder b c → Reorder a c
  | members {d d'} : d.Perm d' → Reorder (.obj d) (.obj d')
  | value {a k v v' b} : Reorder v v' → Reorder (.obj (a ++ (k, v) :: b)) (.obj (a ++ (k, v') :: b))
  | element {a v v' b} : Reorder v v' → Reorder (.arr (a ++ v :: b)) (.arr (a ++ v' :: b))

end Ocfl.Spec
