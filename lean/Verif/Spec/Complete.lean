import Verif.Spec.History
import Verif.Spec.ValidObject

/-!
# Specification: a directory that holds a version
-/

namespace Ocfl.Spec
open Ocfl

/-- `d` is the digest of the bytes `b`, in some spelling. -/
def HasDigest (E : Env) (alg : Str) (b : Bytes) (d : Str) : Prop := ∃ x, fileDigest E.raw alg b = some x ∧ SameDigest alg x d

/-- The files below `dst` are those that the state `st` of a version lists. With `check` each of them has the digest that is
recorded for it. -/
structure HoldsVersion (E : Env) (check : Bool) (alg : Str) (s : FS) (dst : Path) (st : List (Str × List Str)) : Prop where
  complete : ∀ p ∈ listed st, ∃ r b, p = pathOf r ∧ FileBelow s dst r b
  recorded : ∀ r b, FileBelow s dst r b → ∃ d, Lists st d (pathOf r) ∧ (check = true → HasDigest E alg b d)

/-- No logical path is a directory of another one. -/
def NoNesting (st : List (Str × List Str)) : Prop := ∀ p ∈ listed st, ∀ rest, p ++ '/' :: rest ∉ listed st

end Ocfl.Spec
