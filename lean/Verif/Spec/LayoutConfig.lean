import Verif.Py.Json
import Verif.Model.Layout
import Verif.Spec.Layout

/-!
# Specification: configurations of layouts
-/

namespace Ocfl.Spec

open Ocfl

/-- The value is the natural number `n` for Python (a Boolean is a number there). -/
inductive IsNat : Json → Nat → Prop
  | digits {ds : Str} : ds ≠ [] → (∀ c ∈ ds, isDigit c = true) → IsNat (.num ds) (intOf ds)
  | minusZero {ds : Str} : ds ≠ [] → (∀ c ∈ ds, isDigit c = true) → intOf ds = 0 → IsNat (.num ('-' :: ds)) 0
  | false : IsNat (.bool false) 0
  | true : IsNat (.bool true) 1

/-- The configuration document sets the parameters of the layout class `l` to those of `l'`. -/
inductive Configures (raw : Str → Bytes → Str) (config : Dict Str Json) : LayoutObj → LayoutObj → Prop
  | hashNTuple {alg0 alg : Str} {ts0 nt0 ts nt : Nat} {jts jnt : Json} :
      Dict.get? config c!"digestAlgorithm" = some (.str alg) → Dict.get? config c!"tupleSize" = some jts → IsNat jts ts →
      Dict.get? config c!"numberOfTuples" = some jnt → IsNat jnt nt → ts ≤ 32 → nt ≤ 32 → ValidNTuple raw alg ts nt →
      Configures raw config (.hashNTuple alg0 ts0 nt0) (.hashNTuple alg ts nt)
  | tupleTree {ts0 ts : Nat} {jts : Json} :
      Dict.get? config c!"tupleSize" = some jts → IsNat jts ts → 2 ≤ ts → ts ≤ 6 →
      Configures raw config (.tupleTree ts0) (.tupleTree ts)
  | uuidQuadtree {pfx0 pfx : Str} : Dict.get? config c!"prefix" = some (.str pfx) → pfx ≠ [] →
      Configures raw config (.uuidQuadtree pfx0) (.uuidQuadtree pfx)

end Ocfl.Spec
