import Verif.Spec.InventoryRules

/-!
# Specification: a later inventory continues the history of an earlier one
-/

namespace Ocfl.Spec
open Ocfl

/-- The inventory `inv` has the manifest `m`, the version blocks `vs` and the states `states`. -/
structure View (inv : Json) (m : List (Str × List Str)) (vs : List (Str × Json))
    (states : Str → List (Str × List Str)) : Prop where
  manifest : Member inv c!"manifest" (ofDigestMap m)
  versions : Member inv c!"versions" (.obj vs)
  state : ∀ v b, (v, b) ∈ vs → Member b c!"state" (ofDigestMap (states v))

/-- The logical path `p` has content at `c`. -/
def Resolves (m st : List (Str × List Str)) (p c : Str) : Prop := ∃ d, Lists st d p ∧ Lists m d c

/-- The later inventory describes the same history as the earlier one, and more. -/
def Continues (later earlier : Json) : Prop :=
  ∃ m vs states m' vs' states', View earlier m vs states ∧ View later m' vs' states' ∧
    (∀ v ∈ vs.map Prod.fst, v ∈ vs'.map Prod.fst) ∧
    (∃ v ∈ vs'.map Prod.fst, v ∉ vs.map Prod.fst) ∧
    ∀ v ∈ vs.map Prod.fst,
      (∀ p, p ∈ listed (states v) ↔ p ∈ listed (states' v)) ∧
      (∀ p c, Resolves m (states v) p c → Resolves m' (states' v) p c) ∧
      (∀ a, Member earlier c!"digestAlgorithm" (.str a) → Member later c!"digestAlgorithm" (.str a) →
        ∀ d, d ∈ (states v).map Prod.fst ↔ d ∈ (states' v).map Prod.fst)

end Ocfl.Spec
