import Verif.Spec.Document

/-!
# Inventories that say the same, apart from keys that OCFL does not specify
-/

namespace Ocfl
namespace Spec

/-- Both are objects, and the values of the keys are the same. -/
def SameAt (keys : List Str) (j j' : Json) : Prop := ∃ d d', j = .obj d ∧ j' = .obj d' ∧ ∀ k ∈ keys, Dict.get? d' k = Dict.get? d k

/-- Both are there and related, or neither is there. -/
def Both (R : Json → Json → Prop) : Option Json → Option Json → Prop
  | none, none => True
  | some a, some b => R a b
  | _, _ => False

/-- User blocks that are the same in the specified keys. -/
def SameUser (u u' : Json) : Prop := u = u' ∨ SameAt userKeys u u'

/-- Version blocks that are the same in the specified keys. -/
def SameBlock (b b' : Json) : Prop :=
  b = b' ∨ SameAt [c!"created", c!"message", c!"state"] b b' ∧ Both SameUser (b.field c!"user") (b'.field c!"user")

/-- The same versions, one after the other. -/
def SameVersions (vs vs' : Json) : Prop :=
  vs = vs' ∨ ∃ d d', vs = .obj d ∧ vs' = .obj d' ∧ List.Forall₂ (fun e e' => e.1 = e'.1 ∧ SameBlock e.2 e'.2) d d'

/-- Inventories that are the same in the specified keys. -/
def SameInventory (j j' : Json) : Prop :=
  SameAt [c!"id", c!"type", c!"digestAlgorithm", c!"contentDirectory", c!"head", c!"manifest", c!"fixity"] j j' ∧
  Both SameVersions (j.field c!"versions") (j'.field c!"versions")

end Spec
end Ocfl
