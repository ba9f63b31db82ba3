import Verif.Spec.UnknownKeys
import Verif.Model.InventoryValidator
import Verif.Py.DictLemmas

/-!
# C107: validation of an inventory and keys that OCFL does not specify
-/

namespace Ocfl
namespace IV
open V Spec

theorem SameAt.pyIn {keys : List Str} {j j' : Json} (h : SameAt keys j j') {k : Str} (hk : k ∈ keys) : j'.pyIn k = j.pyIn k := by
  obtain ⟨d, d', rfl, rfl, h⟩ := h
  simp only [Json.pyIn, Dict.has, h k hk]

theorem SameAt.pyIndex {keys : List Str} {j j' : Json} (h : SameAt keys j j') {k : Str} (hk : k ∈ keys) : j'.pyIndex k = j.pyIndex k := by
  obtain ⟨d, d', rfl, rfl, h⟩ := h
  simp only [Json.pyIndex, h k hk]

/-! ## A version -/

theorem checkUser_same (isWord : Char → Bool) {b b' : Json} (h : SameAt [c!"created", c!"message", c!"state"] b b')
    (hu : Both SameUser (b.field c!"user") (b'.field c!"user")) : checkUser isWord b' = checkUser isWord b := by
  obtain ⟨d, d', rfl, rfl, _⟩ := h
  unfold checkUser
  simp only [Json.field] at hu
  cases hd : Dict.get? d c!"user" with
  | none =>
    cases hd' : Dict.get? d' c!"user" with
    | none => simp only [Json.pyIn, Dict.has, hd, hd', Json.pyIndex]
    | some u' => rw [hd, hd'] at hu; exact hu.elim
  | some u =>
    cases hd' : Dict.get? d' c!"user" with
    | none => rw [hd, hd'] at hu; exact hu.elim
    | some u' =>
      rw [hd, hd'] at hu
      simp only [Json.pyIn, Dict.has, hd, hd', Json.pyIndex]
      rcases hu with rfl | ⟨e, e', rfl, rfl, he⟩
      · rfl
      · simp only [lift, Bind.bind, V.bind]
        rw [he c!"name" (by decide), he c!"address" (by decide)]
        simp only [Option.isSome_some]

theorem checkCreated_same {b b' : Json} (h : SameAt [c!"created", c!"message", c!"state"] b b') : checkCreated b' = checkCreated b := by
  unfold checkCreated
  rw [SameAt.pyIn h (by decide), SameAt.pyIndex h (by decide)]

theorem checkMessage_same {b b' : Json} (h : SameAt [c!"created", c!"message", c!"state"] b b') : checkMessage b' = checkMessage b := by
  unfold checkMessage
  rw [SameAt.pyIn h (by decide), SameAt.pyIndex h (by decide)]

/-- The checks of a version, once it has been looked up. -/
def versionChecks (isWord : Char → Bool) (lax : Bool) (alg : Json) (unnorm : Option (List Str)) (used : List Str) (version : Json) : V (List Str) := do
  checkCreated version
  let used ← if ← lift (version.pyIn c!"state") then do
      let st ← lift (version.pyIndex c!"state")
      let ds ← validateStateBlock lax alg unnorm st
      ret (used ++ ds)
    else do
      err c!"E048c"
      ret used
  checkMessage version
  checkUser isWord version
  ret used

theorem versionChecks_same (isWord : Char → Bool) (lax : Bool) (alg : Json) (unnorm : Option (List Str)) (used : List Str) {b b' : Json}
    (h : SameBlock b b') : versionChecks isWord lax alg unnorm used b' = versionChecks isWord lax alg unnorm used b := by
  rcases h with rfl | ⟨h, hu⟩
  · rfl
  · unfold versionChecks
    rw [checkCreated_same h, checkMessage_same h, checkUser_same isWord h hu, SameAt.pyIn h (by decide), SameAt.pyIndex h (by decide)]

theorem get?_same {d d' : Dict Str Json} (h : List.Forall₂ (fun e e' => e.1 = e'.1 ∧ SameBlock e.2 e'.2) d d') (k : Str) :
    Both SameBlock (Dict.get? d k) (Dict.get? d' k) := by
  induction h with
  | nil => trivial
  | cons h1 _ ih =>
    rename_i e e' d d' _
    obtain ⟨a, b⟩ := e
    obtain ⟨a', b'⟩ := e'
    obtain ⟨h1, h2⟩ := h1
    dsimp only at h1 h2
    subst h1
    rw [Dict.get?_cons, Dict.get?_cons]
    by_cases hk : a = k
    · simp only [hk, if_true]; exact h2
    · simp only [hk, if_false]; exact ih

theorem has_same {d d' : Dict Str Json} (h : List.Forall₂ (fun e e' => e.1 = e'.1 ∧ SameBlock e.2 e'.2) d d') (k : Str) : Dict.has d' k = Dict.has d k := by
  have := get?_same h k
  unfold Dict.has
  cases h1 : Dict.get? d k <;> cases h2 : Dict.get? d' k <;> rw [h1, h2] at this <;> first | rfl | exact this.elim

theorem validateVersion_same (isWord : Char → Bool) (lax : Bool) (alg : Json) (unnorm : Option (List Str)) {vs vs' : Json} (h : SameVersions vs vs')
    (used : List Str) (v : Str) : validateVersion isWord lax alg unnorm vs' used v = validateVersion isWord lax alg unnorm vs used v := by
  rcases h with rfl | ⟨d, d', rfl, rfl, h⟩
  · rfl
  · have := get?_same h v
    show (lift (Json.pyIndex v (.obj d'))).bind (versionChecks isWord lax alg unnorm used) =
      (lift (Json.pyIndex v (.obj d))).bind (versionChecks isWord lax alg unnorm used)
    simp only [Json.pyIndex]
    cases h1 : Dict.get? d v with
    | none =>
      cases h2 : Dict.get? d' v with
      | none => rfl
      | some b' => rw [h1, h2] at this; exact this.elim
    | some b =>
      cases h2 : Dict.get? d' v with
      | none => rw [h1, h2] at this; exact this.elim
      | some b' =>
        rw [h1, h2] at this
        simp only [lift, V.bind]
        rw [versionChecks_same isWord lax alg unnorm used this]

theorem seqLoop_same {d d' : Dict Str Json} (h : List.Forall₂ (fun e e' => e.1 = e'.1 ∧ SameBlock e.2 e'.2) d d') (w : Option Nat) (fuel : Nat) :
    ∀ n, seqLoop d' w fuel n = seqLoop d w fuel n := by
  induction fuel with
  | zero => intro n; rfl
  | succ fuel ih => intro n; simp only [seqLoop, has_same h, ih]

theorem findWidth_same {d d' : Dict Str Json} (h : List.Forall₂ (fun e e' => e.1 = e'.1 ∧ SameBlock e.2 e'.2) d d') (l : List Nat) :
    findWidth d' l = findWidth d l := by
  induction l with
  | nil => rfl
  | cons w l ih => simp only [findWidth, has_same h, ih]

theorem validateVersionSequence_same {vs vs' : Json} (h : SameVersions vs vs') : validateVersionSequence vs' = validateVersionSequence vs := by
  rcases h with rfl | ⟨d, d', rfl, rfl, h⟩
  · rfl
  · have hl : d'.length = d.length := h.length_eq.symm
    simp only [validateVersionSequence, sequenceFrom, has_same h, findWidth_same h, seqLoop_same h, hl]

theorem validateVersions_same (isWord : Char → Bool) (lax : Bool) (alg : Json) (unnorm : Option (List Str)) {vs vs' : Json} (h : SameVersions vs vs')
    (all : List Str) : validateVersions isWord lax alg unnorm vs' all = validateVersions isWord lax alg unnorm vs all := by
  unfold validateVersions
  have : validateVersion isWord lax alg unnorm vs' = validateVersion isWord lax alg unnorm vs := by
    funext used v
    exact validateVersion_same isWord lax alg unnorm h used v
  rw [this]

theorem versionsPart_same (isWord : Char → Bool) (lax : Bool) (alg : Json) (unnorm : Option (List Str)) {j j' : Json} (h : SameInventory j j') :
    versionsPart isWord lax alg unnorm j' = versionsPart isWord lax alg unnorm j := by
  obtain ⟨⟨d, d', rfl, rfl, _⟩, hv⟩ := h
  simp only [Json.field] at hv
  unfold versionsPart
  cases h1 : Dict.get? d c!"versions" with
  | none =>
    cases h2 : Dict.get? d' c!"versions" with
    | none => simp only [Json.pyIn, Dict.has, h1, h2, Json.pyIndex]
    | some b' => rw [h1, h2] at hv; exact hv.elim
  | some vs =>
    cases h2 : Dict.get? d' c!"versions" with
    | none => rw [h1, h2] at hv; exact hv.elim
    | some vs' =>
      rw [h1, h2] at hv
      have hv : SameVersions vs vs' := hv
      simp only [Json.pyIn, Dict.has, h1, h2, Json.pyIndex, lift, Bind.bind, V.bind]
      simp only [validateVersionSequence_same hv, validateVersions_same isWord lax alg unnorm hv, Option.isSome_some]

end IV

open Spec

/-- **C107.** The verdict of the inventory validator, everything it reports and every value it finds depend only on the keys that OCFL specifies:
two inventories that differ in other keys only (in the inventory, in versions or in user blocks, whatever their values and their order) are treated
the same. -/
theorem C107_only_specified_keys (isWord : Char → Bool) (lax : Bool) (defaultSpec : Str) (force : Option Str) {j j' : Json} (h : SameInventory j j') :
    IV.validate isWord lax defaultSpec force j' = IV.validate isWord lax defaultSpec force j := by
  have hs := h.1
  have e1 : IV.checkId j' = IV.checkId j := by
    unfold IV.checkId
    rw [IV.SameAt.pyIn hs (by decide), IV.SameAt.pyIndex hs (by decide)]
  have e2 : ∀ f s, IV.checkType f s j' = IV.checkType f s j := by
    intro f s
    unfold IV.checkType
    rw [IV.SameAt.pyIn hs (by decide), IV.SameAt.pyIndex hs (by decide)]
  have e3 : IV.checkDigestAlgorithm lax j' = IV.checkDigestAlgorithm lax j := by
    unfold IV.checkDigestAlgorithm
    rw [IV.SameAt.pyIn hs (by decide), IV.SameAt.pyIndex hs (by decide)]
  have e4 : IV.checkContentDirectory j' = IV.checkContentDirectory j := by
    unfold IV.checkContentDirectory
    rw [IV.SameAt.pyIn hs (by decide), IV.SameAt.pyIndex hs (by decide)]
  have e5 : ∀ a c, IV.manifestPart lax a c j' = IV.manifestPart lax a c j := by
    intro a c
    unfold IV.manifestPart
    rw [IV.SameAt.pyIn hs (by decide), IV.SameAt.pyIndex hs (by decide)]
  have e6 : ∀ a u, IV.versionsPart isWord lax a u j' = IV.versionsPart isWord lax a u j := fun a u => IV.versionsPart_same isWord lax a u h
  have e7 : ∀ l, IV.headPart l j' = IV.headPart l j := by
    intro l
    unfold IV.headPart
    rw [IV.SameAt.pyIn hs (by decide), IV.SameAt.pyIndex hs (by decide)]
  have e8 : ∀ s m, IV.fixityPart lax s m j' = IV.fixityPart lax s m j := by
    intro s m
    unfold IV.fixityPart
    rw [IV.SameAt.pyIn hs (by decide), IV.SameAt.pyIndex hs (by decide)]
  have e9 : ∀ i s a c, IV.validateRest isWord lax i s a c j' = IV.validateRest isWord lax i s a c j := by
    intro i s a c
    unfold IV.validateRest
    simp only [e5, e6, e7, e8]
  unfold IV.validate IV.validateBody
  simp only [e1, e2, e3, e4, e9]

/-- **C107.** In particular a further key, with any value, is not noticed. -/
theorem C107_further_key (isWord : Char → Bool) (lax : Bool) (defaultSpec : Str) (force : Option Str) (d : Dict Str Json) {k : Str}
    (hk : k ∉ inventoryKeys) (v : Json) :
    IV.validate isWord lax defaultSpec force (.obj (Dict.set d k v)) = IV.validate isWord lax defaultSpec force (.obj d) := by
  have hne : ∀ k' ∈ inventoryKeys, Dict.get? (Dict.set d k v) k' = Dict.get? d k' := fun k' hk' =>
    Dict.get?_set_ne d v (fun h => by subst h; exact hk hk')
  refine C107_only_specified_keys isWord lax defaultSpec force ⟨⟨d, _, rfl, rfl, fun k' hk' => hne k' ?_⟩, ?_⟩
  · simp only [List.mem_cons, List.not_mem_nil, or_false] at hk'
    rcases hk' with rfl | rfl | rfl | rfl | rfl | rfl | rfl <;> decide
  · simp only [Json.field]
    rw [hne c!"versions" (by decide)]
    cases Dict.get? d c!"versions" with
    | none => trivial
    | some vs => exact .inl rfl

namespace IV

def plainUser : Json := .obj [(c!"name", .str c!"A")]
def plainBlock : Json := .obj [(c!"created", .str c!"2020-01-01T00:00:00Z"), (c!"user", plainUser), (c!"state", .obj [])]
def plainInventory : Json := .obj [(c!"id", .str c!"info:x"), (c!"type", .str c!"https://ocfl.io/1.1/spec/#inventory"),
  (c!"digestAlgorithm", .str c!"sha512"), (c!"head", .str c!"v1"), (c!"manifest", .obj []), (c!"versions", .obj [(c!"v1", plainBlock)])]

def oddUser : Json := .obj [(c!"orcid", .null), (c!"name", .str c!"A")]
def oddBlock : Json := .obj [(c!"user", oddUser), (c!"colour", .str c!"red"), (c!"created", .str c!"2020-01-01T00:00:00Z"), (c!"state", .obj [])]
def oddInventory : Json := .obj [(c!"note", .num c!"7"), (c!"versions", .obj [(c!"v1", oddBlock)]), (c!"id", .str c!"info:x"),
  (c!"type", .str c!"https://ocfl.io/1.1/spec/#inventory"), (c!"digestAlgorithm", .str c!"sha512"), (c!"head", .str c!"v1"), (c!"manifest", .obj [])]

theorem odd_same : SameInventory plainInventory oddInventory := by
  refine ⟨⟨_, _, rfl, rfl, ?_⟩, .inr ⟨_, _, rfl, rfl, .cons ⟨rfl, .inr ⟨⟨_, _, rfl, rfl, ?_⟩, .inr ⟨_, _, rfl, rfl, ?_⟩⟩⟩ .nil⟩⟩
  · intro k hk
    simp only [List.mem_cons, List.not_mem_nil, or_false] at hk
    rcases hk with rfl | rfl | rfl | rfl | rfl | rfl | rfl <;> rfl
  · intro k hk
    simp only [List.mem_cons, List.not_mem_nil, or_false] at hk
    rcases hk with rfl | rfl | rfl <;> rfl
  · intro k hk
    simp only [userKeys, List.mem_cons, List.not_mem_nil, or_false] at hk
    rcases hk with rfl | rfl <;> rfl

/-- What is reported of a document, without the values found. -/
def reportOf (r : Py (Result × Bool × List Entry)) : Option (Bool × List Str) :=
  match r with
  | .ok (_, ok, es) => some (ok, es.map (·.code))
  | .error _ => none

end IV

/-- **C107.** So a key that must not be there (E102 of the specification: "An inventory file must not contain keys that are not specified.") does not
make an inventory invalid, at none of the three places. -/
theorem C107_violated_unspecified : SameInventory IV.plainInventory IV.oddInventory ∧
    IV.reportOf (IV.validate (fun _ => true) false c!"1.1" none IV.oddInventory) = some (true, [c!"W007a", c!"W008"]) ∧
    IV.reportOf (IV.validate (fun _ => true) false c!"1.1" none IV.plainInventory) = some (true, [c!"W007a", c!"W008"]) :=
  ⟨IV.odd_same, by decide +kernel, by decide +kernel⟩

end Ocfl
