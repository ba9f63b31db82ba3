import Verif.Spec.Lax
import Verif.Proofs.ValidatorVerdict

/-!
# Validation with lax digests

The same steps with and without `lax_digests`.
-/

namespace Ocfl
open IV V Spec

/-- The errors in a log. -/
def errorsOf (es : List Entry) : List Entry := es.filter (fun e => e.isError)

theorem errorsOf_append (a b : List Entry) : errorsOf (a ++ b) = errorsOf a ++ errorsOf b := List.filter_append ..

theorem numErrors_errorsOf (es : List Entry) : numErrors es = (errorsOf es).length := rfl

namespace V

/-- The same value and the same errors, or the same exception. -/
def Same {α : Type} : V α → V α → Prop
  | .done a es, .done b es' => a = b ∧ errorsOf es = errorsOf es'
  | .raised e, .raised e' => e = e'
  | _, _ => False

/-- If `P` holds or the first step makes no error, the second one is the same. -/
def LaxRel {α : Type} (P : Prop) (x y : V α) : Prop := (P ∨ ∃ a, Clean x a) → Same x y

variable {α β σ : Type} {P : Prop}

theorem Same.rfl {x : V α} : Same x x := by
  cases x with
  | done a es => exact ⟨Eq.refl _, Eq.refl _⟩
  | raised e => exact Eq.refl _

theorem lr_rfl {x : V α} : LaxRel P x x := fun _ => Same.rfl

theorem lr_bind {x y : V α} {f g : α → V β} (h : LaxRel P x y) (hf : ∀ a, (∃ es, x = .done a es) → LaxRel P (f a) (g a)) :
    LaxRel P (x >>= f) (y >>= g) := by
  intro hp
  have hx : P ∨ ∃ a, Clean x a := by
    rcases hp with hp | ⟨b, hb⟩
    · exact .inl hp
    · obtain ⟨a, ha, _⟩ := clean_bind'.mp hb
      exact .inr ⟨a, ha⟩
  have hs := h hx
  cases x with
  | raised e =>
    cases y with
    | raised e' => cases hs; exact Eq.refl _
    | done b es' => exact hs.elim
  | done a es =>
    cases y with
    | raised e' => exact hs.elim
    | done b es' =>
      obtain ⟨rfl, he⟩ := hs
      have hfa : P ∨ ∃ c, Clean (f a) c := by
        rcases hp with hp | ⟨b, hb⟩
        · exact .inl hp
        · obtain ⟨a', ⟨es1, h1, _⟩, h2⟩ := clean_bind'.mp hb
          cases h1
          exact .inr ⟨b, h2⟩
      have hs2 := hf a ⟨es, Eq.refl _⟩ hfa
      rw [bind_def, bind_def]
      unfold V.bind
      dsimp only
      cases hfa' : f a with
      | raised e =>
        rw [hfa'] at hs2
        cases hga : g a with
        | raised e' => rw [hga] at hs2; exact hs2
        | done c es3 => rw [hga] at hs2; exact hs2.elim
      | done c es3 =>
        rw [hfa'] at hs2
        cases hga : g a with
        | raised e' => rw [hga] at hs2; exact hs2.elim
        | done c' es4 =>
          rw [hga] at hs2
          obtain ⟨h1, h2⟩ := hs2
          exact ⟨h1, by rw [errorsOf_append, errorsOf_append, he, h2]⟩

theorem lr_bind_rfl {x : V α} {f g : α → V β} (hf : ∀ a, (∃ es, x = .done a es) → LaxRel P (f a) (g a)) :
    LaxRel P (x >>= f) (x >>= g) := lr_bind lr_rfl hf

theorem lr_ite {p : Prop} [Decidable p] {x x' y y' : V α} (h : p → LaxRel P x y) (h' : ¬ p → LaxRel P x' y') :
    LaxRel P (if p then x else x') (if p then y else y') := by
  by_cases hp : p
  · rw [if_pos hp, if_pos hp]; exact h hp
  · rw [if_neg hp, if_neg hp]; exact h' hp

theorem lr_forM {f g : σ → α → V σ} : ∀ (l : List α) (s : σ), (∀ s, ∀ x ∈ l, LaxRel P (f s x) (g s x)) → LaxRel P (forM f l s) (forM g l s)
  | [], _, _ => lr_rfl
  | x :: l, s, h => lr_bind (h s x (by simp)) (fun s' _ => lr_forM l s' (fun s x hx => h s x (by simp [hx])))

end V

namespace IV

variable {P : Prop}

theorem digestRegex_known {a : Str} (h : a ∈ knownAlgorithms) : ∃ m, digestRegex a = some m := by
  unfold knownAlgorithms at h
  simp only [List.mem_cons, List.not_mem_nil, or_false] at h
  rcases h with rfl | rfl | rfl | rfl | rfl | rfl | rfl | rfl | rfl | rfl <;> exact ⟨_, rfl⟩

/-- The algorithm is one that is known. -/
def KnownAlg (alg : Json) : Prop := ∃ a m, alg = .str a ∧ digestRegex a = some m

theorem lr_digestMatcher {alg : Json} (h : P → KnownAlg alg) : LaxRel P (digestMatcher false alg) (digestMatcher true alg) := by
  intro hp
  by_cases hk : KnownAlg alg
  · obtain ⟨a, m, rfl, hm⟩ := hk
    unfold digestMatcher
    dsimp only
    rw [hm]
    exact Same.rfl
  · rcases hp with hp | ⟨m, es, hc, hn⟩
    · exact absurd (h hp) hk
    · have hun : ∀ {x : V (Str → Bool)}, x = (do err c!"E026a"; V.ret matchAny) → x = .done m es → False := by
        intro x h1 h2
        rw [h2] at h1
        cases h1
        cases hn
      cases alg with
      | str a =>
        cases hm : digestRegex a with
        | some m' => exact absurd ⟨a, m', rfl, hm⟩ hk
        | none =>
          unfold digestMatcher at hc
          dsimp only at hc
          rw [hm] at hc
          exact (hun rfl hc).elim
      | arr l => cases hc
      | obj d => cases hc
      | null => exact (hun rfl hc).elim
      | bool b => exact (hun rfl hc).elim
      | num l => exact (hun rfl hc).elim

theorem lr_manifestDigest {alg : Json} {cd : Str} {s : MState} {e : Str × Json} (h : P → KnownAlg alg) :
    LaxRel P (manifestDigest false alg cd s e) (manifestDigest true alg cd s e) :=
  lr_bind (lr_digestMatcher h) fun _ _ => lr_rfl

theorem lr_manifestPart {alg : Json} {cd : Str} {j : Json} (h : P → KnownAlg alg) :
    LaxRel P (manifestPart false alg cd j) (manifestPart true alg cd j) := by
  unfold manifestPart
  refine lr_bind_rfl fun b _ => lr_ite (fun _ => lr_bind_rfl fun m _ => lr_bind ?_ fun _ _ => lr_rfl) (fun _ => lr_rfl)
  unfold validateManifest
  cases m with
  | obj m => exact lr_bind (lr_forM _ _ fun _ _ _ => lr_manifestDigest h) fun _ _ => lr_rfl
  | _ => exact lr_rfl

theorem lr_versionsPart {isWord : Char → Bool} {alg : Json} {u : Option (List Str)} {j : Json} (h : P → KnownAlg alg) :
    LaxRel P (versionsPart isWord false alg u j) (versionsPart isWord true alg u j) := by
  unfold versionsPart
  refine lr_bind_rfl fun b _ => lr_ite (fun _ => lr_bind_rfl fun vs _ => lr_bind_rfl fun av _ => lr_bind ?_ fun _ _ => lr_rfl) (fun _ => lr_rfl)
  refine lr_forM _ _ fun used v _ => ?_
  unfold validateVersion
  refine lr_bind_rfl fun ver _ => lr_bind_rfl fun _ _ => lr_bind_rfl fun b _ => ?_
  dsimp only
  refine lr_ite (fun _ => lr_bind_rfl fun st _ => lr_bind ?_ fun _ _ => lr_rfl) (fun _ => lr_rfl)
  unfold validateStateBlock
  cases st with
  | obj st => exact lr_bind (lr_digestMatcher h) fun _ _ => lr_rfl
  | _ => exact lr_rfl

theorem lr_fixityPart {spec : Str} {mf : Option (Dict Str Str)} {j : Json}
    (h : P → ∀ fx alg b, Member j c!"fixity" fx → Member fx alg b → alg ∈ knownAlgorithms) :
    LaxRel P (fixityPart false spec mf j) (fixityPart true spec mf j) := by
  unfold fixityPart
  refine lr_bind_rfl fun b _ => lr_ite (fun _ => lr_bind_rfl fun fx hfx => ?_) (fun _ => lr_rfl)
  obtain ⟨es, hfx⟩ := hfx
  have hfx := lift_done hfx
  unfold validateFixity
  cases fx with
  | obj d =>
    refine lr_forM _ _ fun _ e he => ?_
    intro hp
    unfold fixityAlgorithm
    cases hm : digestRegex e.1 with
    | some m => exact Same.rfl
    | none =>
      exfalso
      rcases hp with hp | ⟨_, hc⟩
      · have hj : Member j c!"fixity" (.obj d) := by
          cases j with
          | obj dj =>
            refine ⟨dj, rfl, ?_⟩
            unfold Json.pyIndex at hfx
            dsimp only at hfx
            split at hfx
            · rename_i v hv
              cases hfx
              exact Dict.mem_of_get? hv
            · cases hfx
          | _ => cases hfx
        obtain ⟨m, hm'⟩ := digestRegex_known (h hp (.obj d) e.1 e.2 hj ⟨d, rfl, he⟩)
        rw [hm] at hm'
        cases hm'
      · unfold fixityAlgorithm at hc
        rw [hm] at hc
        obtain ⟨es, h1, h2⟩ := hc
        cases h1
        cases h2
  | _ => exact lr_rfl

theorem lr_checkDigestAlgorithm {j : Json} (h : P → OrdinaryDigests j) :
    LaxRel P (checkDigestAlgorithm false j) (checkDigestAlgorithm true j) ∧
    ∀ a es, checkDigestAlgorithm false j = .done (some a) es → KnownAlg a := by
  constructor
  · unfold checkDigestAlgorithm
    refine lr_bind_rfl fun b _ => lr_ite (fun _ => lr_rfl) (fun _ => lr_bind_rfl fun a ha => lr_ite (fun _ => lr_rfl) (fun h512 => ?_))
    obtain ⟨es, ha⟩ := ha
    have ha := lift_done ha
    intro hp
    rw [if_neg (by simp), if_pos rfl]
    by_cases h256 : a.str? = some c!"sha256"
    · rw [if_pos h256]
      exact ⟨rfl, rfl⟩
    · exfalso
      rcases hp with hp | ⟨x, es, hc, hn⟩
      · have hm : Member j c!"digestAlgorithm" a := by
          cases j with
          | obj dj =>
            refine ⟨dj, rfl, ?_⟩
            unfold Json.pyIndex at ha
            dsimp only at ha
            split at ha
            · rename_i v hv
              cases ha
              exact Dict.mem_of_get? hv
            · cases ha
          | _ => cases ha
        rcases (h hp).algorithm a hm with rfl | rfl
        · exact h512 rfl
        · exact h256 rfl
      · rw [if_neg (by simp), if_neg h256] at hc
        cases hc
        cases hn
  · intro a es ha
    rcases yields_checkDigestAlgorithm j _ _ ha a rfl with rfl | rfl
    · exact ⟨_, _, rfl, rfl⟩
    · exact ⟨_, _, rfl, rfl⟩

theorem lr_validateBody {isWord : Char → Bool} {ds : Str} {force : Option Str} {j : Json} (h : P → OrdinaryDigests j) :
    LaxRel P (validateBody isWord false ds force j) (validateBody isWord true ds force j) := by
  unfold validateBody
  refine lr_bind_rfl fun id _ => lr_bind_rfl fun spec _ => lr_bind (lr_checkDigestAlgorithm h).1 fun a ha => ?_
  cases a with
  | none => exact lr_rfl
  | some alg =>
    obtain ⟨es, ha⟩ := ha
    have hk := (lr_checkDigestAlgorithm (P := P) h).2 alg es ha
    dsimp only
    refine lr_bind_rfl fun cd _ => ?_
    unfold IV.validateRest
    refine lr_bind (lr_manifestPart fun _ => hk) fun man _ => lr_bind (lr_versionsPart fun _ => hk) fun vu _ => lr_bind_rfl fun head _ => ?_
    refine lr_ite (fun _ => lr_rfl) (fun _ => lr_bind_rfl fun _ _ => lr_bind (lr_fixityPart fun hp => (h hp).fixity) fun _ _ => lr_rfl)

/-- The same attributes, verdict and errors, or the same exception. -/
def SameVerdict : Py (Result × Bool × List Entry) → Py (Result × Bool × List Entry) → Prop
  | .ok (r, b, es), .ok (r', b', es') => r = r' ∧ b = b' ∧ errorsOf es = errorsOf es'
  | .error e, .error e' => e = e'
  | _, _ => False

theorem same_validate {isWord : Char → Bool} {ds : Str} {force : Option Str} {j : Json}
    (h : OrdinaryDigests j ∨ ∃ r b es, validate isWord false ds force j = .ok (r, b, es) ∧ numErrors es = 0) :
    SameVerdict (validate isWord false ds force j) (validate isWord true ds force j) := by
  have hs : Same (validateBody isWord false ds force j) (validateBody isWord true ds force j) := by
    refine lr_validateBody (P := OrdinaryDigests j) id (h.imp id ?_)
    rintro ⟨r, b, es, hv, hn⟩
    unfold validate at hv
    split at hv
    · cases hv
    · rename_i res es' he
      cases hv
      exact ⟨_, es, he, hn⟩
    · rename_i res es' he
      cases hv
      split at hn
      · rw [numErrors_append] at hn
        simp [numErrors] at hn
      · exact ⟨_, es', he, hn⟩
  unfold validate
  generalize validateBody isWord false ds force j = x at hs
  generalize validateBody isWord true ds force j = y at hs
  cases x with
  | raised e =>
    cases y with
    | raised e' => exact hs
    | done b es => exact hs.elim
  | done a es =>
    cases y with
    | raised e' => exact hs.elim
    | done a' es' =>
      obtain ⟨rfl, he⟩ := hs
      obtain ⟨res, b⟩ := a
      have hn : numErrors es = numErrors es' := by rw [numErrors_errorsOf, numErrors_errorsOf, he]
      cases b with
      | true => exact ⟨rfl, by rw [hn], he⟩
      | false =>
        refine ⟨rfl, rfl, ?_⟩
        rw [hn]
        split
        · rw [errorsOf_append, errorsOf_append, he]
        · exact he

end IV

/-! ## Object validation -/

namespace W

/-- The same value and the same errors, or an abort with the same errors, or the same exception. -/
def Same {α : Type} : W α → W α → Prop
  | .done a es, .done b es' => a = b ∧ errorsOf es = errorsOf es'
  | .abort es, .abort es' => errorsOf es = errorsOf es'
  | .raised e, .raised e' => e = e'
  | _, _ => False

/-- No errors and no exception. -/
def NoErr {α : Type} : W α → Prop
  | .done _ es => numErrors es = 0
  | .abort es => numErrors es = 0
  | .raised _ => False

/-- If `P` holds or the first step makes no error, the second one is the same. -/
def LaxRel {α : Type} (P : Prop) (x y : W α) : Prop := (P ∨ NoErr x) → Same x y

variable {α β σ : Type} {P : Prop}

theorem Same.rfl {x : W α} : Same x x := by
  cases x with
  | done a es => exact ⟨Eq.refl _, Eq.refl _⟩
  | abort es => exact Eq.refl _
  | raised e => exact Eq.refl _

theorem lr_rfl {x : W α} : LaxRel P x x := fun _ => Same.rfl

theorem Same.after {es es' : List Entry} {x y : W α} (he : errorsOf es = errorsOf es') (h : Same x y) : Same (after es x) (after es' y) := by
  cases x with
  | done a es1 =>
    cases y with
    | done b es2 => exact ⟨h.1, by rw [errorsOf_append, errorsOf_append, he, h.2]⟩
    | abort es2 => exact h.elim
    | raised e => exact h.elim
  | abort es1 =>
    cases y with
    | done b es2 => exact h.elim
    | abort es2 =>
      have h : errorsOf es1 = errorsOf es2 := h
      show errorsOf (es ++ es1) = errorsOf (es' ++ es2)
      rw [errorsOf_append, errorsOf_append, he, h]
    | raised e => exact h.elim
  | raised e =>
    cases y with
    | done b es2 => exact h.elim
    | abort es2 => exact h.elim
    | raised e => exact h

theorem noErr_after {es : List Entry} {x : W α} (h : NoErr (after es x)) : numErrors es = 0 ∧ NoErr x := by
  cases x with
  | done a es1 =>
    have h : numErrors (es ++ es1) = 0 := h
    rw [numErrors_append] at h
    exact ⟨by omega, show numErrors es1 = 0 by omega⟩
  | abort es1 =>
    have h : numErrors (es ++ es1) = 0 := h
    rw [numErrors_append] at h
    exact ⟨by omega, show numErrors es1 = 0 by omega⟩
  | raised e => exact h.elim

theorem lr_bind {x y : W α} {f g : α → W β} (h : LaxRel P x y) (hf : ∀ a, (∃ es, x = .done a es) → LaxRel P (f a) (g a)) :
    LaxRel P (W.bind x f) (W.bind y g) := by
  intro hp
  cases x with
  | raised e =>
    have hs := h (hp.imp_right fun h => h)
    cases y with
    | raised e' => exact hs
    | abort es' => exact hs.elim
    | done b es' => exact hs.elim
  | abort es =>
    have hs := h (hp.imp_right fun h => h)
    cases y with
    | raised e' => exact hs.elim
    | abort es' => exact hs
    | done b es' => exact hs.elim
  | done a es =>
    have hs := h (hp.imp_right fun h => (noErr_after h).1)
    cases y with
    | raised e' => exact hs.elim
    | abort es' => exact hs.elim
    | done b es' =>
      obtain ⟨rfl, he⟩ := hs
      exact Same.after he (hf a ⟨es, Eq.refl _⟩ (hp.imp_right fun h => (noErr_after h).2))

theorem lr_bind_rfl {x : W α} {f g : α → W β} (hf : ∀ a, (∃ es, x = .done a es) → LaxRel P (f a) (g a)) :
    LaxRel P (W.bind x f) (W.bind x g) := lr_bind lr_rfl hf

theorem lr_ite {p : Prop} [Decidable p] {x x' y y' : W α} (h : p → LaxRel P x y) (h' : ¬ p → LaxRel P x' y') :
    LaxRel P (if p then x else x') (if p then y else y') := by
  by_cases hp : p
  · rw [if_pos hp, if_pos hp]; exact h hp
  · rw [if_neg hp, if_neg hp]; exact h' hp

theorem lr_forM {f g : σ → α → W σ} : ∀ (l : List α) (s : σ), (∀ s, ∀ x ∈ l, LaxRel P (f s x) (g s x)) → LaxRel P (forM f l s) (forM g l s)
  | [], _, _ => lr_rfl
  | x :: l, s, h => lr_bind (h s x (by simp)) (fun s' _ => lr_forM l s' (fun s x hx => h s x (by simp [hx])))

end W

namespace Validator
open W FS

variable {E : Env} {s : FS} {base : Path} {P : Prop} {cd : Bool} {ds : Str}

/-- The settings with and without lax digests. -/
abbrev cfgWith (cd lax : Bool) (ds : Str) : Config := { checkDigests := cd, lax := lax, defaultSpec := ds }

/-- The inventories of an object have ordinary digests. -/
def OrdinaryAt (E : Env) (s : FS) (base : Path) : Prop :=
  ∀ q j, (q = base ++ [c!"inventory.json"] ∨ ∃ v, q = base ++ [v, c!"inventory.json"]) → StoredJson E.lib s q j → OrdinaryDigests j

theorem lr_validateInventory {spec f : Str} (h : P → ∀ j, StoredJson E.lib s (resolve base f) j → OrdinaryDigests j) :
    LaxRel P (validateInventory E (cfgWith cd false ds) spec s base f) (validateInventory E (cfgWith cd true ds) spec s base f) := by
  unfold validateInventory
  cases ht : readText s (resolve base f) with
  | error e => cases e <;> exact lr_rfl
  | ok text =>
    dsimp only
    cases hl : E.lib.loads text with
    | none => exact lr_rfl
    | some j =>
      dsimp only
      intro hp
      have hst : StoredJson E.lib s (resolve base f) j := by
        unfold readText at ht
        cases hb : FS.read s (resolve base f) with
        | error e => rw [hb] at ht; cases ht
        | ok b =>
          rw [hb] at ht
          dsimp only at ht
          cases hu : utf8Decode b with
          | none => rw [hu] at ht; cases ht
          | some t =>
            rw [hu] at ht
            cases ht
            refine ⟨b, t, ?_, hu, hl⟩
            unfold FS.read at hb
            split at hb
            all_goals first | cases hb; assumption | cases hb
      have hs := same_validate (isWord := E.isWord) (ds := spec) (force := none) (j := j) (by
        rcases hp with hp | hp
        · exact .inl (h hp j hst)
        · right
          cases hv : IV.validate E.isWord false spec none j with
          | error e => rw [hv] at hp; exact hp.elim
          | ok r =>
            obtain ⟨r, b, es⟩ := r
            rw [hv] at hp
            exact ⟨r, b, es, rfl, hp⟩)
      cases h1 : IV.validate E.isWord false spec none j with
      | error e =>
        cases h2 : IV.validate E.isWord true spec none j with
        | error e' => rw [h1, h2] at hs; exact hs
        | ok r => rw [h1, h2] at hs; exact hs.elim
      | ok r =>
        cases h2 : IV.validate E.isWord true spec none j with
        | error e' => rw [h1, h2] at hs; exact hs.elim
        | ok r' =>
          obtain ⟨r, b, es⟩ := r
          obtain ⟨r', b', es'⟩ := r'
          rw [h1, h2] at hs
          obtain ⟨rfl, _, he⟩ := hs
          exact ⟨rfl, he⟩

theorem lr_priorInventory {root : Root} {st : VState} {v : Str}
    (h : P → ∀ j, StoredJson E.lib s (resolve base (osPathJoin v inventoryFilename)) j → OrdinaryDigests j) :
    LaxRel P (priorInventory E (cfgWith cd false ds) s base root st v) (priorInventory E (cfgWith cd true ds) s base root st v) := by
  unfold priorInventory
  exact lr_bind (lr_validateInventory h) fun _ _ => lr_rfl

theorem lr_validateVersionInventories {root : Root} {vds : List Str}
    (h : P → ∀ v ∈ vds, ∀ j, StoredJson E.lib s (resolve base (osPathJoin v inventoryFilename)) j → OrdinaryDigests j) :
    LaxRel P (validateVersionInventories E (cfgWith cd false ds) s base root vds)
      (validateVersionInventories E (cfgWith cd true ds) s base root vds) := by
  unfold validateVersionInventories
  refine lr_forM _ _ fun st v hv => ?_
  unfold versionInventory
  refine lr_ite (fun _ => lr_rfl) (fun _ => lr_bind (lr_ite (fun _ => lr_rfl) (fun _ => lr_priorInventory fun hp => h hp v hv)) fun _ _ => lr_rfl)

theorem lr_validateRest {tv : List Str} {spec : Str} {jr : Json × IV.Result} {valid : Bool}
    (h : P → ∀ v ∈ jr.2.allVersions, ∀ j, StoredJson E.lib s (resolve base (osPathJoin v inventoryFilename)) j → OrdinaryDigests j) :
    LaxRel P (validateRest E (cfgWith cd false ds) s base tv spec jr valid) (validateRest E (cfgWith cd true ds) s base tv spec jr valid) := by
  unfold validateRest
  refine lr_bind_rfl fun alg _ => lr_bind lr_rfl fun _ _ => lr_bind_rfl fun _ _ => lr_bind (lr_validateVersionInventories h) fun _ _ => lr_rfl

theorem lr_validateFirst {tv : List Str} (h : P → OrdinaryAt E s base) :
    LaxRel P (validateFirst E (cfgWith cd false ds) s base tv) (validateFirst E (cfgWith cd true ds) s base tv) := by
  unfold validateFirst
  refine lr_bind lr_rfl fun spec _ => lr_ite (fun _ => lr_rfl) (fun _ => lr_bind (lr_validateInventory fun hp j hj => ?_) fun _ _ => lr_rfl)
  exact h hp _ j (.inl (look_inventory base)) hj

end Validator
end Ocfl
