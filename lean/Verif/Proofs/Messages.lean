import Verif.Spec.Messages
import Verif.Model.Validator
import Verif.Py.DictLemmas

/-!
# Every code is in the table
-/

namespace Ocfl
open Spec

namespace V

/-- All entries have the property. -/
def All {α : Type} (P : Entry → Prop) : V α → Prop
  | .done _ es => ∀ e ∈ es, P e
  | .raised _ => True

variable {α β σ : Type} {P : Entry → Prop}

theorem all_ret {a : α} : All P (V.ret a) := fun _ he => absurd he List.not_mem_nil

theorem all_pure {a : α} : All P (pure a : V α) := all_ret

theorem all_raise {e : PyErr} : All P (V.raise e : V α) := trivial

theorem all_lift {x : Py α} : All P (V.lift x) := by
  cases x with
  | error e => exact trivial
  | ok a => exact all_ret

theorem all_err {c : Str} (h : P ⟨true, c⟩) : All P (V.err c) := by
  intro e he
  cases List.mem_singleton.mp he
  exact h

theorem all_warn {c : Str} (h : P ⟨false, c⟩) : All P (V.warn c) := by
  intro e he
  cases List.mem_singleton.mp he
  exact h

theorem all_bind {x : V α} {f : α → V β} (h : All P x) (hf : ∀ a, All P (f a)) : All P (x >>= f) := by
  show All P (V.bind x f)
  unfold V.bind
  cases x with
  | raised e => exact trivial
  | done a es =>
    dsimp only
    have := hf a
    cases hfa : f a with
    | raised e => exact trivial
    | done b es' =>
      rw [hfa] at this
      intro e he
      rcases List.mem_append.mp he with he | he
      · exact h e he
      · exact this e he

theorem all_forM {f : σ → α → V σ} (h : ∀ s x, All P (f s x)) : ∀ (l : List α) (s : σ), All P (V.forM f l s)
  | [], _ => all_ret
  | x :: l, s => all_bind (h s x) fun s' => all_forM h l s'

end V

namespace W

/-- All entries have the property. -/
def All {α : Type} (P : Entry → Prop) : W α → Prop
  | .done _ es => ∀ e ∈ es, P e
  | .abort es => ∀ e ∈ es, P e
  | .raised _ => True

variable {α β σ : Type} {P : Entry → Prop}

theorem all_ret {a : α} : All P (W.ret a) := fun _ he => absurd he List.not_mem_nil

theorem all_py {x : Py α} : All P (W.py x) := by
  cases x with
  | error e => exact trivial
  | ok a => exact all_ret

theorem all_err {c : Str} (h : P ⟨true, c⟩) : All P (W.err c) := by
  intro e he
  cases List.mem_singleton.mp he
  exact h

theorem all_warn {c : Str} (h : P ⟨false, c⟩) : All P (W.warn c) := by
  intro e he
  cases List.mem_singleton.mp he
  exact h

theorem all_errUnless {b : Bool} {c : Str} (h : P ⟨true, c⟩) : All P (W.errUnless b c) := by
  unfold W.errUnless
  split
  · exact all_ret
  · exact all_err h

theorem all_abort {c : Str} (h : P ⟨true, c⟩) : All P (.abort [⟨true, c⟩] : W α) := by
  intro e he
  cases List.mem_singleton.mp he
  exact h

theorem all_after {es : List Entry} {x : W α} (h : ∀ e ∈ es, P e) (hx : All P x) : All P (W.after es x) := by
  cases x with
  | raised e => exact trivial
  | done b es' =>
    intro e he
    rcases List.mem_append.mp he with he | he
    · exact h e he
    · exact hx e he
  | abort es' =>
    intro e he
    rcases List.mem_append.mp he with he | he
    · exact h e he
    · exact hx e he

theorem all_bind {x : W α} {f : α → W β} (h : All P x) (hf : ∀ a, All P (f a)) : All P (W.bind x f) := by
  cases x with
  | raised e => exact trivial
  | abort es => exact h
  | done a es => exact all_after h (hf a)

theorem all_forM {f : σ → α → W σ} (h : ∀ s x, All P (f s x)) : ∀ (l : List α) (s : σ), All P (W.forM f l s)
  | [], _ => all_ret
  | x :: l, s => all_bind (h s x) fun s' => all_forM h l s'

theorem all_bind_py {x : Py α} {f : α → W β} (hf : ∀ a, x = .ok a → All P (f a)) : All P (W.bind (W.py x) f) := by
  cases x with
  | error e => exact trivial
  | ok a => exact all_after (fun _ h => absurd h List.not_mem_nil) (hf a rfl)

theorem all_forEach {f : α → W Unit} (h : ∀ x, All P (f x)) : ∀ (l : List α), All P (W.forEach f l)
  | [] => all_ret
  | x :: l => all_bind (h x) fun _ => all_forEach h l

end W

/-! ## The codes that are used -/

/-- The errors of the validators. -/
def usedErrors : List Str := (Dict.keys Messages.argNames).filter (fun c => c.head? = some 'E')

/-- The warnings of the validators. -/
def usedWarnings : List Str := (Dict.keys Messages.argNames).filter (fun c => c.head? = some 'W')

/-- The entry has a code that is used for its severity. -/
def Used (e : Entry) : Prop := e.code ∈ if e.isError then usedErrors else usedWarnings

instance (e : Entry) : Decidable (Used e) := by unfold Used; infer_instance

/-- The entry has a code that is used, and is not about the digest of a file. -/
def Plain (e : Entry) : Prop := Used e ∧ e.code ∉ digestCodes

instance (e : Entry) : Decidable (Plain e) := by unfold Plain; infer_instance

theorem W.all_used {α : Type} {x : W α} (h : W.All Plain x) : W.All Used x := by
  cases x with
  | done a es => exact fun e he => (h e he).1
  | abort es => exact fun e he => (h e he).1
  | raised e => exact trivial

namespace IV
open V

/-- Splits a step into its parts and looks up the codes. -/
macro "codes" : tactic => `(tactic| repeat' (first
  | exact V.all_ret | exact V.all_pure | exact V.all_lift | exact V.all_raise
  | exact V.all_err (by decide +kernel) | exact V.all_warn (by decide +kernel)
  | assumption
  | refine V.all_bind ?_ (fun _ => ?_)
  | refine V.all_forM (fun _ _ => ?_) _ _
  | dsimp only
  | split))

theorem used_checkId {j : Json} : All Plain (checkId j) := by unfold checkId; codes
theorem used_checkType {f : Option Str} {sp : Str} {j : Json} : All Plain (checkType f sp j) := by unfold checkType; codes
theorem used_checkDigestAlgorithm {lax : Bool} {j : Json} : All Plain (checkDigestAlgorithm lax j) := by
  unfold checkDigestAlgorithm; codes
theorem used_checkContentDirectory {j : Json} : All Plain (checkContentDirectory j) := by unfold checkContentDirectory; codes
theorem used_digestMatcher {lax : Bool} {alg : Json} : All Plain (digestMatcher lax alg) := by
  unfold digestMatcher; dsimp only; codes
theorem used_checkContentPath {cd p : Str} {a b : List Str} : All Plain (checkContentPath cd p a b) := by
  unfold checkContentPath; codes
theorem used_manifestFile {cd n : Str} {s : MState} {f : Json} : All Plain (manifestFile cd n s f) := by
  have := fun p => used_checkContentPath (cd := cd) (p := p) (a := s.paths) (b := s.dirs)
  unfold manifestFile
  cases f with
  | str f => exact V.all_bind (this f) fun _ => V.all_ret
  | _ => exact V.all_raise
theorem used_manifestDigest {lax : Bool} {alg : Json} {cd : Str} {s : MState} {e : Str × Json} :
    All Plain (manifestDigest lax alg cd s e) := by
  unfold manifestDigest
  refine V.all_bind used_digestMatcher fun m => ?_
  split
  · codes
  · split
    · dsimp only
      split
      · exact V.all_bind (V.all_err (by decide +kernel)) fun _ => V.all_bind V.all_ret fun _ => V.all_forM (fun _ _ => used_manifestFile) _ _
      · exact V.all_bind V.all_ret fun _ => V.all_forM (fun _ _ => used_manifestFile) _ _
    · codes
theorem used_conflicts {c : Str} {a b : List Str} (h : Plain ⟨true, c⟩) : All Plain (conflicts c a b) := by
  unfold conflicts
  refine V.all_forM (fun _ _ => ?_) _ _
  split
  · exact V.all_err h
  · exact V.all_ret
theorem used_validateManifest {lax : Bool} {alg : Json} {cd : Str} {j : Json} : All Plain (validateManifest lax alg cd j) := by
  unfold validateManifest
  split
  · exact V.all_bind (V.all_forM (fun _ _ => used_manifestDigest) _ _) fun _ =>
      V.all_bind (used_conflicts (by decide +kernel)) fun _ => V.all_ret
  · codes
theorem used_fixityFile {mf : Option (Dict Str Str)} {f : Json} : All Plain (fixityFile mf f) := by unfold fixityFile; codes
theorem used_fixityDigest {m : Str → Bool} {k : Bool} {alg : Str} {mf : Option (Dict Str Str)} {seen : List Str} {e : Str × Json} :
    All Plain (fixityDigest m k alg mf seen e) := by
  have := fun f => used_fixityFile (mf := mf) (f := f)
  unfold fixityDigest
  split
  · codes
  · split
    · dsimp only
      generalize (if k = true then normalizedDigest e.1 alg else e.1) = norm
      split
      · exact V.all_bind (V.all_err (by decide +kernel)) fun _ => V.all_bind V.all_ret fun _ =>
          V.all_bind (V.all_forM (fun _ _ => used_fixityFile) _ _) fun _ => V.all_ret
      · exact V.all_bind V.all_ret fun _ => V.all_bind (V.all_forM (fun _ _ => used_fixityFile) _ _) fun _ => V.all_ret
    · codes
theorem used_fixityBlock {m : Str → Bool} {k : Bool} {alg : Str} {mf : Option (Dict Str Str)} {b : Json} :
    All Plain (fixityBlock m k alg mf b) := by
  unfold fixityBlock
  split
  · exact V.all_bind (V.all_forM (fun _ _ => used_fixityDigest) _ _) fun _ => V.all_ret
  · codes
theorem used_fixityPart {lax : Bool} {sp : Str} {mf : Option (Dict Str Str)} {j : Json} : All Plain (fixityPart lax sp mf j) := by
  unfold fixityPart
  refine V.all_bind V.all_lift fun _ => ?_
  split
  · refine V.all_bind V.all_lift fun fx => ?_
    unfold validateFixity
    split
    · refine V.all_forM (fun _ e => ?_) _ _
      unfold fixityAlgorithm
      split
      · exact used_fixityBlock
      · split
        · codes
        · exact used_fixityBlock
    · split
      · codes
      · codes
  · codes
theorem used_sequenceFrom {vs : List (Str × Json)} {w : Option Nat} {n : Nat} : All Plain (sequenceFrom vs w n) := by
  unfold sequenceFrom; dsimp only; codes
theorem used_versionSequence {j : Json} : All Plain (validateVersionSequence j) := by
  unfold validateVersionSequence
  split
  · split
    · codes
    · split
      · exact used_sequenceFrom
      · split
        · codes
        · exact V.all_bind (V.all_warn (by decide +kernel)) fun _ => used_sequenceFrom
  · codes
theorem used_statePath {s : List Str × List Str} {f : Json} : All Plain (statePath s f) := by
  unfold statePath checkLogicalPath; dsimp only; codes
theorem used_stateDigest {m : Str → Bool} {alg : Json} {u : Option (List Str)} {s : (List Str × List Str) × List Str} {e : Str × Json} :
    All Plain (stateDigest m alg u s e) := by
  unfold stateDigest
  split
  · codes
  · split
    · exact V.all_bind (V.all_forM (fun _ _ => used_statePath) _ _) fun _ => by codes
    · codes
theorem used_stateBlock {lax : Bool} {alg : Json} {u : Option (List Str)} {j : Json} : All Plain (validateStateBlock lax alg u j) := by
  unfold validateStateBlock
  split
  · exact V.all_bind used_digestMatcher fun _ => V.all_bind (V.all_forM (fun _ _ => used_stateDigest) _ _) fun _ =>
      V.all_bind (used_conflicts (by decide +kernel)) fun _ => V.all_ret
  · codes
theorem used_checkCreated {j : Json} : All Plain (checkCreated j) := by unfold checkCreated; codes
theorem used_checkMessage {j : Json} : All Plain (checkMessage j) := by unfold checkMessage; codes
theorem used_checkUser {w : Char → Bool} {j : Json} : All Plain (checkUser w j) := by unfold checkUser; codes
theorem used_version {w : Char → Bool} {lax : Bool} {alg : Json} {u : Option (List Str)} {vs : Json} {used : List Str} {v : Str} :
    All Plain (validateVersion w lax alg u vs used v) := by
  unfold validateVersion
  refine V.all_bind V.all_lift fun ver => V.all_bind used_checkCreated fun _ => V.all_bind V.all_lift fun b => ?_
  have fin : ∀ us : List Str, All Plain (do checkMessage ver; checkUser w ver; V.ret us) := fun us =>
    V.all_bind used_checkMessage fun _ => V.all_bind used_checkUser fun _ => V.all_ret
  dsimp only
  split
  · exact V.all_bind V.all_lift fun _ => V.all_bind used_stateBlock fun _ => V.all_bind V.all_ret fun _ => fin _
  · exact V.all_bind (V.all_err (by decide +kernel)) fun _ => V.all_bind V.all_ret fun _ => fin _
theorem used_body {w : Char → Bool} {lax : Bool} {ds : Str} {force : Option Str} {j : Json} :
    All Plain (validateBody w lax ds force j) := by
  unfold validateBody
  refine V.all_bind used_checkId fun _ => V.all_bind used_checkType fun _ => V.all_bind used_checkDigestAlgorithm fun a => ?_
  cases a with
  | none => exact V.all_ret
  | some alg =>
    refine V.all_bind used_checkContentDirectory fun cd => ?_
    unfold validateRest
    refine V.all_bind ?_ fun man => V.all_bind ?_ fun vu => V.all_bind ?_ fun head => ?_
    · unfold manifestPart
      refine V.all_bind V.all_lift fun _ => ?_
      split
      · exact V.all_bind V.all_lift fun _ => V.all_bind used_validateManifest fun _ => V.all_ret
      · codes
    · unfold versionsPart
      refine V.all_bind V.all_lift fun _ => ?_
      split
      · exact V.all_bind V.all_lift fun _ => V.all_bind used_versionSequence fun _ =>
          V.all_bind (V.all_forM (fun _ _ => used_version) _ _) fun _ => V.all_ret
      · codes
    · unfold headPart checkHead; codes
    · dsimp only
      split
      · exact V.all_ret
      · refine V.all_bind ?_ fun _ => V.all_bind used_fixityPart fun _ => V.all_ret
        unfold crossPart checkPathVersions checkDigestsUsed; codes

/-- All entries made by the validation of an inventory have codes that are used. -/
theorem used_validate {w : Char → Bool} {lax : Bool} {ds : Str} {force : Option Str} {j : Json} {r : Result} {b : Bool}
    {es : List Entry} (h : validate w lax ds force j = .ok (r, b, es)) : ∀ e ∈ es, Plain e := by
  have hb : All Plain (validateBody w lax ds force j) := used_body
  unfold validate at h
  split at h
  · cases h
  · rename_i he
    rw [he] at hb
    cases h
    exact hb
  · rename_i he
    rw [he] at hb
    cases h
    split
    · intro e he
      rcases List.mem_append.mp he with he | he
      · exact hb e he
      · cases List.mem_singleton.mp he
        decide +kernel
    · exact hb

theorem used_prior {same : Option Json → Option Json → Bool} {self prior : Json × Result} {b : Bool} {es : List Entry}
    (h : validateAsPriorVersion same self prior = .ok (b, es)) : ∀ e ∈ es, Plain e := by
  have hb : All Plain (priorBody same self prior) := by
    unfold priorBody
    dsimp only
    split
    · codes
    · refine V.all_forM (fun _ v => ?_) _ _
      unfold priorStep
      refine V.all_bind ?_ fun _ => V.all_bind V.all_lift fun _ => V.all_bind V.all_lift fun _ => V.all_bind ?_ fun _ => ?_
      · unfold compareStatesIf compareStates; codes
      · unfold compareMaps; dsimp only; codes
      · unfold compareMetadata; codes
  unfold validateAsPriorVersion at h
  split at h
  · cases h
  · rename_i he
    rw [he] at hb
    cases h
    exact hb

end IV

namespace Validator
open W

/-- Splits a step into its parts and looks up the codes. -/
macro "wcodes" : tactic => `(tactic| repeat' (first
  | exact W.all_ret | exact W.all_py | exact trivial
  | exact W.all_err (by decide +kernel) | exact W.all_warn (by decide +kernel)
  | exact W.all_errUnless (by decide +kernel) | exact W.all_abort (by decide +kernel)
  | assumption
  | refine W.all_bind ?_ (fun _ => ?_)
  | refine W.all_forM (fun _ _ => ?_) _ _
  | refine W.all_forEach (fun _ => ?_) _
  | dsimp only
  | split))

theorem used_declaration {E : Env} {cfg : Config} {s : FS} {base : Path} {tv : List Str} :
    All Plain (checkDeclaration E cfg s base tv) := by
  unfold checkDeclaration declStep
  wcodes
theorem used_inventory {E : Env} {cfg : Config} {spec : Str} {s : FS} {base : Path} {f : Str} :
    All Plain (validateInventory E cfg spec s base f) := by
  unfold validateInventory
  split
  · wcodes
  · wcodes
  · split
    · wcodes
    · split
      · wcodes
      · rename_i h
        exact IV.used_validate h
theorem used_inventoryDigest {E : Env} {cfg : Config} {s : FS} {base : Path} {f alg : Str} :
    All Used (validateInventoryDigest E cfg s base f alg) := by
  unfold validateInventoryDigest validateDigestMatch
  wcodes
theorem used_objectRoot {s : FS} {base : Path} {spec alg : Str} {vd ac : List Str} :
    All Plain (validateObjectRoot s base spec alg vd ac) := by
  unfold validateObjectRoot rootEntry validateExtensionsDir
  wcodes
theorem used_priorInventory {E : Env} {cfg : Config} {s : FS} {base : Path} {root : Root} {st : VState} {v : Str} :
    All Used (priorInventory E cfg s base root st v) := by
  unfold priorInventory
  refine all_bind (all_used used_inventory) fun jr => all_bind all_py fun alg => all_bind used_inventoryDigest fun _ => all_bind ?_ fun _ =>
    all_bind (all_errUnless (by decide +kernel)) fun _ => all_bind (all_errUnless (by decide +kernel)) fun _ =>
    all_bind ?_ fun _ => ?_
  · unfold checkSameId; wcodes
  · unfold recordManifest; wcodes
  · refine all_bind_py fun pv hp => all_bind (fun e he => (IV.used_prior hp e he).1) fun _ => all_bind ?_ fun _ => all_ret
    unfold recordFixity; wcodes
theorem used_versionInventories {E : Env} {cfg : Config} {s : FS} {base : Path} {root : Root} {vd : List Str} :
    All Used (validateVersionInventories E cfg s base root vd) := by
  unfold validateVersionInventories
  refine all_forM (fun st v => ?_) _ _
  unfold versionInventory
  split
  · wcodes
  · refine all_bind ?_ fun _ => by wcodes
    split
    · unfold lastInventory
      refine all_bind all_py fun _ => all_bind ?_ fun _ => all_ret
      split
      · exact used_inventoryDigest
      · wcodes
    · exact used_priorInventory
theorem used_additional {E : Env} {s : FS} {base : Path} {f c : Str} {r : Recorded} (h : Used ⟨true, c⟩) :
    All Used (checkAdditional E s base f c r) := by
  unfold checkAdditional
  refine all_forEach (fun x => ?_) _
  split
  · exact all_bind all_py fun _ => all_errUnless h
  · exact all_ret
theorem used_content {E : Env} {cfg : Config} {s : FS} {base : Path} {root : Root} {st : VState} {vd : List Str} :
    All Used (validateContent E cfg s base root st vd) := by
  unfold validateContent
  refine all_bind ?_ fun seen => all_bind ?_ fun fixity => all_bind ?_ fun left => all_errUnless (by decide +kernel)
  · unfold versionContent versionEntry contentFiles; wcodes
  · unfold rootFixity; wcodes
  · unfold manifestContent
    refine all_bind all_py fun _ => ?_
    split
    · exact all_ret
    · refine all_bind all_py fun _ => all_bind all_py fun _ => all_forM (fun left e => ?_) _ _
      unfold manifestFile
      split
      · wcodes
      · refine all_bind ?_ fun _ => all_ret
        split
        · exact all_bind all_py fun _ => all_bind (all_errUnless (by decide +kernel)) fun _ =>
            all_bind (used_additional (by decide +kernel)) fun _ => all_bind (used_additional (by decide +kernel)) fun _ =>
            used_additional (by decide +kernel)
        · exact all_ret

/-- All entries made by the validation of an object have codes that are used. -/
theorem used_object {E : Env} {cfg : Config} {errors : Nat} {s : FS} {path : Str} {ok : Bool} {es : List Entry}
    (h : validateObject E cfg errors s path = .ok (ok, es)) : ∀ e ∈ es, Used e := by
  unfold validateObject at h
  split at h
  · cases h
    intro e he
    cases List.mem_singleton.mp he
    decide +kernel
  · cases h
  · rename_i base _
    unfold validateAt at h
    split at h
    · cases h
    · rename_i tv _
      have hs : All Used (validateSteps E cfg errors s base tv) := by
        have h1 : All Used (validateFirst E cfg s base tv) := by
          unfold validateFirst
          refine all_bind (all_used used_declaration) fun spec => ?_
          split
          · wcodes
          · exact all_bind (all_used used_inventory) fun _ => all_ret
        unfold validateSteps
        split
        · exact trivial
        · rename_i he; rw [he] at h1; exact h1
        · rename_i he; rw [he] at h1; exact h1
        · rename_i he
          rw [he] at h1
          refine all_after h1 ?_
          unfold validateRest
          refine all_bind all_py fun _ => all_bind used_inventoryDigest fun _ => all_bind (all_used used_objectRoot) fun _ =>
            all_bind used_versionInventories fun _ => ?_
          split
          · exact used_content
          · exact all_ret
      split at h
      · cases h
      · rename_i he; rw [he] at hs; cases h; exact hs
      · rename_i he; rw [he] at hs; cases h; exact hs

end Validator

/-! ## The texts -/

namespace Messages

/-- The number of places `%s`, if there is no other use of `%`. -/
def places : Str → Option Nat
  | [] => some 0
  | '%' :: 's' :: rest => (places rest).map (· + 1)
  | '%' :: _ => none
  | _ :: rest => places rest

theorem percent_filled : ∀ (template : Str) (values : List Str), places template = some values.length →
    ∃ text, percent template values = some text ∧ FilledIn template values text := by
  intro template
  induction template using places.induct with
  | case1 =>
    intro values h
    cases values with
    | nil => exact ⟨[], rfl, .nil⟩
    | cons v vs => cases h
  | case2 rest ih =>
    intro values h
    rw [places] at h
    cases values with
    | nil =>
      cases hp : places rest with
      | none => rw [hp] at h; cases h
      | some n => rw [hp] at h; cases h
    | cons v vs =>
      cases hp : places rest with
      | none => rw [hp] at h; cases h
      | some n =>
        rw [hp] at h
        have hn : n = vs.length := by simpa using h
        obtain ⟨text, h1, h2⟩ := ih vs (by rw [hp, hn])
        refine ⟨v ++ text, ?_, .place h2⟩
        rw [percent, h1]
        rfl
  | case3 rest hne =>
    intro values h
    rw [places] at h
    · cases h
    · exact hne
  | case4 c rest h1 h2 ih =>
    intro values h
    rw [places] at h
    · obtain ⟨text, h3, h4⟩ := ih values h
      have hc : c ≠ '%' := by grind
      refine ⟨c :: text, ?_, .char hc h4⟩
      rw [percent, h3]
      · rfl
      all_goals grind
    · exact h1
    · exact h2

end Messages
end Ocfl
