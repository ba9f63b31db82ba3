import Verif.Proofs.Messages
import Verif.Model.StorageRoot

/-!
# Validation without checking digests

The same steps with and without `check_digests`.
-/

namespace Ocfl
open Spec

theorem withoutDigests_append (a b : List Entry) : withoutDigests (a ++ b) = withoutDigests a ++ withoutDigests b := List.filter_append ..

theorem withoutDigests_plain {es : List Entry} (h : ∀ e ∈ es, Plain e) : withoutDigests es = es :=
  List.filter_eq_self.mpr fun e he => by simpa using (h e he).2

namespace W

variable {α β σ : Type}

/-- The second step does the same as the first one, without the reports about digests, unless the first one
ends with an exception. -/
def Drops : W α → W α → Prop
  | .done a es, y => y = .done a (withoutDigests es)
  | .abort es, y => y = .abort (withoutDigests es)
  | .raised _, _ => True

theorem drops_rfl {x : W α} (h : All Plain x) : Drops x x := by
  cases x with
  | done a es =>
    show W.done a es = .done a (withoutDigests es)
    rw [withoutDigests_plain h]
  | abort es =>
    show W.abort es = .abort (withoutDigests es)
    rw [withoutDigests_plain h]
  | raised e => trivial

theorem drops_after {es : List Entry} {x y : W α} (h : Drops x y) : Drops (after es x) (after (withoutDigests es) y) := by
  cases x with
  | done a es' => cases h; exact congrArg _ (withoutDigests_append _ _).symm
  | abort es' => cases h; exact congrArg _ (withoutDigests_append _ _).symm
  | raised e => trivial

theorem drops_bind {x y : W α} {f g : α → W β} (h : Drops x y) (hf : ∀ a, Drops (f a) (g a)) : Drops (W.bind x f) (W.bind y g) := by
  cases x with
  | done a es => cases h; exact drops_after (hf a)
  | abort es => cases h; rfl
  | raised e => trivial

theorem drops_bind_rfl {x : W α} {f g : α → W β} (h : All Plain x) (hf : ∀ a, Drops (f a) (g a)) : Drops (W.bind x f) (W.bind x g) :=
  drops_bind (drops_rfl h) hf

theorem drops_py {x : Py α} {f g : α → W β} (hf : ∀ a, x = .ok a → Drops (f a) (g a)) : Drops (W.bind (py x) f) (W.bind (py x) g) := by
  cases x with
  | error e => trivial
  | ok a => exact drops_after (es := []) (hf a rfl)

theorem drops_ret {a : α} : Drops (W.ret a) (W.ret a) := rfl

theorem drops_forM {f g : σ → α → W σ} (h : ∀ s x, Drops (f s x) (g s x)) : ∀ (l : List α) (s : σ), Drops (W.forM f l s) (W.forM g l s)
  | [], _ => drops_ret
  | x :: l, s => drops_bind (h s x) fun s' => drops_forM h l s'

/-- Every entry is about a digest. -/
def AllDigest (x : W Unit) : Prop := Drops x (W.ret ())

theorem gone_ret : AllDigest (W.ret ()) := rfl

theorem gone_err {c : Str} (h : c ∈ digestCodes) : AllDigest (err c) := by
  unfold AllDigest err Drops withoutDigests
  simp [h, W.ret]

theorem gone_errUnless {b : Bool} {c : Str} (h : c ∈ digestCodes) : AllDigest (errUnless b c) := by
  unfold errUnless
  split
  · exact gone_ret
  · exact gone_err h

theorem gone_bind {x : W Unit} {f : Unit → W Unit} (h : AllDigest x) (hf : AllDigest (f ())) : AllDigest (W.bind x f) := by
  have := drops_bind (g := fun _ => W.ret ()) h (fun _ => hf)
  exact this

theorem gone_py {x : Py α} {f : α → W Unit} (hf : ∀ a, AllDigest (f a)) : AllDigest (W.bind (py x) f) := by
  cases x with
  | error e => trivial
  | ok a => exact drops_after (es := []) (hf a)

theorem gone_forEach {f : α → W Unit} (h : ∀ x, AllDigest (f x)) : ∀ l : List α, AllDigest (forEach f l)
  | [] => gone_ret
  | x :: l => gone_bind (h x) (gone_forEach h l)

end W

namespace Validator
open W hiding bind

variable {E : Env} {cfg : Config} {s : FS} {base : Path}

/-- The settings with and without checking digests. -/
abbrev Config.on (cfg : Config) : Config := { cfg with checkDigests := true }
abbrev Config.off (cfg : Config) : Config := { cfg with checkDigests := false }

theorem drops_digestMatch {f df : Str} : Drops (validateDigestMatch E cfg.on s base f df) (validateDigestMatch E cfg.off s base f df) := by
  have : AllDigest (validateDigestMatch E cfg.on s base f df) := by
    unfold validateDigestMatch
    rw [if_neg (by simp)]
    split
    · exact gone_err (by decide)
    · split
      · exact gone_err (by decide)
      · exact gone_err (by decide)
      · trivial
      · exact gone_errUnless (by decide)
  exact this

theorem drops_inventoryDigest {f alg : Str} : Drops (validateInventoryDigest E cfg.on s base f alg) (validateInventoryDigest E cfg.off s base f alg) := by
  unfold validateInventoryDigest
  dsimp only
  split
  · exact drops_rfl (all_err (by decide +kernel))
  · exact drops_digestMatch

theorem drops_priorInventory {root : Root} {st : VState} {v : Str} :
    Drops (priorInventory E cfg.on s base root st v) (priorInventory E cfg.off s base root st v) := by
  unfold priorInventory
  refine drops_bind_rfl (x := validateInventory E cfg.on root.spec s base (osPathJoin v inventoryFilename)) used_inventory fun jr =>
    drops_bind_rfl all_py fun alg => drops_bind drops_inventoryDigest fun _ => drops_rfl ?_
  refine all_bind ?_ fun _ =>
    all_bind (all_errUnless (by decide +kernel)) fun _ => all_bind (all_errUnless (by decide +kernel)) fun _ =>
    all_bind ?_ fun _ => ?_
  · unfold checkSameId; wcodes
  · unfold recordManifest; wcodes
  · refine all_bind_py fun pv hp => all_bind (IV.used_prior hp) fun _ => all_bind ?_ fun _ => all_ret
    unfold recordFixity; wcodes

theorem drops_versionInventories {root : Root} {vd : List Str} :
    Drops (validateVersionInventories E cfg.on s base root vd) (validateVersionInventories E cfg.off s base root vd) := by
  unfold validateVersionInventories
  refine drops_forM (fun st v => ?_) _ _
  unfold versionInventory
  split
  · exact drops_rfl (by wcodes)
  · refine drops_bind ?_ fun _ => drops_rfl (by wcodes)
    split
    · unfold lastInventory
      refine drops_bind_rfl all_py fun _ => drops_bind ?_ fun _ => drops_ret
      split
      · exact drops_inventoryDigest
      · exact drops_rfl (by wcodes)
    · exact drops_priorInventory

theorem gone_additional {f c : Str} {r : Recorded} (h : c ∈ digestCodes) : AllDigest (checkAdditional E s base f c r) := by
  unfold checkAdditional
  refine gone_forEach (fun x => ?_) _
  split
  · exact gone_py fun _ => gone_errUnless h
  · exact gone_ret

theorem drops_content {root : Root} {st : VState} {vd : List Str} :
    Drops (validateContent E cfg.on s base root st vd) (validateContent E cfg.off s base root st vd) := by
  unfold validateContent
  refine drops_bind_rfl ?_ fun seen => drops_bind_rfl ?_ fun fixity => drops_bind ?_ fun left => drops_rfl (all_errUnless (by decide +kernel))
  · unfold versionContent versionEntry contentFiles; wcodes
  · unfold rootFixity; wcodes
  · unfold manifestContent
    refine drops_bind_rfl all_py fun _ => ?_
    split
    · exact drops_ret
    · refine drops_bind_rfl all_py fun _ => drops_bind_rfl all_py fun _ => drops_forM (fun left e => ?_) _ _
      unfold manifestFile
      split
      · exact drops_rfl (by wcodes)
      · refine drops_bind ?_ fun _ => drops_ret
        rw [if_pos rfl, if_neg (by simp)]
        exact gone_py fun _ => gone_bind (gone_errUnless (by decide)) (gone_bind (gone_additional (by decide))
          (gone_bind (gone_additional (by decide)) (gone_additional (by decide))))

theorem drops_rest {tv : List Str} {spec : Str} {jr : Json × IV.Result} {valid : Bool} :
    Drops (validateRest E cfg.on s base tv spec jr valid) (validateRest E cfg.off s base tv spec jr valid) := by
  unfold validateRest
  refine drops_bind_rfl all_py fun alg => drops_bind drops_inventoryDigest fun _ => drops_bind_rfl used_objectRoot fun _ =>
    drops_bind drops_versionInventories fun st => ?_
  split
  · exact drops_content
  · exact drops_ret

theorem plain_first {tv : List Str} : All Plain (validateFirst E cfg s base tv) := by
  unfold validateFirst
  refine all_bind used_declaration fun spec => ?_
  split
  · wcodes
  · exact all_bind used_inventory fun _ => all_ret

theorem drops_steps {errors : Nat} {tv : List Str} :
    Drops (validateSteps E cfg.on errors s base tv) (validateSteps E cfg.off errors s base tv) := by
  have hfirst : validateFirst E cfg.off s base tv = validateFirst E cfg.on s base tv := rfl
  have hp : All Plain (validateFirst E cfg.on s base tv) := plain_first
  unfold validateSteps
  rw [hfirst]
  cases hf : validateFirst E cfg.on s base tv with
  | raised e => trivial
  | abort es => rw [hf] at hp; exact drops_rfl (x := W.abort es) hp
  | done r es =>
    rw [hf] at hp
    cases r with
    | none => exact drops_rfl (x := W.done () es) hp
    | some r =>
      have := drops_after (es := es) (drops_rest (E := E) (cfg := cfg) (s := s) (base := base) (tv := tv) (spec := r.1) (jr := r.2)
        (valid := decide (errors + IV.numErrors es = 0)))
      rw [withoutDigests_plain hp] at this
      exact this

/-- The whole report. -/
theorem drops_at {errors : Nat} {ok : Bool} {es : List Entry} (h : validateAt E cfg.on errors s base = .ok (ok, es)) :
    ∃ ok', validateAt E cfg.off errors s base = .ok (ok', withoutDigests es) ∧
      (ok = true ↔ errors + IV.numErrors es = 0) ∧ (ok' = true ↔ errors + IV.numErrors (withoutDigests es) = 0) := by
  unfold validateAt at h ⊢
  cases hn : findNamastes s base 0 [] 10 with
  | error e => rw [hn] at h; cases h
  | ok tv =>
    rw [hn] at h
    have hd := drops_steps (E := E) (cfg := cfg) (s := s) (base := base) (errors := errors) (tv := tv)
    dsimp only at h ⊢
    cases hs : validateSteps E cfg.on errors s base tv with
    | raised e => rw [hs] at h; cases h
    | abort es' =>
      rw [hs] at h hd
      cases h
      rw [show validateSteps E cfg.off errors s base tv = _ from hd]
      exact ⟨_, rfl, by simp, by simp⟩
    | done a es' =>
      rw [hs] at h hd
      cases h
      rw [show validateSteps E cfg.off errors s base tv = _ from hd]
      exact ⟨_, rfl, by simp, by simp⟩

theorem drops_object {errors : Nat} {path : Str} {ok : Bool} {es : List Entry} (h : validateObject E cfg.on errors s path = .ok (ok, es)) :
    ∃ ok', validateObject E cfg.off errors s path = .ok (ok', withoutDigests es) ∧
      (ok = true ↔ errors + IV.numErrors es = 0) ∧ (ok' = true ↔ errors + IV.numErrors (withoutDigests es) = 0) := by
  unfold validateObject at h ⊢
  cases ho : fswOpen E.cwd path s with
  | error e =>
    rw [ho] at h
    cases e <;> cases h
    exact ⟨false, rfl, by simp [IV.numErrors], by simp [IV.numErrors, withoutDigests, digestCodes]⟩
  | ok base =>
    rw [ho] at h
    exact drops_at h

end Validator

namespace Store

/-- As many objects of a storage root are valid, or more. -/
theorem drops_goodObjects {E : Env} {cfg : Validator.Config} {s : FS} {base : Path} : ∀ {ps : List Str} {n : Nat},
    goodObjects E cfg.on s base ps = .ok n → ∃ m, goodObjects E cfg.off s base ps = .ok m ∧ n ≤ m
  | [], n, h => ⟨0, rfl, by cases h; rfl⟩
  | p :: ps, n, h => by
    unfold goodObjects at h ⊢
    cases hv : Validator.validateAt E cfg.on 0 s (FS.resolve base p) with
    | error e => rw [hv] at h; cases h
    | ok x =>
      obtain ⟨ok, es⟩ := x
      rw [hv] at h
      obtain ⟨ok', h1, h2, h3⟩ := Validator.drops_at hv
      dsimp only at h
      cases hg : goodObjects E cfg.on s base ps with
      | error e => rw [hg] at h; cases h
      | ok k =>
        rw [hg] at h
        cases h
        obtain ⟨m, hm, hk⟩ := drops_goodObjects hg
        rw [h1, hm]
        refine ⟨_, rfl, ?_⟩
        have himp : ok = true → ok' = true := fun h => by
          have h := h2.mp h
          refine h3.mpr ?_
          have hle : IV.numErrors (withoutDigests es) ≤ IV.numErrors es := by
            unfold IV.numErrors withoutDigests
            exact (List.filter_sublist.filter _).length_le
          omega
        cases ok with
        | true => rw [himp rfl]; simpa using hk
        | false => cases ok' <;> simp <;> omega

end Store
end Ocfl
