import Verif.Model.InventoryValidator
import Mathlib.Data.List.Basic

/-!
# Validation steps without errors
-/

namespace Ocfl
open IV V

/-- The step raises nothing, logs no error and gives `a`. -/
def Clean {α : Type} (m : V α) (a : α) : Prop := ∃ es, m = .done a es ∧ numErrors es = 0

/-- The step raises nothing. -/
def NoRaise {α : Type} (m : V α) : Prop := ∃ a es, m = .done a es

variable {α β σ : Type}

theorem numErrors_append (a b : List Entry) : numErrors (a ++ b) = numErrors a + numErrors b := by
  simp [numErrors]

theorem bind_def (m : V α) (f : α → V β) : (m >>= f) = V.bind m f := rfl

theorem pure_def (a : α) : (pure a : V α) = V.ret a := rfl

theorem clean_bind {m : V α} {f : α → V β} {b : β} :
    Clean (V.bind m f) b ↔ ∃ a, Clean m a ∧ Clean (f a) b := by
  unfold V.bind Clean
  constructor
  · rintro ⟨es, h, h0⟩
    split at h
    · cases h
    · rename_i a es1
      split at h
      · cases h
      · rename_i b' es2 h2
        cases h
        rw [numErrors_append] at h0
        exact ⟨a, ⟨es1, rfl, by omega⟩, es2, h2, by omega⟩
  · rintro ⟨a, ⟨es1, rfl, h1⟩, es2, h2, h3⟩
    refine ⟨es1 ++ es2, ?_, ?_⟩
    · simp [h2]
    · rw [numErrors_append]; omega

theorem clean_bind' {m : V α} {f : α → V β} {b : β} :
    Clean (m >>= f) b ↔ ∃ a, Clean m a ∧ Clean (f a) b := clean_bind

theorem clean_ret {a b : α} : Clean (V.ret a) b ↔ b = a := by
  unfold Clean V.ret
  constructor
  · rintro ⟨es, h, _⟩; cases h; rfl
  · rintro rfl; exact ⟨[], rfl, rfl⟩

theorem clean_err {c : Str} {u : Unit} : Clean (V.err c) u ↔ False := by
  unfold Clean V.err
  constructor
  · rintro ⟨es, h, h0⟩; cases h; simp [numErrors] at h0
  · exact False.elim

theorem clean_warn {c : Str} {u : Unit} : Clean (V.warn c) u ↔ True := by
  unfold Clean V.warn
  exact ⟨fun _ => trivial, fun _ => ⟨_, rfl, rfl⟩⟩

theorem clean_lift {x : Py α} {a : α} : Clean (V.lift x) a ↔ x = .ok a := by
  unfold Clean V.lift
  constructor
  · rintro ⟨es, h, _⟩
    cases x with
    | error e => cases h
    | ok b => cases h; rfl
  · rintro rfl; exact ⟨[], rfl, rfl⟩

theorem clean_raise {e : PyErr} {a : α} : Clean (V.raise e) a ↔ False := by
  unfold Clean V.raise
  constructor
  · rintro ⟨es, h, _⟩; cases h
  · exact False.elim

theorem clean_ite {p : Prop} [Decidable p] {m m' : V α} {a : α} :
    Clean (if p then m else m') a ↔ (p ∧ Clean m a) ∨ (¬ p ∧ Clean m' a) := by
  by_cases h : p <;> simp [h]

theorem clean_unit_bind {m : V Unit} {f : Unit → V β} {b : β} :
    Clean (m >>= f) b ↔ Clean m () ∧ Clean (f ()) b := by
  rw [clean_bind']
  exact ⟨fun ⟨a, h⟩ => h, fun h => ⟨(), h⟩⟩

theorem clean_forM_nil {f : σ → α → V σ} {s s' : σ} : Clean (V.forM f [] s) s' ↔ s' = s := clean_ret

theorem clean_forM_cons {f : σ → α → V σ} {x : α} {l : List α} {s s' : σ} :
    Clean (V.forM f (x :: l) s) s' ↔ ∃ s1, Clean (f s x) s1 ∧ Clean (V.forM f l s1) s' := clean_bind

/-- A loop that carries nothing is clean when every round is. -/
theorem clean_forM_unit {f : Unit → α → V Unit} {l : List α} {u : Unit} :
    Clean (V.forM f l ()) u ↔ ∀ x ∈ l, Clean (f () x) () := by
  induction l with
  | nil => simp [clean_forM_nil]
  | cons x l ih =>
    rw [clean_forM_cons]
    simp only [List.mem_cons, forall_eq_or_imp]
    constructor
    · rintro ⟨s1, h1, h2⟩; exact ⟨h1, ih.mp h2⟩
    · rintro ⟨h1, h2⟩; exact ⟨(), h1, ih.mpr h2⟩

theorem noRaise_bind {m : V α} {f : α → V β} (h : NoRaise m) (hf : ∀ a es, m = .done a es → NoRaise (f a)) :
    NoRaise (m >>= f) := by
  obtain ⟨a, es, h⟩ := h
  obtain ⟨b, es', h'⟩ := hf a es h
  refine ⟨b, es ++ es', ?_⟩
  subst h
  rw [bind_def]
  simp [V.bind, h']

theorem noRaise_ret {a : α} : NoRaise (V.ret a) := ⟨_, _, rfl⟩
theorem noRaise_err {c : Str} : NoRaise (V.err c) := ⟨_, _, rfl⟩
theorem noRaise_warn {c : Str} : NoRaise (V.warn c) := ⟨_, _, rfl⟩

theorem noRaise_forM {f : σ → α → V σ} {l : List α} (h : ∀ x ∈ l, ∀ s, NoRaise (f s x)) (s : σ) :
    NoRaise (V.forM f l s) := by
  induction l generalizing s with
  | nil => exact noRaise_ret
  | cons x l ih =>
    exact noRaise_bind (h x (List.mem_cons_self ..) s)
      (fun a _ _ => ih (fun y hy => h y (List.mem_cons_of_mem _ hy)) a)

end Ocfl
