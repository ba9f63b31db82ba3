import Verif.Model.Logger
import Verif.Py.DictLemmas

/-!
# C44: the validation log
-/

namespace Ocfl

/-- What one call changes. -/
theorem Logger.call_eq (l : Logger) (c : Logger.Call) :
    (l.call c).numErrors = l.numErrors + (if c.isError then 1 else 0) ∧
    (l.call c).numWarnings = l.numWarnings + (if c.isError then 0 else 1) ∧
    (l.call c).messages = l.messages ++
      (if (if c.isError then l.logErrors else l.logWarnings) then [c.text] else []) ∧
    (l.call c).logErrors = l.logErrors ∧ (l.call c).logWarnings = l.logWarnings ∧
    (l.call c).codes = Dict.set l.codes c.code c.text := by
  obtain ⟨e, code, text⟩ := c
  cases e <;>
    simp only [Logger.call, Logger.error, Logger.warning, Logger.log, Bool.true_and, Bool.false_and, Bool.not_true,
      Bool.not_false, Bool.or_false, Bool.false_or, if_true, Bool.false_eq_true, if_false] <;>
    split <;> simp

/-- **C44** After any sequence of calls the two counts have grown by the numbers of errors and of
warnings in the sequence, and exactly the texts of the shown kinds have been recorded, in order. -/
theorem C44 (l : Logger) (cs : List Logger.Call) :
    (l.calls cs).numErrors = l.numErrors + (cs.filter (fun c => c.isError)).length ∧
    (l.calls cs).numWarnings = l.numWarnings + (cs.filter (fun c => !c.isError)).length ∧
    (l.calls cs).messages = l.messages ++
      (cs.filter (fun c => (c.isError && l.logErrors) || (!c.isError && l.logWarnings))).map (fun c => c.text) := by
  induction cs generalizing l with
  | nil => simp [Logger.calls]
  | cons c cs ih =>
    obtain ⟨h1, h2, h3, h4, h5, _⟩ := Logger.call_eq l c
    have := ih (l.call c)
    rw [show (l.call c).calls cs = l.calls (c :: cs) from rfl] at this
    obtain ⟨i1, i2, i3⟩ := this
    rw [i1, i2, i3, h1, h2, h3, h4, h5]
    refine ⟨?_, ?_, ?_⟩
    · cases hc : c.isError <;> simp [hc]; omega
    · cases hc : c.isError <;> simp [hc]; omega
    · cases hc : c.isError <;> cases he : l.logErrors <;> cases hw : l.logWarnings <;> simp [hc]

/-- **C44**, display options: the counts do not depend on them. -/
theorem C44_options (l l' : Logger) (cs : List Logger.Call)
    (he : l.numErrors = l'.numErrors) (hw : l.numWarnings = l'.numWarnings) :
    (l.calls cs).numErrors = (l'.calls cs).numErrors ∧ (l.calls cs).numWarnings = (l'.calls cs).numWarnings := by
  rw [(C44 l cs).1, (C44 l' cs).1, (C44 l cs).2.1, (C44 l' cs).2.1, he, hw]
  exact ⟨rfl, rfl⟩

/-- **C44**, order: any rearrangement of the calls gives the same counts. -/
theorem C44_order (l : Logger) {cs cs' : List Logger.Call} (h : cs.Perm cs') :
    (l.calls cs).numErrors = (l.calls cs').numErrors ∧ (l.calls cs).numWarnings = (l.calls cs').numWarnings := by
  rw [(C44 l cs).1, (C44 l cs').1, (C44 l cs).2.1, (C44 l cs').2.1,
    (h.filter _).length_eq, (h.filter _).length_eq]
  exact ⟨rfl, rfl⟩

/-- **C44**, monotone: further calls never lower a count and never remove a message. -/
theorem C44_monotone (l : Logger) (cs more : List Logger.Call) :
    (l.calls cs).numErrors ≤ (l.calls (cs ++ more)).numErrors ∧
    (l.calls cs).numWarnings ≤ (l.calls (cs ++ more)).numWarnings ∧
    (l.calls cs).messages <+: (l.calls (cs ++ more)).messages := by
  have h : l.calls (cs ++ more) = (l.calls cs).calls more := List.foldl_append ..
  rw [h, (C44 (l.calls cs) more).1, (C44 (l.calls cs) more).2.1, (C44 (l.calls cs) more).2.2]
  exact ⟨Nat.le_add_right _ _, Nat.le_add_right _ _, List.prefix_append _ _⟩

/-- **C44**, codes: every code raised is remembered, whatever is shown. -/
theorem C44_codes (l : Logger) (cs : List Logger.Call) (code : Str) :
    Dict.has (l.calls cs).codes code = true ↔ Dict.has l.codes code = true ∨ ∃ c ∈ cs, c.code = code := by
  induction cs generalizing l with
  | nil => simp [Logger.calls]
  | cons c cs ih =>
    have := ih (l.call c)
    rw [show (l.call c).calls cs = l.calls (c :: cs) from rfl] at this
    rw [this, (Logger.call_eq l c).2.2.2.2.2, Dict.has_iff, Dict.mem_keys_set, ← Dict.has_iff]
    simp only [List.mem_cons, exists_eq_or_imp]
    constructor
    · rintro ((h | h) | h)
      · exact Or.inr (Or.inl h.symm)
      · exact Or.inl h
      · exact Or.inr (Or.inr h)
    · rintro (h | h | h)
      · exact Or.inl (Or.inr h)
      · exact Or.inl (Or.inl h.symm)
      · exact Or.inr h

example : (({} : Logger).calls [⟨true, c!"E001", c!"bad"⟩, ⟨false, c!"W004", c!"odd"⟩, ⟨true, c!"E001", c!"worse"⟩]) =
    { codes := [(c!"E001", c!"worse"), (c!"W004", c!"odd")], messages := [c!"bad", c!"worse"], numErrors := 2,
      numWarnings := 1 } := by decide

end Ocfl
