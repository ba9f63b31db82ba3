import Verif.Proofs.PyJson
import Verif.Proofs.Parse
import Verif.Spec.Prefix

/-!
# A part of a document is not a document

What remains to be read does not matter for what has been read.
-/

namespace Ocfl
namespace PyJson

/-- What may follow a value in a list or in an object. -/
def Ended (r : Str) : Prop := ∃ c t, r = c :: t ∧ (isWs c = true ∨ c = ',' ∨ c = ']' ∨ c = '}')

theorem Ended.ne {r : Str} (h : Ended r) : r ≠ [] := by
  obtain ⟨c, t, rfl, _⟩ := h
  simp

theorem ended_of_head {r : Str} {c : Char} (h : (skipWs r).head? = some c) (hc : c = ',' ∨ c = ']' ∨ c = '}') : Ended r := by
  cases r with
  | nil => cases h
  | cons d t =>
    refine ⟨d, t, rfl, ?_⟩
    cases hd : isWs d with
    | true => exact Or.inl rfl
    | false =>
      rw [skipWs_cons hd] at h
      cases h
      exact Or.inr hc

theorem skipWs_append {s : Str} (t : Str) (h : skipWs s ≠ []) : skipWs (s ++ t) = skipWs s ++ t := by
  unfold skipWs at h ⊢
  rw [List.dropWhile_append]
  cases hd : List.dropWhile isWs s with
  | nil => exact absurd hd h
  | cons a l => rfl

theorem scan_append (t : Str) : ∀ (n : Nat) (s : Str) (us : List Nat) (r : Str), s.length ≤ n → scan s = some (us, r) →
    scan (s ++ t) = some (us, r ++ t)
  | n, [], us, r, _, h => by cases h
  | 0, c :: s, us, r, hn, h => by simp at hn
  | n + 1, c :: s, us, r, hn, h => by
    simp only [List.length_cons, Nat.add_le_add_iff_right] at hn
    rw [scan.eq_def] at h
    dsimp only at h
    rw [List.cons_append, scan.eq_def]
    dsimp only
    by_cases h1 : c = '"'
    · rw [if_pos h1] at h ⊢
      cases h
      rfl
    rw [if_neg h1] at h ⊢
    by_cases h2 : c = '\\'
    · rw [if_pos h2] at h ⊢
      cases s with
      | nil => cases h
      | cons e r1 =>
        simp only [List.cons_append] at h ⊢
        by_cases h3 : e = 'u'
        · rw [if_pos h3] at h ⊢
          match r1, h, hn with
          | a :: b :: c :: d :: r2, h, hn =>
            simp only [List.cons_append] at h ⊢
            cases h4 : hexVal4 a b c d with
            | none => rw [h4] at h; cases h
            | some u =>
              rw [h4] at h
              cases h5 : scan r2 with
              | none => rw [h5] at h; cases h
              | some p =>
                obtain ⟨us', r3⟩ := p
                rw [h5] at h
                cases h
                rw [scan_append t n r2 us' r (by simp at hn; omega) h5]
          | [], h, _ => cases h
          | [_], h, _ => cases h
          | [_, _], h, _ => cases h
          | [_, _, _], h, _ => cases h
        · rw [if_neg h3] at h ⊢
          cases h4 : simpleEscape e with
          | none => rw [h4] at h; cases h
          | some u =>
            rw [h4] at h
            cases h5 : scan r1 with
            | none => rw [h5] at h; cases h
            | some p =>
              obtain ⟨us', r3⟩ := p
              rw [h5] at h
              cases h
              rw [scan_append t n r1 us' r (by simp at hn; omega) h5]
    · rw [if_neg h2] at h ⊢
      by_cases h3 : c.toNat < 32
      · rw [if_pos h3] at h; cases h
      rw [if_neg h3] at h ⊢
      cases h5 : scan s with
      | none => rw [h5] at h; cases h
      | some p =>
        obtain ⟨us', r3⟩ := p
        rw [h5] at h
        cases h
        rw [scan_append t n s us' r hn h5]

theorem pString_append {s k r : Str} (t : Str) (h : pString s = some (k, r)) : pString (s ++ t) = some (k, r ++ t) := by
  unfold pString at h ⊢
  cases h1 : scan s with
  | none => rw [h1] at h; cases h
  | some p =>
    obtain ⟨us, r1⟩ := p
    rw [h1] at h
    rw [scan_append t _ s us r1 (Nat.le_refl _) h1]
    dsimp only at h ⊢
    cases h2 : combine us with
    | none => rw [h2] at h; cases h
    | some k' =>
      rw [h2] at h
      cases h
      rfl

theorem digits_append {s : Str} (t : Str) (h : (digits s).2 ≠ []) : digits (s ++ t) = ((digits s).1, (digits s).2 ++ t) := by
  induction s with
  | nil => exact absurd rfl h
  | cons c s ih =>
    unfold digits at h ih ⊢
    rw [List.cons_append]
    by_cases hc : c.isDigit = true
    · rw [List.takeWhile_cons_of_pos hc, List.dropWhile_cons_of_pos hc, List.takeWhile_cons_of_pos hc, List.dropWhile_cons_of_pos hc]
      rw [List.dropWhile_cons_of_pos hc] at h
      have := ih h
      simp only [Prod.mk.injEq] at this ⊢
      exact ⟨by rw [this.1], this.2⟩
    · rw [List.takeWhile_cons_of_neg hc, List.dropWhile_cons_of_neg hc, List.takeWhile_cons_of_neg hc, List.dropWhile_cons_of_neg hc]
      rfl

theorem pExp_append {s : Str} (t : Str) (h : Ended (pExp s).2) : pExp (s ++ t) = ((pExp s).1, (pExp s).2 ++ t) := by
  cases s with
  | nil => exact absurd rfl h.ne
  | cons e r =>
    rw [List.cons_append]
    unfold pExp at h ⊢
    dsimp only at h ⊢
    by_cases he : e = 'e' ∨ e = 'E'
    · rw [if_pos he] at h ⊢
      rw [if_pos he]
      have hno : ¬ Ended (e :: r) := by
        rintro ⟨c, t', h1, h2⟩
        cases h1
        rcases he with rfl | rfl <;> revert h2 <;> decide
      cases r with
      | nil =>
        dsimp only at h
        rw [if_pos (by rfl)] at h
        exact absurd h hno
      | cons c r' =>
        simp only [List.cons_append] at h ⊢
        by_cases hc : c = '-' ∨ c = '+'
        · simp only [if_pos hc] at h ⊢
          by_cases hd : (digits r').1 = []
          · rw [if_pos hd] at h
            exact absurd h hno
          · rw [if_neg hd] at h ⊢
            rw [digits_append t h.ne, if_neg hd]
        · simp only [if_neg hc] at h ⊢
          by_cases hd : (digits (c :: r')).1 = []
          · rw [if_pos hd] at h
            exact absurd h hno
          · rw [if_neg hd] at h ⊢
            rw [← List.cons_append, digits_append t h.ne, if_neg hd]
    · rw [if_neg he, if_neg he]
      rfl

theorem pExp_ne {s : Str} (h : (pExp s).2 ≠ []) : s ≠ [] := by
  rintro rfl
  exact h rfl

theorem pFrac_append {s : Str} (t : Str) (h : Ended (pExp (pFrac s).2).2) : pFrac (s ++ t) = ((pFrac s).1, (pFrac s).2 ++ t) := by
  cases s with
  | nil => exact absurd rfl h.ne
  | cons c r =>
    by_cases hc : c = '.'
    · subst hc
      rw [List.cons_append]
      have hf : ∀ r, pFrac ('.' :: r) = if (digits r).1 = [] then ([], '.' :: r) else ('.' :: (digits r).1, (digits r).2) := fun r => by
        rw [pFrac]
      rw [hf] at h ⊢
      rw [hf]
      by_cases hd : (digits r).1 = []
      · rw [if_pos hd] at h
        obtain ⟨c, t', h1, h2⟩ := h
        have : pExp ('.' :: r) = ([], '.' :: r) := by unfold pExp; rfl
        rw [this] at h1
        cases h1
        exact absurd h2 (by decide)
      · rw [if_neg hd] at h ⊢
        have hne : (digits r).2 ≠ [] := pExp_ne h.ne
        rw [digits_append t hne, if_neg hd]
    · have h1 : ∀ r, pFrac (c :: r) = ([], c :: r) := by
        intro r
        unfold pFrac
        split
        · rename_i heq; cases heq; exact absurd rfl hc
        · rfl
      rw [List.cons_append, h1, h1]
      rfl

theorem pNumber_append {s l r : Str} (t : Str) (h : pNumber s = some (l, r)) (hr : Ended r) : pNumber (s ++ t) = some (l, r ++ t) := by
  unfold pNumber at h ⊢
  cases s with
  | nil => cases h
  | cons c s =>
    have hsign : (pSign ((c :: s) ++ t)) = ((pSign (c :: s)).1, (pSign (c :: s)).2 ++ t) := by
      rw [List.cons_append]
      unfold pSign
      dsimp only
      split <;> rfl
    rw [hsign]
    dsimp only
    cases h1 : pInt (pSign (c :: s)).2 with
    | none => rw [h1] at h; cases h
    | some p =>
      obtain ⟨i, r1⟩ := p
      rw [h1] at h
      dsimp only at h
      cases h
      have hne : r1 ≠ [] := by
        rintro rfl
        exact hr.ne rfl
      have h2 : pInt ((pSign (c :: s)).2 ++ t) = some (i, r1 ++ t) := by
        generalize (pSign (c :: s)).2 = s2 at h1
        cases s2 with
        | nil => cases h1
        | cons d s2 =>
          rw [List.cons_append]
          unfold pInt at h1 ⊢
          dsimp only at h1 ⊢
          by_cases h3 : d = '0'
          · rw [if_pos h3] at h1 ⊢
            cases h1
            rfl
          rw [if_neg h3] at h1 ⊢
          by_cases h4 : d.isDigit = true
          · rw [if_pos h4] at h1 ⊢
            cases h1
            rw [digits_append t hne]
          · rw [if_neg h4] at h1
            cases h1
      rw [h2]
      dsimp only
      rw [pFrac_append t hr]
      dsimp only
      rw [pExp_append t hr]

theorem pNumber_first {c : Char} {s : Str} {p : Str × Str} (h : pNumber (c :: s) = some p) : c = '-' ∨ c.isDigit = true := by
  unfold pNumber at h
  by_cases hc : c = '-'
  · exact Or.inl hc
  have : pSign (c :: s) = ([], c :: s) := by
    unfold pSign
    dsimp only
    rw [if_neg hc]
  rw [this] at h
  dsimp only at h
  unfold pInt at h
  dsimp only at h
  by_cases h0 : c = '0'
  · subst h0; exact Or.inr (by decide)
  rw [if_neg h0] at h
  by_cases h4 : c.isDigit = true
  · exact Or.inr h4
  · rw [if_neg h4] at h
    cases h

theorem pAtom_append {s r : Str} {j : Json} (t : Str) (h : pAtom s = some (j, r)) (hr : Ended r) : pAtom (s ++ t) = some (j, r ++ t) := by
  have lit : ∀ {w : Str} {k : Nat}, w.length = k → w.isPrefixOf s = true → w.isPrefixOf (s ++ t) = true ∧ (s ++ t).drop k = s.drop k ++ t := by
    intro w k hk hp
    obtain ⟨u, hu⟩ := List.isPrefixOf_iff_prefix.mp hp
    subst hu
    refine ⟨List.isPrefixOf_iff_prefix.mpr ⟨u ++ t, by simp⟩, ?_⟩
    rw [List.append_assoc, List.drop_append, List.drop_append]
    simp [hk]
  unfold pAtom at h ⊢
  by_cases h1 : c!"null".isPrefixOf s = true
  · rw [if_pos h1] at h
    cases h
    rw [if_pos (lit (k := 4) rfl h1).1, (lit (k := 4) rfl h1).2]
  rw [if_neg h1] at h
  by_cases h2 : c!"true".isPrefixOf s = true
  · rw [if_pos h2] at h
    cases h
    have h3 : ¬ c!"null".isPrefixOf (s ++ t) = true := by
      obtain ⟨u, rfl⟩ := List.isPrefixOf_iff_prefix.mp h2
      simp
    rw [if_neg h3, if_pos (lit (k := 4) rfl h2).1, (lit (k := 4) rfl h2).2]
  rw [if_neg h2] at h
  by_cases h3 : c!"false".isPrefixOf s = true
  · rw [if_pos h3] at h
    cases h
    obtain ⟨u, hu⟩ := List.isPrefixOf_iff_prefix.mp h3
    have h4 : ¬ c!"null".isPrefixOf (s ++ t) = true := by
      subst hu
      simp
    have h5 : ¬ c!"true".isPrefixOf (s ++ t) = true := by
      subst hu
      simp
    rw [if_neg h4, if_neg h5, if_pos (lit (k := 5) rfl h3).1, (lit (k := 5) rfl h3).2]
  rw [if_neg h3] at h
  cases hp : pNumber s with
  | none => rw [hp] at h; cases h
  | some p =>
    obtain ⟨l, r'⟩ := p
    rw [hp] at h
    cases h
    cases s with
    | nil => cases hp
    | cons c s =>
      have hc := pNumber_first hp
      have hno : ∀ (w : Str) (a : Char), ¬ (a = '-' ∨ a.isDigit = true) → ¬ (a :: w).isPrefixOf (c :: s ++ t) = true := by
        intro w a ha hw
        obtain ⟨u, hu⟩ := List.isPrefixOf_iff_prefix.mp hw
        rw [List.cons_append, List.cons_append] at hu
        exact ha ((List.cons.inj hu).1 ▸ hc)
      rw [if_neg (hno _ 'n' (by decide)), if_neg (hno _ 't' (by decide)), if_neg (hno _ 'f' (by decide)), pNumber_append t hp hr]
      rfl

/-- The first character of a value that has an end of its own. -/
def Closed (s : Str) : Prop := s.head? = some '"' ∨ s.head? = some '[' ∨ s.head? = some '{'

theorem head?_append_ne {s t : Str} (h : s ≠ []) : (s ++ t).head? = s.head? := by
  cases s with
  | nil => exact absurd rfl h
  | cons c s => rfl

theorem tail_append_ne {s t : Str} (h : s ≠ []) : (s ++ t).tail = s.tail ++ t := by
  cases s with
  | nil => exact absurd rfl h
  | cons c s => rfl

theorem ne_of_head {s : Str} {c : Char} (h : s.head? = some c) : s ≠ [] := by
  rintro rfl
  cases h

theorem pValue_nil (n : Nat) : pValue n [] = none := by
  cases n <;> (unfold pValue; rfl)

theorem pItems_nil (n : Nat) : pItems n [] = none := by
  cases n with
  | zero => unfold pItems; rfl
  | succ n => unfold pItems; rw [pValue_nil]

theorem pPairs_nil (n : Nat) : pPairs n [] = none := by
  cases n with
  | zero => unfold pPairs; rfl
  | succ n => unfold pPairs; rfl

theorem parse_append (t : Str) : ∀ n : Nat,
    (∀ s j r, pValue n s = some (j, r) → Ended r ∨ Closed s → pValue n (s ++ t) = some (j, r ++ t)) ∧
    (∀ s xs r, pItems n s = some (xs, r) → pItems n (s ++ t) = some (xs, r ++ t)) ∧
    (∀ s xs r, pPairs n s = some (xs, r) → pPairs n (s ++ t) = some (xs, r ++ t))
  | 0 => by
    refine ⟨fun s j r h => ?_, fun s xs r h => ?_, fun s xs r h => ?_⟩
    · unfold pValue at h; cases h
    · unfold pItems at h; cases h
    · unfold pPairs at h; cases h
  | n + 1 => by
    obtain ⟨hv, hi, hp⟩ := parse_append t n
    refine ⟨fun s j r h hr => ?_, fun s xs r h => ?_, fun s xs r h => ?_⟩
    · cases s with
      | nil => rw [pValue_nil] at h; cases h
      | cons c s =>
        rw [List.cons_append]
        unfold pValue at h ⊢
        by_cases h1 : c = '"'
        · rw [if_pos h1] at h ⊢
          cases hs : pString s with
          | none => rw [hs] at h; cases h
          | some q => rw [hs] at h; cases h; rw [pString_append t hs]; rfl
        rw [if_neg h1] at h ⊢
        by_cases h2 : c = '['
        · rw [if_pos h2] at h ⊢
          by_cases h3 : (skipWs s).head? = some ']'
          · have hne := ne_of_head h3
            rw [if_pos h3] at h
            cases h
            rw [skipWs_append t hne, head?_append_ne hne, if_pos h3, tail_append_ne hne]
          · rw [if_neg h3] at h
            cases hs : pItems n (skipWs s) with
            | none => rw [hs] at h; cases h
            | some q =>
              rw [hs] at h
              cases h
              have hne : skipWs s ≠ [] := by
                intro he
                rw [he, pItems_nil] at hs
                cases hs
              rw [skipWs_append t hne, head?_append_ne hne, if_neg h3, hi _ _ _ hs]
              rfl
        rw [if_neg h2] at h ⊢
        by_cases h4 : c = '{'
        · rw [if_pos h4] at h ⊢
          by_cases h3 : (skipWs s).head? = some '}'
          · have hne := ne_of_head h3
            rw [if_pos h3] at h
            cases h
            rw [skipWs_append t hne, head?_append_ne hne, if_pos h3, tail_append_ne hne]
          · rw [if_neg h3] at h
            cases hs : pPairs n (skipWs s) with
            | none => rw [hs] at h; cases h
            | some q =>
              rw [hs] at h
              cases h
              have hne : skipWs s ≠ [] := by
                intro he
                rw [he, pPairs_nil] at hs
                cases hs
              rw [skipWs_append t hne, head?_append_ne hne, if_neg h3, hp _ _ _ hs]
              rfl
        rw [if_neg h4] at h ⊢
        rw [← List.cons_append]
        refine pAtom_append t h (hr.resolve_right ?_)
        rintro (h' | h' | h') <;> cases h'
        · exact h1 rfl
        · exact h2 rfl
        · exact h4 rfl
    · unfold pItems at h ⊢
      cases hs : pValue n s with
      | none => rw [hs] at h; cases h
      | some q =>
        obtain ⟨x, r1⟩ := q
        rw [hs] at h
        dsimp only at h
        by_cases h1 : (skipWs r1).head? = some ','
        · have hne := ne_of_head h1
          rw [if_pos h1] at h
          rw [hv _ _ _ hs (Or.inl (ended_of_head h1 (Or.inl rfl)))]
          dsimp only
          rw [skipWs_append t hne, head?_append_ne hne, if_pos h1, tail_append_ne hne]
          cases hq : pItems n (skipWs (skipWs r1).tail) with
          | none => rw [hq] at h; cases h
          | some q =>
            rw [hq] at h
            cases h
            have hne' : skipWs (skipWs r1).tail ≠ [] := by
              intro he
              rw [he, pItems_nil] at hq
              cases hq
            rw [skipWs_append t hne', hi _ _ _ hq]
        · rw [if_neg h1] at h
          by_cases h2 : (skipWs r1).head? = some ']'
          · have hne := ne_of_head h2
            rw [if_pos h2] at h
            cases h
            rw [hv _ _ _ hs (Or.inl (ended_of_head h2 (Or.inr (Or.inl rfl))))]
            dsimp only
            rw [skipWs_append t hne, head?_append_ne hne, if_neg h1, if_pos h2, tail_append_ne hne]
          · rw [if_neg h2] at h
            cases h
    · unfold pPairs at h ⊢
      by_cases h0 : s.head? ≠ some '"'
      · rw [if_pos h0] at h; cases h
      rw [if_neg h0] at h
      have hsne := ne_of_head (Decidable.not_not.mp h0)
      rw [head?_append_ne hsne, if_neg h0, tail_append_ne hsne]
      cases hk : pString s.tail with
      | none => rw [hk] at h; cases h
      | some q =>
      obtain ⟨k, r0⟩ := q
      rw [hk] at h
      rw [pString_append t hk]
      dsimp only at h ⊢
      by_cases hc : (skipWs r0).head? ≠ some ':'
      · rw [if_pos hc] at h; cases h
      rw [if_neg hc] at h
      have hcne := ne_of_head (Decidable.not_not.mp hc)
      rw [skipWs_append t hcne, head?_append_ne hcne, if_neg hc, tail_append_ne hcne]
      cases hs : pValue n (skipWs (skipWs r0).tail) with
      | none => rw [hs] at h; cases h
      | some q =>
        have hvne : skipWs (skipWs r0).tail ≠ [] := by
          intro he
          rw [he, pValue_nil] at hs
          cases hs
        rw [skipWs_append t hvne]
        obtain ⟨x, r1⟩ := q
        rw [hs] at h
        dsimp only at h
        by_cases h1 : (skipWs r1).head? = some ','
        · have hne := ne_of_head h1
          rw [if_pos h1] at h
          rw [hv _ _ _ hs (Or.inl (ended_of_head h1 (Or.inl rfl)))]
          dsimp only
          rw [skipWs_append t hne, head?_append_ne hne, if_pos h1, tail_append_ne hne]
          cases hq : pPairs n (skipWs (skipWs r1).tail) with
          | none => rw [hq] at h; cases h
          | some q =>
            rw [hq] at h
            cases h
            have hne' : skipWs (skipWs r1).tail ≠ [] := by
              intro he
              rw [he, pPairs_nil] at hq
              cases hq
            rw [skipWs_append t hne', hp _ _ _ hq]
        · rw [if_neg h1] at h
          by_cases h2 : (skipWs r1).head? = some '}'
          · have hne := ne_of_head h2
            rw [if_pos h2] at h
            cases h
            rw [hv _ _ _ hs (Or.inl (ended_of_head h2 (Or.inr (Or.inr rfl))))]
            dsimp only
            rw [skipWs_append t hne, head?_append_ne hne, if_neg h1, if_pos h2, tail_append_ne hne]
          · rw [if_neg h2] at h
            cases h

theorem parse_fuel : ∀ n : Nat,
    (∀ s x, pValue n s = some x → pValue (n + 1) s = some x) ∧
    (∀ s x, pItems n s = some x → pItems (n + 1) s = some x) ∧
    (∀ s x, pPairs n s = some x → pPairs (n + 1) s = some x)
  | 0 => by
    refine ⟨fun s x h => ?_, fun s x h => ?_, fun s x h => ?_⟩
    · unfold pValue at h; cases h
    · unfold pItems at h; cases h
    · unfold pPairs at h; cases h
  | n + 1 => by
    obtain ⟨hv, hi, hp⟩ := parse_fuel n
    refine ⟨fun s x h => ?_, fun s x h => ?_, fun s x h => ?_⟩
    · cases s with
      | nil => rw [pValue_nil] at h; cases h
      | cons c s =>
        unfold pValue at h ⊢
        split at h
        · rename_i h1; rw [if_pos h1]; exact h
        rename_i h1
        rw [if_neg h1]
        split at h
        · rename_i h2
          rw [if_pos h2]
          split at h
          · rename_i h3; rw [if_pos h3]; exact h
          · rename_i h3
            rw [if_neg h3]
            cases hs : pItems n (skipWs s) with
            | none => rw [hs] at h; cases h
            | some q => rw [hs] at h; rw [hi _ _ hs]; exact h
        rename_i h2
        rw [if_neg h2]
        split at h
        · rename_i h4
          rw [if_pos h4]
          split at h
          · rename_i h3; rw [if_pos h3]; exact h
          · rename_i h3
            rw [if_neg h3]
            cases hs : pPairs n (skipWs s) with
            | none => rw [hs] at h; cases h
            | some q => rw [hs] at h; rw [hp _ _ hs]; exact h
        · rename_i h4; rw [if_neg h4]; exact h
    · rw [pItems] at h ⊢
      cases hs : pValue n s with
      | none => rw [hs] at h; cases h
      | some q =>
        rw [hs] at h
        rw [hv _ _ hs]
        dsimp only at h ⊢
        split at h
        · rename_i h1
          rw [if_pos h1]
          cases hq : pItems n (skipWs (skipWs q.2).tail) with
          | none => rw [hq] at h; cases h
          | some q' => rw [hq] at h; rw [hi _ _ hq]; exact h
        · rename_i h1
          rw [if_neg h1]
          exact h
    · rw [pPairs] at h ⊢
      split at h
      · cases h
      rename_i h0
      rw [if_neg h0]
      cases hk : pString s.tail with
      | none => rw [hk] at h; cases h
      | some q =>
      rw [hk] at h
      dsimp only at h ⊢
      split at h
      · cases h
      rename_i h1
      rw [if_neg h1]
      cases hs : pValue n (skipWs (skipWs q.2).tail) with
      | none => rw [hs] at h; cases h
      | some q1 =>
        rw [hs] at h
        rw [hv _ _ hs]
        dsimp only at h ⊢
        split at h
        · rename_i h1
          rw [if_pos h1]
          cases hq : pPairs n (skipWs (skipWs q1.2).tail) with
          | none => rw [hq] at h; cases h
          | some q' => rw [hq] at h; rw [hp _ _ hq]; exact h
        · rename_i h1
          rw [if_neg h1]
          exact h

theorem pValue_fuel {n m : Nat} (hm : n ≤ m) {s : Str} {x : Json × Str} (h : pValue n s = some x) : pValue m s = some x := by
  obtain ⟨k, rfl⟩ := Nat.exists_eq_add_of_le hm
  induction k with
  | zero => exact h
  | succ k ih => exact (parse_fuel _).1 _ _ (ih (by omega))

/-- A first part of the text of an object is read only if it is all of it. -/
theorem load_prefix {d : List (Str × Json)} (hw : (Json.obj d).Writable) {p t : Str} (h : p ++ t = dump 0 (.obj d)) {j : Json}
    (hl : load p = some j) : t = [] := by
  obtain ⟨c, u, hc, hws, _⟩ := dump_first hw 0
  have hbrace : c = '{' := by
    cases d with
    | nil => unfold dump at hc; cases hc; rfl
    | cons e d => obtain ⟨k, x⟩ := e; unfold dump at hc; cases hc; rfl
  subst hbrace
  unfold load at hl
  have hpne : p ≠ [] := by
    rintro rfl
    rw [show skipWs [] = [] from rfl, pValue_nil] at hl
    cases hl
  obtain ⟨c', p', rfl⟩ := List.exists_cons_of_ne_nil hpne
  have hcc : c' = '{' := by
    rw [hc] at h
    cases h
    rfl
  subst hcc
  rw [skipWs_cons hws] at hl
  cases hp : pValue (2 * ('{' :: p').length + 1) ('{' :: p') with
  | none => rw [hp] at hl; cases hl
  | some q =>
    obtain ⟨j', r⟩ := q
    have h1 := (parse_append t _).1 _ _ _ hp (Or.inr (Or.inr (Or.inr rfl)))
    rw [h] at h1
    have h2 := reads hw 0 (2 * (dump 0 (.obj d)).length + 1) [] (by omega) (Or.inl rfl)
    rw [List.append_nil] at h2
    have h3 := pValue_fuel (m := 2 * (dump 0 (.obj d)).length + 1) (by
      have := congrArg List.length h
      rw [List.length_append] at this
      omega) h1
    rw [h2] at h3
    have := congrArg Prod.snd (Option.some.inj h3)
    exact (List.append_eq_nil_iff.mp this.symm).2

/-! ## ASCII -/

theorem escape_ascii (c : Char) : ∀ x ∈ escape c, x.toNat < 128 := by
  have hhex : ∀ k : Fin 16, (Nat.digitChar k.1).toNat < 128 := by decide
  unfold escape
  repeat' split
  all_goals first
    | decide
    | skip
  · rename_i h
    intro x hx
    cases List.mem_singleton.mp hx
    omega
  · intro x hm
    obtain ⟨u, _, hu⟩ := List.mem_flatMap.mp hm
    unfold hex4 at hu
    simp only [List.mem_cons, List.not_mem_nil, or_false] at hu
    rcases hu with rfl | rfl | rfl | rfl | rfl | rfl
    · decide
    · decide
    · exact hhex ⟨_, Nat.mod_lt _ (by decide)⟩
    · exact hhex ⟨_, Nat.mod_lt _ (by decide)⟩
    · exact hhex ⟨_, Nat.mod_lt _ (by decide)⟩
    · exact hhex ⟨_, Nat.mod_lt _ (by decide)⟩

theorem quote_ascii (s : Str) : ∀ x ∈ quote s, x.toNat < 128 := by
  unfold quote
  intro x h
  simp only [List.mem_cons, List.mem_append, List.mem_flatMap, List.not_mem_nil, or_false, List.cons_append] at h
  rcases h with rfl | ⟨c, _, h⟩ | rfl
  · decide
  · exact escape_ascii c x h
  · decide

theorem newline_ascii (n : Nat) : ∀ x ∈ newline n, x.toNat < 128 := by
  unfold newline
  intro x h
  rcases List.mem_cons.mp h with rfl | h
  · decide
  · rw [List.eq_of_mem_replicate h]; decide

theorem dumpItems_ascii (n : Nat) (l : List Json) (h : ∀ x ∈ l, ∀ n, ∀ c ∈ dump n x, c.toNat < 128) : ∀ c ∈ dumpItems n l, c.toNat < 128 := by
  induction l with
  | nil =>
    unfold dumpItems
    intro c hc
    rcases List.mem_append.mp hc with hc | hc
    · exact newline_ascii n c hc
    · cases List.mem_singleton.mp hc; decide
  | cons x xs ih =>
    unfold dumpItems
    intro c hc
    rcases List.mem_append.mp hc with hc | hc
    · rcases List.mem_append.mp hc with hc | hc
      · rcases List.mem_cons.mp hc with rfl | hc
        · decide
        · exact newline_ascii _ c hc
      · exact h x (by simp) _ c hc
    · exact ih (fun y hy => h y (by simp [hy])) c hc

theorem dumpPairs_ascii (n : Nat) (l : List (Str × Json)) (h : ∀ x ∈ l, ∀ n, ∀ c ∈ dump n x.2, c.toNat < 128) : ∀ c ∈ dumpPairs n l, c.toNat < 128 := by
  induction l with
  | nil =>
    unfold dumpPairs
    intro c hc
    rcases List.mem_append.mp hc with hc | hc
    · exact newline_ascii n c hc
    · cases List.mem_singleton.mp hc; decide
  | cons x xs ih =>
    obtain ⟨k, x⟩ := x
    unfold dumpPairs
    intro c hc
    simp only [List.mem_append, List.mem_cons, List.cons_append, List.append_assoc, List.not_mem_nil, or_false] at hc
    rcases hc with rfl | hc | hc | rfl | rfl | hc | hc | hc
    · decide
    · exact newline_ascii _ c hc
    · exact quote_ascii k c hc
    · decide
    · decide
    · exact hc.elim
    · exact h (k, x) (by simp) _ c hc
    · exact ih (fun y hy => h y (by simp [hy])) c hc

theorem dump_ascii {j : Json} (h : j.Writable) : ∀ n, ∀ c ∈ dump n j, c.toNat < 128 := by
  induction h with
  | null => intro n; unfold dump; decide
  | @bool b => intro n; cases b <;> (unfold dump; decide)
  | @num k =>
    intro n c hm
    unfold dump at hm
    have := natStr_isDigit hm
    simp only [Char.isDigit, Bool.and_eq_true, decide_eq_true_eq] at this
    have h2 : c.toNat = c.val.toNat := rfl
    have h3 : c.val.toNat ≤ 57 := this.2
    omega
  | str => intro n; unfold dump; exact quote_ascii _
  | @arr l hl ih =>
    intro n c hc
    cases l with
    | nil =>
      rw [show dump n (.arr []) = c!"[]" by unfold dump; rfl] at hc
      simp only [List.mem_cons, List.not_mem_nil, or_false] at hc
      rcases hc with rfl | rfl <;> decide
    | cons x xs =>
      unfold dump at hc
      simp only [List.mem_append, List.mem_cons, List.cons_append, List.append_assoc] at hc
      rcases hc with rfl | hc | hc | hc
      · decide
      · exact newline_ascii _ c hc
      · exact ih x (by simp) _ c hc
      · exact dumpItems_ascii n xs (fun y hy => ih y (by simp [hy])) c hc
  | @obj d _ hd ih =>
    intro n c hc
    cases d with
    | nil =>
      rw [show dump n (.obj []) = c!"{}" by unfold dump; rfl] at hc
      simp only [List.mem_cons, List.not_mem_nil, or_false] at hc
      rcases hc with rfl | rfl <;> decide
    | cons x xs =>
      obtain ⟨k, x⟩ := x
      unfold dump at hc
      simp only [List.mem_append, List.mem_cons, List.cons_append, List.append_assoc, List.not_mem_nil, or_false] at hc
      rcases hc with rfl | hc | hc | rfl | rfl | hc | hc | hc
      · decide
      · exact newline_ascii _ c hc
      · exact quote_ascii k c hc
      · decide
      · decide
      · exact hc.elim
      · exact ih (k, x) (by simp) _ c hc
      · exact dumpPairs_ascii n xs (fun y hy => ih y (by simp [hy])) c hc

theorem utf8_ascii_char {c : Char} (h : c.toNat < 128) : ∃ b, String.utf8EncodeChar c = [b] := by
  have hx : (UInt8.ofNat c.toNat).toNat = c.toNat := by
    rw [UInt8.toNat_ofNat_of_lt']
    exact Nat.lt_trans h (by decide)
  have := utf8Encode_ascii (x := UInt8.ofNat c.toNat) (by rw [hx]; exact h)
  rw [hx, Char.ofNat_toNat] at this
  exact ⟨_, this⟩

theorem utf8_take {s : Str} (h : ∀ c ∈ s, c.toNat < 128) (n : Nat) : (utf8 s).take n = utf8 (s.take n) := by
  induction s generalizing n with
  | nil => simp [utf8]
  | cons c s ih =>
    obtain ⟨b, hb⟩ := utf8_ascii_char (h c (by simp))
    cases n with
    | zero => rfl
    | succ n =>
      rw [List.take_succ_cons, utf8_cons, utf8_cons, hb, ← ih (fun c hc => h c (by simp [hc]))]
      rfl

end PyJson

theorem pyJson_noPrefix : pyJson.NoPrefix := by
  intro d n t hw hd hl
  have hut := PyJson.utf8_take (PyJson.dump_ascii hw 0) n
  have hut' : (utf8 (pyJson.dumps (.obj d))).take n = utf8 ((PyJson.dump 0 (.obj d)).take n) := hut
  rw [hut', utf8Decode_utf8] at hd
  have hd := (Option.some.inj hd).symm
  subst hd
  have hcr : '\r' ∉ (PyJson.dump 0 (.obj d)).take n := fun h => PyJson.dump_noCR hw 0 (List.mem_of_mem_take h)
  rw [univNewlines_of_noCR hcr] at hl
  obtain ⟨j, hj⟩ := Option.ne_none_iff_exists'.mp hl
  have := PyJson.load_prefix hw (p := (PyJson.dump 0 (.obj d)).take n) (t := (PyJson.dump 0 (.obj d)).drop n) (List.take_append_drop _ _) hj
  rw [hut']
  have h2 := List.take_append_drop n (PyJson.dump 0 (.obj d))
  rw [this, List.append_nil] at h2
  rw [h2]
  rfl

end Ocfl
