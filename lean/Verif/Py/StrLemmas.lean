import Verif.Py.Basic

/-! # Lemmas about splitting, joining and prefixes -/

namespace Ocfl

theorem startsWith_iff {s p : Str} : startsWith s p = true ↔ ∃ t, s = p ++ t := by
  unfold startsWith
  rw [List.isPrefixOf_iff_prefix]
  constructor
  · rintro ⟨t, rfl⟩; exact ⟨t, rfl⟩
  · rintro ⟨t, rfl⟩; exact ⟨t, rfl⟩

theorem endsWith_iff {s p : Str} : endsWith s p = true ↔ ∃ t, s = t ++ p := by
  unfold endsWith
  rw [List.isSuffixOf_iff_suffix]
  constructor
  · rintro ⟨t, rfl⟩; exact ⟨t, rfl⟩
  · rintro ⟨t, rfl⟩; exact ⟨t, rfl⟩

theorem startsWith_append (p t : Str) : startsWith (p ++ t) p = true := startsWith_iff.mpr ⟨t, rfl⟩

theorem splitOn_ne_nil (sep : Char) (s : Str) : splitOn sep s ≠ [] := by
  cases s with
  | nil => simp [splitOn]
  | cons c cs =>
    simp only [splitOn]
    split
    · simp
    · split <;> simp

theorem joinWith_cons (sep : Char) (w : Str) {ws : List Str} (h : ws ≠ []) :
    joinWith sep (w :: ws) = w ++ sep :: joinWith sep ws := by
  cases ws with
  | nil => exact absurd rfl h
  | cons w' ws => rfl

theorem joinWith_splitOn (sep : Char) (s : Str) : joinWith sep (splitOn sep s) = s := by
  induction s with
  | nil => rfl
  | cons c cs ih =>
    simp only [splitOn]
    split
    · rename_i h
      rw [joinWith_cons _ _ (splitOn_ne_nil _ _), ih, h]; rfl
    · split
      · rename_i h; exact absurd h (splitOn_ne_nil _ _)
      · rename_i w ws h
        rw [h] at ih
        cases ws with
        | nil => simp [joinWith] at *; exact ih
        | cons w' ws => simp [joinWith] at *; exact ih

theorem splitOn_no_sep {sep : Char} {s w : Str} (h : w ∈ splitOn sep s) : sep ∉ w := by
  induction s generalizing w with
  | nil => simp [splitOn] at h; simp [h]
  | cons c cs ih =>
    simp only [splitOn] at h
    split at h
    · rcases List.mem_cons.mp h with h | h
      · simp [h]
      · exact ih h
    · rename_i hc
      split at h
      · rename_i h'; exact absurd h' (splitOn_ne_nil _ _)
      · rename_i w' ws h'
        rcases List.mem_cons.mp h with h | h
        · subst h
          have := ih (w := w') (by rw [h']; simp)
          simp [this, Ne.symm hc]
        · exact ih (by rw [h']; simp [h])

theorem splitOn_of_no_sep {sep : Char} {w : Str} (h : sep ∉ w) : splitOn sep w = [w] := by
  induction w with
  | nil => rfl
  | cons c cs ih =>
    have h1 : c ≠ sep := by intro e; apply h; simp [e]
    have h2 : sep ∉ cs := by intro e; apply h; simp [e]
    simp [splitOn, h1, ih h2]

theorem splitOn_append_sep {sep : Char} {w : Str} (h : sep ∉ w) (s : Str) :
    splitOn sep (w ++ sep :: s) = w :: splitOn sep s := by
  induction w with
  | nil => simp [splitOn]
  | cons c cs ih =>
    have h1 : c ≠ sep := by intro e; apply h; simp [e]
    have h2 : sep ∉ cs := by intro e; apply h; simp [e]
    simp only [List.cons_append, splitOn, h1, if_false, ih h2]

theorem splitOn_joinWith {sep : Char} {ws : List Str} (hne : ws ≠ []) (h : ∀ w ∈ ws, sep ∉ w) :
    splitOn sep (joinWith sep ws) = ws := by
  induction ws with
  | nil => exact absurd rfl hne
  | cons w ws ih =>
    cases ws with
    | nil => simp only [joinWith]; exact splitOn_of_no_sep (h w (by simp))
    | cons w' ws =>
      rw [joinWith_cons _ _ (by simp), splitOn_append_sep (h w (by simp)),
        ih (by simp) (fun x hx => h x (by simp [hx]))]

theorem joinWith_inj {sep : Char} {ws ws' : List Str} (hne : ws ≠ []) (hne' : ws' ≠ [])
    (h : ∀ w ∈ ws, sep ∉ w) (h' : ∀ w ∈ ws', sep ∉ w) (e : joinWith sep ws = joinWith sep ws') :
    ws = ws' := by
  rw [← splitOn_joinWith hne h, ← splitOn_joinWith hne' h', e]

theorem joinWith_append {sep : Char} {ws ws' : List Str} (h : ws ≠ []) (h' : ws' ≠ []) :
    joinWith sep (ws ++ ws') = joinWith sep ws ++ sep :: joinWith sep ws' := by
  induction ws with
  | nil => exact absurd rfl h
  | cons w ws ih =>
    cases ws with
    | nil => simp [joinWith, joinWith_cons _ _ h']
    | cons w2 ws =>
      rw [List.cons_append, joinWith_cons _ _ (by simp), ih (by simp),
        joinWith_cons _ w (ws := w2 :: ws) (by simp)]
      simp

theorem splitOn_append (sep : Char) (a b : Str) :
    splitOn sep (a ++ sep :: b) = splitOn sep a ++ splitOn sep b := by
  induction a with
  | nil => simp [splitOn]
  | cons c a ih =>
    by_cases hc : c = sep
    · subst hc; simp [splitOn, ih]
    · simp only [List.cons_append, splitOn, hc, if_false, ih]
      cases h : splitOn sep a with
      | nil => exact absurd h (splitOn_ne_nil _ _)
      | cons w ws => simp

theorem splitOn_inj {sep : Char} {s t : Str} (h : splitOn sep s = splitOn sep t) : s = t := by
  rw [← joinWith_splitOn sep s, ← joinWith_splitOn sep t, h]

theorem atDollar_iff {s : Str} : atDollar s = true ↔ s = [] ∨ s = ['\n'] := by
  unfold atDollar
  split
  · simp
  · simp
  · rename_i h1 h2
    simp
    refine ⟨fun e => h1 e, fun e => h2 _ e⟩

theorem takeWhile_append_dropWhile' {α : Type} (p : α → Bool) (l : List α) :
    l.takeWhile p ++ l.dropWhile p = l := List.takeWhile_append_dropWhile

theorem takeWhile_eq_of {α : Type} {p : α → Bool} {l r : List α} (h : ∀ x ∈ l, p x = true)
    (hr : r.head?.all (fun x => !p x) = true) : (l ++ r).takeWhile p = l ∧ (l ++ r).dropWhile p = r := by
  induction l with
  | nil =>
    cases r with
    | nil => simp
    | cons a r =>
      simp at hr
      simp [hr]
  | cons a l ih =>
    have ha := h a (by simp)
    have ih' := ih (fun x hx => h x (by simp [hx]))
    simp [ha, ih']

end Ocfl
