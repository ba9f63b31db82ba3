import Verif.Model.Paths
import Verif.Proofs.Layout
import Mathlib.Data.List.TakeWhile

/-! # Lemmas about path helpers -/

namespace Ocfl
open Spec

theorem dropWhile_eq_of_not {α : Type} {p : α → Bool} : ∀ {l : List α}, (∀ a ∈ l.head?, p a = false) → l.dropWhile p = l
  | [], _ => rfl
  | a :: l, h => by
    have := h a rfl
    rw [List.dropWhile_cons, this]; rfl

/-- A path is its head, some separators, and its last component. -/
theorem osPathSplit_cases (path : Str) :
    ('/' ∉ path ∧ osPathSplit path = ([], path)) ∨
    (∃ n t, 0 < n ∧ '/' ∉ t ∧ path = List.replicate n '/' ++ t ∧ osPathSplit path = (List.replicate n '/', t)) ∨
    (∃ h n t, 0 < n ∧ '/' ∉ t ∧ h ≠ [] ∧ h.getLast? ≠ some '/' ∧ path = h ++ List.replicate n '/' ++ t ∧
      osPathSplit path = (h, t)) := by
  have e0 : path = (path.reverse.dropWhile (· ≠ '/')).reverse ++ (path.reverse.takeWhile (· ≠ '/')).reverse := by
    rw [← List.reverse_append, List.takeWhile_append_dropWhile, List.reverse_reverse]
  have ht : '/' ∉ (path.reverse.takeWhile (· ≠ '/')).reverse := by
    intro hm
    rw [List.mem_reverse] at hm
    have := List.mem_takeWhile_imp hm
    simp at this
  have hs : osPathSplit path =
      (if (path.reverse.dropWhile (· ≠ '/')).reverse ≠ [] ∧ ¬ (path.reverse.dropWhile (· ≠ '/')).reverse.all (· = '/') then
        (((path.reverse.dropWhile (· ≠ '/')).reverse.reverse.dropWhile (· = '/')).reverse,
          (path.reverse.takeWhile (· ≠ '/')).reverse)
      else ((path.reverse.dropWhile (· ≠ '/')).reverse, (path.reverse.takeWhile (· ≠ '/')).reverse)) := rfl
  generalize htl : (path.reverse.takeWhile (· ≠ '/')).reverse = t at *
  generalize hhd : (path.reverse.dropWhile (· ≠ '/')).reverse = h at *
  have hlast : h = [] ∨ h.getLast? = some '/' := by
    by_cases hne : path.reverse.dropWhile (· ≠ '/') = []
    · left; rw [← hhd, hne]; rfl
    · right
      rw [← hhd, List.getLast?_reverse]
      have := List.head_dropWhile_not (fun x => decide (x ≠ '/')) hne
      rw [List.head?_eq_some_head hne]
      congr 1
      simpa using this
  rcases hlast with h0 | hl
  · left
    subst h0
    simp only [List.nil_append] at e0
    subst e0
    exact ⟨ht, by rw [hs]; simp⟩
  · right
    have e1 : h = (h.reverse.dropWhile (· = '/')).reverse ++ (h.reverse.takeWhile (· = '/')).reverse := by
      rw [← List.reverse_append, List.takeWhile_append_dropWhile, List.reverse_reverse]
    have e2 : (h.reverse.takeWhile (· = '/')).reverse = List.replicate (h.reverse.takeWhile (· = '/')).length '/' := by
      rw [List.eq_replicate_iff]
      refine ⟨by simp, ?_⟩
      intro c hc
      rw [List.mem_reverse] at hc
      simpa using List.mem_takeWhile_imp hc
    have hpos : 0 < (h.reverse.takeWhile (· = '/')).length := by
      have hne : h ≠ [] := by rintro rfl; simp at hl
      have hh : h.reverse.head? = some '/' := by rw [List.head?_reverse]; exact hl
      match hr : h.reverse, hh with
      | c :: cs, hh =>
        simp at hh; subst hh
        simp
    by_cases hall : h.all (· = '/') = true
    · left
      refine ⟨h.length, t, ?_, ht, ?_, ?_⟩
      · apply List.length_pos_iff.mpr; rintro rfl; simp at hl
      · have : h = List.replicate h.length '/' := by
          rw [List.eq_replicate_iff]
          exact ⟨rfl, fun c hc => by simpa using List.all_eq_true.mp hall c hc⟩
        rw [← this]; exact e0
      · have : h = List.replicate h.length '/' := by
          rw [List.eq_replicate_iff]
          exact ⟨rfl, fun c hc => by simpa using List.all_eq_true.mp hall c hc⟩
        rw [hs, if_neg (by simp [hall]), ← this]
    · right
      refine ⟨(h.reverse.dropWhile (· = '/')).reverse, (h.reverse.takeWhile (· = '/')).length, t, hpos, ht, ?_, ?_, ?_, ?_⟩
      · intro e
        apply hall
        rw [e, List.nil_append] at e1
        rw [e1, List.all_eq_true]
        intro c hc
        rw [List.mem_reverse] at hc
        exact List.mem_takeWhile_imp (p := fun x => decide (x = '/')) hc
      · rw [List.getLast?_reverse]
        intro e
        have hne : h.reverse.dropWhile (· = '/') ≠ [] := by rintro e'; rw [e'] at e; simp at e
        have := List.head_dropWhile_not (fun x => decide (x = '/')) hne
        rw [List.head?_eq_some_head hne] at e
        simp only [Option.some.injEq] at e
        rw [e] at this
        simp at this
      · rw [← e2, ← e1]; exact e0
      · rw [hs, if_pos ⟨by rintro rfl; simp at hl, hall⟩]

theorem namesOf_replicate (n : Nat) (t : Str) (ht : '/' ∉ t) :
    namesOf (List.replicate n '/' ++ t) = if t = [] then [] else [t] := by
  unfold namesOf
  induction n with
  | zero =>
    rw [List.replicate_zero, List.nil_append, splitOn_of_no_sep ht]
    by_cases h : t = [] <;> simp [h]
  | succ n ih =>
    rw [List.replicate_succ, List.cons_append]
    simp only [splitOn, if_true]
    rw [List.filter_cons]
    simp only [ne_eq, not_true_eq_false, decide_false, Bool.false_eq_true, if_false]
    exact ih

theorem namesOf_append (h : Str) (n : Nat) (t : Str) (hn : 0 < n) (ht : '/' ∉ t) :
    namesOf (h ++ List.replicate n '/' ++ t) = namesOf h ++ if t = [] then [] else [t] := by
  obtain ⟨m, rfl⟩ : ∃ m, n = m + 1 := ⟨n - 1, by omega⟩
  rw [← namesOf_replicate m t ht]
  unfold namesOf
  rw [List.replicate_succ, List.append_assoc, List.cons_append, splitOn_append, List.filter_append]

theorem namesOf_isComp {path w : Str} (h : w ∈ namesOf path) : IsComp w := by
  unfold namesOf at h
  rw [List.mem_filter] at h
  exact ⟨by simpa using h.2, splitOn_no_sep h.1⟩

/-- The names `remove_first_directory` keeps. -/
def keptNames (path : Str) : List Str :=
  if startsWith path c!"/" then namesOf path else (namesOf path).tail

theorem osPathJoin_comp_join {w : Str} {ws : List Str} (hw : IsComp w) (hws : ∀ x ∈ ws, IsComp x) (hne : ws ≠ []) :
    osPathJoin w (joinWith '/' ws) = joinWith '/' (w :: ws) := by
  rw [joinWith_cons _ _ hne, osPathJoin_of hw.1 (endsWith_slash_of_not_mem hw.2)]
  match ws, hne with
  | x :: xs, _ =>
    have hx := hws x (by simp)
    have hh : x.head? ≠ some '/' := fun e => hx.2 (List.mem_of_head? e)
    have : (joinWith '/' (x :: xs)).head? = x.head? := by
      cases xs with
      | nil => rfl
      | cons y ys =>
        rw [joinWith_cons _ _ (by simp)]
        match x, hx.1 with
        | c :: x, _ => rfl
    rw [this]; exact hh

theorem removeFirstLoop_eq (fuel : Nat) : ∀ (path : Str) (rs : List Str), (∀ w ∈ rs, IsComp w) → path.length < fuel →
    removeFirstLoop fuel path (joinWith '/' rs) = joinWith '/' (keptNames path ++ rs) := by
  induction fuel with
  | zero => intro path rs _ hf; omega
  | succ fuel ih =>
    intro path rs hrs hf
    unfold removeFirstLoop
    have step : ∀ t : Str, '/' ∉ t →
        (if joinWith '/' rs = [] then t else osPathJoin t (joinWith '/' rs)) =
          joinWith '/' ((if t = [] then [] else [t]) ++ rs) := by
      intro t ht
      by_cases hr : rs = []
      · subst hr
        by_cases h0 : t = [] <;> simp [h0, joinWith]
      · rw [if_neg (joinWith_ne_nil hr hrs)]
        by_cases h0 : t = []
        · subst h0; simp [osPathJoin_nil]
        · rw [if_neg h0]
          exact osPathJoin_comp_join ⟨h0, ht⟩ hrs hr
    have comps : ∀ t : Str, '/' ∉ t → ∀ w ∈ (if t = [] then [] else [t]) ++ rs, IsComp w := by
      intro t ht w hw
      rcases List.mem_append.mp hw with hw | hw
      · by_cases h0 : t = []
        · simp [h0] at hw
        · simp [h0] at hw; subst hw; exact ⟨h0, ht⟩
      · exact hrs w hw
    rcases osPathSplit_cases path with ⟨h1, h2⟩ | ⟨n, t, hn, ht, hp, hs⟩ | ⟨h, n, t, hn, ht, hh, hl, hp, hs⟩
    · rw [h2]
      simp only [or_true, if_true]
      have : keptNames path = [] := by
        unfold keptNames
        rw [if_neg]
        · have := namesOf_replicate 0 path h1
          simp only [List.replicate_zero, List.nil_append] at this
          rw [this]
          by_cases h0 : path = [] <;> simp [h0]
        · intro hc
          obtain ⟨r, rfl⟩ := startsWith_iff.mp hc
          simp at h1
      rw [this, List.nil_append]
    · rw [hs]
      have hkept : keptNames path = if t = [] then [] else [t] := by
        unfold keptNames
        rw [if_pos, hp, namesOf_replicate n t ht]
        rw [hp]
        obtain ⟨m, rfl⟩ : ∃ m, n = m + 1 := ⟨n - 1, by omega⟩
        exact startsWith_iff.mpr ⟨List.replicate m '/' ++ t, by simp [List.replicate_succ]⟩
      by_cases h0 : t = []
      · subst h0
        simp only [List.append_nil] at hp
        simp only
        rw [if_pos (Or.inl hp), hkept]; simp
      · have hne1 : path ≠ List.replicate n '/' := by
          intro e
          rw [e] at hp
          have := congrArg List.length hp
          simp at this
          exact h0 this
        have hne2 : path ≠ t := by
          intro e
          rw [e] at hp
          have := congrArg List.length hp
          simp at this
          omega
        simp only
        rw [if_neg (by simp [hne1, hne2]), step t ht, ih _ _ (comps t ht)
          (by
            rw [hp] at hf
            simp only [List.length_append, List.length_replicate] at hf ⊢
            have := List.length_pos_iff.mpr h0
            omega), hkept]
        have : keptNames (List.replicate n '/') = [] := by
          unfold keptNames
          have h3 := namesOf_replicate n [] (by simp)
          simp only [List.append_nil, if_true] at h3
          rw [h3]; split <;> rfl
        rw [this, List.nil_append]
    · rw [hs]
      have hne1 : path ≠ h := by
        intro e
        rw [e] at hp
        have := congrArg List.length hp
        simp at this
        omega
      have hne2 : path ≠ t := by
        intro e
        rw [e] at hp
        have := congrArg List.length hp
        simp at this
        omega
      simp only
      rw [if_neg (by simp [hne1, hne2]), step t ht, ih _ _ (comps t ht)
        (by
          rw [hp] at hf
          simp only [List.length_append, List.length_replicate] at hf ⊢
          omega), ← List.append_assoc]
      congr 2
      have hstart : startsWith path c!"/" = startsWith h c!"/" := by
        rw [hp]
        match h, hh with
        | c :: h, _ => rfl
      unfold keptNames
      rw [hstart]
      rw [hp, namesOf_append h n t hn ht]
      by_cases hsl : startsWith h c!"/" = true
      · rw [if_pos hsl, if_pos hsl]
      · rw [if_neg hsl, if_neg hsl]
        have : namesOf h ≠ [] := by
          match h, hh, hsl with
          | c :: h, _, hsl =>
            have hc : c ≠ '/' := by rintro rfl; exact hsl rfl
            unfold namesOf
            intro e
            rw [List.filter_eq_nil_iff] at e
            simp only [splitOn, if_neg hc] at e
            split at e
            · exact e [c] (by simp) (by simp)
            · rename_i w ws _
              exact e (c :: w) (by simp) (by simp)
        rw [List.tail_append_of_ne_nil this]

theorem foldl_normStep {ws : List Str} (h : ∀ w ∈ ws, SafeName w) (acc : List Str) :
    ws.foldl normStep acc = acc ++ ws := by
  induction ws generalizing acc with
  | nil => simp
  | cons w ws ih =>
    have hw := h w (by simp)
    rw [List.foldl_cons, ih (fun x hx => h x (by simp [hx]))]
    unfold normStep
    rw [if_neg (by simp [hw.1, hw.2.1]), if_neg hw.2.2.1]
    simp

theorem absComps_abs (cwd : List Str) {ws : List Str} (h : ∀ w ∈ ws, SafeName w) :
    absComps cwd ('/' :: joinWith '/' ws) = ws := by
  unfold absComps
  have hs : startsWith ('/' :: joinWith '/' ws) c!"/" = true := startsWith_iff.mpr ⟨joinWith '/' ws, rfl⟩
  rw [if_pos hs]
  simp only [splitOn, if_true, List.foldl_cons]
  have h0 : normStep [] [] = [] := rfl
  rw [h0]
  by_cases hne : ws = []
  · subst hne; rfl
  · rw [splitOn_joinWith hne (fun w hw => (h w hw).2.2.2), foldl_normStep h]; rfl

theorem sharedLength_append (a b : List Str) : sharedLength a (a ++ b) = a.length := by
  induction a with
  | nil => cases b <;> rfl
  | cons x a ih => simp [sharedLength, ih]

theorem rstripSlash_of {s : Str} (h : endsWith s c!"/" = false) : rstripSlash s = s := by
  unfold rstripSlash
  rw [dropWhile_eq_of_not, List.reverse_reverse]
  intro c hc
  rw [List.head?_reverse] at hc
  by_contra hn
  simp at hn
  subst hn
  obtain ⟨l, rfl⟩ := List.getLast?_eq_some_iff.mp hc
  have : endsWith (l ++ ['/']) c!"/" = true := endsWith_iff.mpr ⟨l, rfl⟩
  rw [this] at h; cases h

theorem commonPrefix_eq_iff (a b : Str) : commonPrefix a b = b ↔ ∃ r, a = b ++ r := by
  induction b generalizing a with
  | nil => cases a <;> simp [commonPrefix]
  | cons x b ih =>
    cases a with
    | nil => simp [commonPrefix]
    | cons y a =>
      unfold commonPrefix
      by_cases h : y = x
      · subst h; simp [ih]
      · simp [h]

end Ocfl
