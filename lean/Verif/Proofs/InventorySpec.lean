import Verif.Proofs.InventoryVersions
import Mathlib.Data.List.TakeWhile

/-!
# The checks of the code and the rules of the specification
-/

namespace Ocfl
open IV V Spec

/-! ## Paths -/

theorem joinWith_eq_pathOf (ws : List Str) : joinWith '/' ws = pathOf ws := by
  unfold pathOf
  induction ws with
  | nil => rfl
  | cons w ws ih =>
    cases ws with
    | nil => simp [joinWith, List.intercalate]
    | cons w' ws =>
      rw [joinWith, ih]
      simp [List.intercalate]

theorem badElement_iff {s : Str} (h : '/' ∉ s) : badElement s = false ↔ Safe s := by
  unfold badElement Safe
  simp [h, and_assoc]

theorem splitOn_pathOf {segs : List Str} (h0 : segs ≠ []) (h : ∀ s ∈ segs, '/' ∉ s) : splitOn '/' (pathOf segs) = segs := by
  rw [← joinWith_eq_pathOf, splitOn_joinWith h0 h]

theorem pathOf_splitOn (p : Str) : pathOf (splitOn '/' p) = p := by
  rw [← joinWith_eq_pathOf, joinWith_splitOn]

theorem pathOf_cons (w : Str) {ws : List Str} (h : ws ≠ []) : pathOf (w :: ws) = w ++ '/' :: pathOf ws := by
  rw [← joinWith_eq_pathOf, joinWith_cons _ _ h, joinWith_eq_pathOf]

/-- A path that starts or ends in a slash has an empty segment. -/
theorem edge_slash {p : Str} (h : (startsWith p c!"/" || endsWith p c!"/") = true) : [] ∈ splitOn '/' p := by
  rw [Bool.or_eq_true] at h
  rcases h with h | h
  · obtain ⟨t, rfl⟩ := startsWith_iff.mp h
    simp [splitOn]
  · obtain ⟨t, rfl⟩ := endsWith_iff.mp h
    have : joinWith '/' (splitOn '/' t ++ [[]]) = t ++ ['/'] := by
      rw [joinWith_append (splitOn_ne_nil _ _) (by simp), joinWith_splitOn]
      rfl
    rw [← this, splitOn_joinWith (by simp)]
    · simp
    · intro w hw
      rcases List.mem_append.mp hw with hw | hw
      · exact splitOn_no_sep hw
      · simp at hw; simp [hw]

theorem goodLogical_iff {p : Str} : goodLogical p = true ↔ LogicalPath (splitOn '/' p) p := by
  unfold goodLogical LogicalPath
  rw [Bool.and_eq_true, Bool.not_eq_true', Bool.not_eq_true']
  constructor
  · rintro ⟨_, h⟩
    refine ⟨splitOn_ne_nil _ _, fun s hs => ?_, (pathOf_splitOn p).symm⟩
    rw [List.any_eq_false] at h
    exact (badElement_iff (splitOn_no_sep hs)).mp (by simpa using h s hs)
  · rintro ⟨_, h, _⟩
    constructor
    · cases he : (startsWith p c!"/" || endsWith p c!"/") with
      | false => rfl
      | true => exact absurd rfl (h _ (edge_slash he)).1
    · rw [List.any_eq_false]
      intro s hs
      rw [(badElement_iff (splitOn_no_sep hs)).mpr (h s hs)]
      simp

theorem logical_segs {segs : List Str} {p : Str} (h : LogicalPath segs p) : segs = splitOn '/' p := by
  obtain ⟨h0, h1, rfl⟩ := h
  exact (splitOn_pathOf h0 (fun s hs => (h1 s hs).2.2.2)).symm

theorem goodLogical_iff' {p : Str} : goodLogical p = true ↔ ∃ segs, LogicalPath segs p := by
  rw [goodLogical_iff]
  constructor
  · exact fun h => ⟨_, h⟩
  · rintro ⟨segs, h⟩; rw [← logical_segs h]; exact h

theorem ldirOf_eq {segs : List Str} {p : Str} (h : LogicalPath segs p) : ldirOf p = pathOf segs.dropLast := by
  unfold ldirOf
  rw [joinWith_eq_pathOf, ← logical_segs h]

/-- The form of a version directory in a content path. -/
def VForm (v : Str) : Prop := ∃ ds, v = 'v' :: ds ∧ ds ≠ [] ∧ ∀ c ∈ ds, isDigit c = true

theorem VForm.no_slash {v : Str} (h : VForm v) : '/' ∉ v := by
  obtain ⟨ds, rfl, _, h⟩ := h
  intro hm
  rcases List.mem_cons.mp hm with h1 | h1
  · exact absurd h1 (by decide)
  · have := h _ h1
    rw [isDigit_slash] at this
    cases this

theorem all_ne {a : Char} {l : Str} (h : a ∉ l) : ∀ y ∈ l, decide (y ≠ a) = true := by
  intro y hy
  rw [decide_eq_true_eq]
  rintro rfl
  exact h hy

theorem not_mem_joinWith {c sep : Char} (hc : c ≠ sep) {l : List Str} (h : ∀ s ∈ l, c ∉ s) : c ∉ joinWith sep l := by
  induction l with
  | nil => intro h; cases h
  | cons w ws ih =>
    cases ws with
    | nil => exact h w (List.mem_cons_self ..)
    | cons w' ws =>
      rw [joinWith]
      intro hm
      rcases List.mem_append.mp hm with hm | hm
      · exact h w (List.mem_cons_self ..) hm
      · rcases List.mem_cons.mp hm with hm | hm
        · exact hc hm
        · exact ih (fun s hs => h s (List.mem_cons_of_mem _ hs)) hm

theorem mem_joinWith {c sep : Char} {l : List Str} {s : Str} (hs : s ∈ l) (h : c ∈ s) : c ∈ joinWith sep l := by
  induction l with
  | nil => cases hs
  | cons w ws ih =>
    cases ws with
    | nil => rw [List.mem_singleton] at hs; subst hs; exact h
    | cons w' ws =>
      rw [joinWith]
      rcases List.mem_cons.mp hs with rfl | hs
      · exact List.mem_append_left _ h
      · exact List.mem_append_right _ (List.mem_cons_of_mem _ (ih hs))

theorem takeWhile_append_stop {α : Type} {p : α → Bool} {l r : List α} {x : α} (h : ∀ y ∈ l, p y = true) (hx : p x = false) :
    (l ++ x :: r).takeWhile p = l ∧ (l ++ x :: r).dropWhile p = x :: r := by
  induction l with
  | nil => simp [hx]
  | cons a l ih =>
    have ha := h a (List.mem_cons_self ..)
    have := ih (fun y hy => h y (List.mem_cons_of_mem _ hy))
    simp [ha, this.1, this.2]

theorem takeWhile_all {α : Type} {p : α → Bool} {l : List α} (h : ∀ y ∈ l, p y = true) :
    l.takeWhile p = l ∧ l.dropWhile p = [] := by
  induction l with
  | nil => simp
  | cons a l ih =>
    have ha := h a (List.mem_cons_self ..)
    have := ih (fun y hy => h y (List.mem_cons_of_mem _ hy))
    simp [ha, this.1, this.2]

/-- A line, followed by nothing or by a newline. -/
theorem takeWhile_line {a t : Str} (ha : '\n' ∉ a) (ht : t = [] ∨ t.head? = some '\n') :
    (a ++ t).takeWhile (fun c => decide (c ≠ '\n')) = a := by
  rcases ht with rfl | ht
  · rw [List.append_nil]; exact (takeWhile_all (all_ne ha)).1
  · cases t with
    | nil => cases ht
    | cons c t =>
      simp only [List.head?_cons, Option.some.injEq] at ht
      subst ht
      exact (takeWhile_append_stop (all_ne ha) (by simp)).1

theorem matchContentPath_some {p g1 g2 g3 : Str} :
    matchContentPath p = some (g1, g2, g3) ↔
      VForm g1 ∧ g2 ≠ [] ∧ '/' ∉ g2 ∧ g3 ≠ [] ∧ '\n' ∉ g3 ∧
        ∃ tail, p = g1 ++ '/' :: g2 ++ '/' :: g3 ++ tail ∧ (tail = [] ∨ tail.head? = some '\n') := by
  constructor
  · intro h
    unfold matchContentPath at h
    split at h
    · rename_i rest
      simp only at h
      split at h
      · rename_i r hr
        split at h
        · rename_i r' hr'
          split at h
          · rename_i hc
            cases h
            refine ⟨⟨_, rfl, hc.1, fun c hm => by simpa using List.mem_takeWhile_imp hm⟩, hc.2.1,
              fun hm => by simpa using List.mem_takeWhile_imp hm, hc.2.2, fun hm => by simpa using List.mem_takeWhile_imp hm,
              r'.dropWhile (· ≠ '\n'), ?_, ?_⟩
            · have e1 := List.takeWhile_append_dropWhile (p := isDigit) (l := rest)
              have e2 := List.takeWhile_append_dropWhile (p := (· ≠ '/')) (l := r)
              have e3 := List.takeWhile_append_dropWhile (p := (· ≠ '\n')) (l := r')
              rw [hr] at e1
              rw [hr'] at e2
              conv_lhs => rw [← e1, ← e2, ← e3]
              simp
            · cases hd : r'.dropWhile (· ≠ '\n') with
              | nil => exact Or.inl rfl
              | cons c t =>
                have := List.head_dropWhile_not (fun x => decide (x ≠ '\n')) (l := r') (by rw [hd]; simp)
                simp only [hd, List.head_cons] at this
                exact Or.inr (by simpa using this)
          · cases h
        · cases h
      · cases h
    · cases h
  · rintro ⟨⟨ds, rfl, hds, hdd⟩, h2, h3, h4, h5, tail, rfl, ht⟩
    unfold matchContentPath
    have e1 := takeWhile_append_stop (p := isDigit) (l := ds) (x := '/') (r := g2 ++ '/' :: g3 ++ tail) hdd isDigit_slash
    have e2 := takeWhile_append_stop (p := fun c => decide (c ≠ '/')) (l := g2) (x := '/') (r := g3 ++ tail)
      (all_ne h3) (by simp)
    have e3 := takeWhile_line h5 ht
    simp only [List.cons_append, List.append_assoc] at *
    rw [e1.1, e1.2]
    simp only
    rw [e2.1, e2.2]
    simp only
    rw [e3, if_pos ⟨hds, h2, h4⟩]

/-- What the segments of a content path look like. -/
theorem goodContent_iff {cd p : Str} :
    goodContent cd p = true ↔ ∃ v segs, VForm v ∧ '/' ∉ cd ∧ ContentPath cd v segs p := by
  unfold goodContent
  rw [Bool.and_eq_true, Bool.not_eq_true']
  constructor
  · rintro ⟨h1, h2⟩
    cases hm : matchContentPath p with
    | none => rw [hm] at h2; cases h2
    | some g =>
      obtain ⟨g1, g2, g3⟩ := g
      rw [hm] at h2
      simp only [Bool.and_eq_true, decide_eq_true_eq, Bool.not_eq_true'] at h2
      obtain ⟨rfl, h2⟩ := h2
      obtain ⟨hv, hg2, hs, hg3, hn, tail, rfl, ht⟩ := matchContentPath_some.mp hm
      rw [List.any_eq_false] at h2
      refine ⟨g1, splitOn '/' g3, hv, hs, hg2, splitOn_ne_nil _ _, fun s hsm => ⟨?_, ?_⟩, tail, ?_, ?_⟩
      · exact (badElement_iff (splitOn_no_sep hsm)).mp (by simpa using h2 s hsm)
      · intro hnl
        apply hn
        rw [← joinWith_splitOn '/' g3]
        exact mem_joinWith hsm hnl
      · rw [pathOf_cons _ (by simp), pathOf_cons _ (splitOn_ne_nil _ _), pathOf_splitOn]
        simp
      · rcases ht with rfl | ht
        · exact Or.inl rfl
        · refine Or.inr ⟨ht, fun hl => ?_⟩
          rw [Bool.or_eq_false_iff] at h1
          have : endsWith (g1 ++ '/' :: g2 ++ '/' :: g3 ++ tail) c!"/" = true := by
            have hne : tail ≠ [] := by rintro rfl; cases ht
            rw [endsWith_iff]
            rw [List.getLast?_eq_some_getLast hne, Option.some.injEq] at hl
            refine ⟨g1 ++ '/' :: g2 ++ '/' :: g3 ++ tail.dropLast, ?_⟩
            have := List.dropLast_append_getLast hne
            rw [hl] at this
            conv_lhs => rw [← this]
            simp
          rw [this] at h1
          cases h1.2
  · rintro ⟨v, segs, hv, hs, hcd, hne, hsegs, tail, rfl, ht⟩
    have hsp : splitOn '/' (pathOf segs) = segs := splitOn_pathOf hne (fun s hs => (hsegs s hs).1.2.2.2)
    have hpn : pathOf segs ≠ [] := by
      intro h
      rw [h] at hsp
      have : [] ∈ segs := by rw [← hsp]; simp [splitOn]
      exact (hsegs _ this).1.1 rfl
    have hnl : '\n' ∉ pathOf segs := by
      rw [← joinWith_eq_pathOf]
      exact not_mem_joinWith (by decide) (fun s hs => (hsegs s hs).2)
    have hm : matchContentPath (pathOf (v :: cd :: segs) ++ tail) = some (v, cd, pathOf segs) := by
      rw [matchContentPath_some]
      refine ⟨hv, hcd, hs, hpn, hnl, tail, ?_, ht.imp id And.left⟩
      rw [pathOf_cons _ (by simp), pathOf_cons _ hne]
      simp
    constructor
    · rw [Bool.or_eq_false_iff]
      constructor
      · obtain ⟨ds, rfl, _⟩ := hv
        rw [pathOf_cons _ (by simp)]
        rfl
      · cases he : endsWith (pathOf (v :: cd :: segs) ++ tail) c!"/" with
        | false => rfl
        | true =>
          exfalso
          obtain ⟨t, ht'⟩ := endsWith_iff.mp he
          rcases ht with rfl | ⟨h1, h2⟩
          · rw [List.append_nil] at ht'
            have hl := splitOn_pathOf (segs := v :: cd :: segs) (by simp) (by
              intro s hsm
              rcases List.mem_cons.mp hsm with rfl | hsm
              · exact hv.no_slash
              · rcases List.mem_cons.mp hsm with rfl | hsm
                · exact hs
                · exact (hsegs s hsm).1.2.2.2)
            have : [] ∈ splitOn '/' (pathOf (v :: cd :: segs)) := edge_slash (by
              rw [Bool.or_eq_true]; rw [List.append_nil] at he; exact Or.inr he)
            rw [hl] at this
            rcases List.mem_cons.mp this with h | h
            · obtain ⟨ds, rfl, _⟩ := hv; cases h
            · rcases List.mem_cons.mp h with h | h
              · exact hcd h.symm
              · exact (hsegs _ h).1.1 rfl
          · have hne' : tail ≠ [] := by rintro rfl; cases h1
            apply h2
            have := congrArg List.getLast? ht'
            rw [List.getLast?_append_of_ne_nil _ hne'] at this
            rw [this]
            simp
    · rw [hm]
      simp only [Bool.and_eq_true, decide_eq_true_eq, Bool.not_eq_true', true_and]
      rw [hsp, List.any_eq_false]
      intro s hsm
      rw [(badElement_iff (hsegs s hsm).1.2.2.2).mpr (hsegs s hsm).1]
      simp

theorem contentPath_matches {cd v : Str} {segs : List Str} {p : Str} (h : ContentPath cd v segs p) (hv : VForm v)
    (hs : '/' ∉ cd) : dirOf p = pathOf (v :: cd :: segs.dropLast) ∧ p.takeWhile (· ≠ '/') = v := by
  obtain ⟨hcd, hne, hsegs, tail, rfl, ht⟩ := h
  have hsp : splitOn '/' (pathOf segs) = segs := splitOn_pathOf hne (fun s hs => (hsegs s hs).1.2.2.2)
  have hg : goodContent cd (pathOf (v :: cd :: segs) ++ tail) = true :=
    goodContent_iff.mpr ⟨v, segs, hv, hs, hcd, hne, hsegs, tail, rfl, ht⟩
  constructor
  · unfold goodContent at hg
    rw [Bool.and_eq_true] at hg
    unfold dirOf
    cases hm : matchContentPath (pathOf (v :: cd :: segs) ++ tail) with
    | none => rw [hm] at hg; cases hg.2
    | some g =>
      obtain ⟨g1, g2, g3⟩ := g
      obtain ⟨hv', hg2, hs', hg3, hn', tail', he, ht'⟩ := matchContentPath_some.mp hm
      rw [pathOf_cons _ (by simp), pathOf_cons _ hne] at he
      have e1 : (v ++ '/' :: (cd ++ '/' :: pathOf segs) ++ tail) = v ++ '/' :: (cd ++ '/' :: (pathOf segs ++ tail)) := by simp
      have e2 : (g1 ++ '/' :: g2 ++ '/' :: g3 ++ tail') = g1 ++ '/' :: (g2 ++ '/' :: (g3 ++ tail')) := by simp
      rw [e1, e2] at he
      have stop : ∀ (a : Str) (r : Str), '/' ∉ a →
          (a ++ '/' :: r).takeWhile (fun c => decide (c ≠ '/')) = a ∧
          (a ++ '/' :: r).dropWhile (fun c => decide (c ≠ '/')) = '/' :: r := by
        intro a r ha
        exact takeWhile_append_stop (all_ne ha) (by simp)
      have hA := stop v (cd ++ '/' :: (pathOf segs ++ tail)) hv.no_slash
      have hB := stop g1 (g2 ++ '/' :: (g3 ++ tail')) hv'.no_slash
      rw [he, hB.1, hB.2] at hA
      obtain ⟨rfl, hA⟩ := hA
      rw [List.cons.injEq] at hA
      have hC := stop cd (pathOf segs ++ tail) hs
      have hD := stop g2 (g3 ++ tail') hs'
      rw [← hA.2, hD.1, hD.2] at hC
      obtain ⟨rfl, hC⟩ := hC
      rw [List.cons.injEq] at hC
      have hps : '\n' ∉ pathOf segs := by
        rw [← joinWith_eq_pathOf]
        exact not_mem_joinWith (by decide) (fun s hs => (hsegs s hs).2)
      have hE := takeWhile_line hn' ht'
      rw [hC.2, takeWhile_line hps (ht.imp id And.left)] at hE
      subst hE
      simp only
      rw [joinWith_eq_pathOf, hsp]
  · rw [pathOf_cons _ (by simp)]
    have := takeWhile_append_stop (p := fun c => decide (c ≠ '/')) (l := v) (x := '/')
      (r := pathOf (cd :: segs) ++ tail) (all_ne hv.no_slash) (by simp)
    simpa using this.1

end Ocfl
