import Verif.Model.Object
import Verif.Proofs.Walk
import Verif.Proofs.Only
import Verif.Proofs.Place

/-!
# Paths given to `open_obj_fs`
-/

namespace Ocfl

open Spec FS Prog

theorem foldl_namesOf' (p : Str) (acc : List Str) :
    (splitOn '/' p).foldl normStep acc = (namesOf p).foldl normStep acc := by
  unfold namesOf
  induction splitOn '/' p generalizing acc with
  | nil => rfl
  | cons w ws ih =>
    by_cases hw : w = []
    · subst hw
      rw [List.foldl_cons, List.filter_cons, if_neg (by simp)]
      have : normStep acc [] = acc := by simp [normStep]
      rw [this, ih]
    · rw [List.foldl_cons, List.filter_cons, if_pos (by simpa using hw), List.foldl_cons, ih]

theorem foldl_single (t : Str) (acc : List Str) :
    (if t = [] then ([] : List Str) else [t]).foldl normStep acc = normStep acc t := by
  by_cases h : t = []
  · subst h; simp [normStep]
  · simp [h]

theorem resolve_no_slash {t : Str} (ht : '/' ∉ t) (base : Path) : resolve base t = normStep base t := by
  unfold resolve
  rw [splitOn_of_no_sep ht]; rfl

theorem startsWith_slash_append {h t : Str} (hne : h ≠ []) : startsWith (h ++ t) c!"/" = startsWith h c!"/" := by
  cases h with
  | nil => exact absurd rfl hne
  | cons a h => simp [startsWith, List.isPrefixOf]

theorem startsWith_slash_no {t : Str} (ht : '/' ∉ t) : startsWith t c!"/" = false := by
  rw [Bool.eq_false_iff]
  intro h
  obtain ⟨r, rfl⟩ := startsWith_iff.mp h
  simp at ht

/-- Splitting a path and resolving the last name in the rest gives the path. -/
theorem absComps_split (cwd : Path) (p : Str) :
    resolve (absComps cwd (osPathSplit p).1) (osPathSplit p).2 = absComps cwd p ∧ '/' ∉ (osPathSplit p).2 := by
  rcases osPathSplit_cases p with ⟨h, e⟩ | ⟨n, t, hn, ht, hp, e⟩ | ⟨h, n, t, hn, ht, hne, hl, hp, e⟩
  · rw [e]
    refine ⟨?_, h⟩
    rw [resolve_no_slash h]
    unfold absComps
    rw [startsWith_slash_no h, splitOn_of_no_sep h]
    rfl
  · rw [e]
    refine ⟨?_, ht⟩
    rw [resolve_no_slash ht]
    unfold absComps
    obtain ⟨m, rfl⟩ : ∃ m, n = m + 1 := ⟨n - 1, by omega⟩
    have h1 : startsWith (List.replicate (m + 1) '/') c!"/" = true := by
      rw [startsWith_iff]; exact ⟨List.replicate m '/', by rw [List.replicate_succ]; rfl⟩
    have h2 : startsWith p c!"/" = true := by
      rw [hp, startsWith_iff]; exact ⟨List.replicate m '/' ++ t, by rw [List.replicate_succ]; rfl⟩
    simp only [h1, h2, if_true]
    rw [foldl_namesOf', foldl_namesOf', hp, namesOf_replicate _ _ ht, foldl_single]
    have := namesOf_replicate (m + 1) [] (by simp)
    rw [List.append_nil] at this
    rw [this]
    simp
  · rw [e]
    refine ⟨?_, ht⟩
    rw [resolve_no_slash ht]
    unfold absComps
    rw [foldl_namesOf', foldl_namesOf', hp, namesOf_append h n t hn ht, List.append_assoc,
      startsWith_slash_append hne, List.foldl_append, foldl_single]

theorem normStep_names {acc : List Str} {w : Str} (hacc : ∀ x ∈ acc, SafeName x) (hw : '/' ∉ w) :
    ∀ x ∈ normStep acc w, SafeName x := by
  unfold normStep
  split
  · exact hacc
  · rename_i h1
    split
    · exact fun x hx => hacc x (List.dropLast_subset _ hx)
    · rename_i h2
      intro x hx
      rcases List.mem_append.mp hx with h | h
      · exact hacc x h
      · rw [List.mem_singleton] at h
        subst h
        exact ⟨fun h => h1 (Or.inl h), fun h => h1 (Or.inr h), h2, hw⟩

theorem foldl_normStep_names {ws : List Str} (hws : ∀ w ∈ ws, '/' ∉ w) : ∀ {acc : List Str}, (∀ x ∈ acc, SafeName x) →
    ∀ x ∈ ws.foldl normStep acc, SafeName x := by
  induction ws with
  | nil => intro acc h; exact h
  | cons w ws ih =>
    intro acc h
    exact ih (fun w hw => hws w (by simp [hw])) (normStep_names h (hws w (by simp)))

/-- Absolute paths consist of names. -/
theorem absComps_safe {cwd : Path} (h : ∀ w ∈ cwd, SafeName w) (p : Str) : ∀ w ∈ absComps cwd p, SafeName w := by
  unfold absComps
  apply foldl_normStep_names (fun w hw => splitOn_no_sep hw)
  split
  · simp
  · exact h

theorem resolve_safe {base : Path} (h : ∀ w ∈ base, SafeName w) (p : Str) : ∀ w ∈ resolve base p, SafeName w :=
  foldl_normStep_names (fun w hw => splitOn_no_sep hw) h

/-- One step of `normpath` does not change what a path stands for. -/
theorem normpathStep_fold {start : List Str} {rooted : Bool} (hroot : rooted = true → start = []) {acc : List Str}
    (hacc : ∀ x ∈ acc, x ≠ [] ∧ x ≠ c!"." ∧ '/' ∉ x) {w : Str} (hw : '/' ∉ w) :
    (normpathStep rooted acc w).foldl normStep start = normStep (acc.foldl normStep start) w ∧
    ∀ x ∈ normpathStep rooted acc w, x ≠ [] ∧ x ≠ c!"." ∧ '/' ∉ x := by
  unfold normpathStep
  split
  · rename_i h
    exact ⟨by simp [normStep, h], hacc⟩
  · rename_i h1
    split
    · rename_i h2
      refine ⟨by rw [List.foldl_append]; rfl, ?_⟩
      intro x hx
      rcases List.mem_append.mp hx with h | h
      · exact hacc x h
      · rw [List.mem_singleton] at h
        subst h
        exact ⟨fun h => h1 (Or.inl h), fun h => h1 (Or.inr h), hw⟩
    · rename_i h2
      simp only [not_or, not_not, not_and] at h2
      obtain ⟨rfl, hr, hlast⟩ := h2
      refine ⟨?_, fun x hx => hacc x (List.dropLast_subset _ hx)⟩
      have hstep : ∀ l : List Str, normStep l c!".." = l.dropLast := by intro l; simp [normStep]
      rw [hstep]
      rcases List.eq_nil_or_concat acc with rfl | ⟨init, x, rfl⟩
      · have : rooted = true := by
          cases rooted
          · exact absurd rfl (hr rfl)
          · rfl
        rw [hroot this]
        rfl
      · rw [List.concat_eq_append] at hacc hlast ⊢
        rw [List.dropLast_concat, List.foldl_append]
        obtain ⟨a, b, _⟩ := hacc x (by simp)
        have hx : x ≠ c!".." := by
          intro hx
          apply hlast
          rw [hx]; simp
        have : normStep (init.foldl normStep start) x = init.foldl normStep start ++ [x] := by
          unfold normStep
          rw [if_neg (by rintro (h | h); exact a h; exact b h), if_neg hx]
        rw [List.foldl_cons, List.foldl_nil, this, List.dropLast_concat]

theorem normpath_fold {start : List Str} {rooted : Bool} (hroot : rooted = true → start = []) : ∀ {ws acc : List Str},
    (∀ w ∈ ws, '/' ∉ w) → (∀ x ∈ acc, x ≠ [] ∧ x ≠ c!"." ∧ '/' ∉ x) →
    (ws.foldl (normpathStep rooted) acc).foldl normStep start = ws.foldl normStep (acc.foldl normStep start) ∧
    ∀ x ∈ ws.foldl (normpathStep rooted) acc, x ≠ [] ∧ x ≠ c!"." ∧ '/' ∉ x := by
  intro ws
  induction ws with
  | nil => intro acc _ h; exact ⟨rfl, h⟩
  | cons w ws ih =>
    intro acc hws hacc
    obtain ⟨h1, h2⟩ := normpathStep_fold hroot hacc (hws w (by simp))
    obtain ⟨h3, h4⟩ := ih (fun w hw => hws w (by simp [hw])) h2
    exact ⟨by rw [List.foldl_cons, List.foldl_cons, h3, h1], h4⟩

theorem absComps_nil (cwd : Path) : absComps cwd [] = cwd := by
  simp [absComps, startsWith, splitOn, normStep]

theorem absComps_join {rs : List Str} (h : ∀ x ∈ rs, x ≠ [] ∧ x ≠ c!"." ∧ '/' ∉ x) (hne : rs ≠ []) (cwd : Path) :
    absComps cwd (joinWith '/' rs) = rs.foldl normStep cwd := by
  unfold absComps
  have : startsWith (joinWith '/' rs) c!"/" = false := by
    rw [Bool.eq_false_iff]
    intro hs
    obtain ⟨t, ht⟩ := startsWith_iff.mp hs
    have hc : ∀ w ∈ rs, IsComp w := fun w hw => ⟨(h w hw).1, (h w hw).2.2⟩
    exact joinWith_head hc '/' (by rw [ht]; rfl) rfl
  rw [this, splitOn_joinWith hne (fun x hx => (h x hx).2.2)]
  rfl

theorem foldl_slash (t : Str) (acc : Path) : (splitOn '/' ('/' :: t)).foldl normStep acc = (splitOn '/' t).foldl normStep acc := by
  simp [splitOn, normStep]

/-- `normpath` does not change what a path stands for. -/
theorem absComps_normpath (cwd : Path) (p : Str) : absComps cwd (osNormpath p) = absComps cwd p := by
  have hsep : ∀ w ∈ splitOn '/' p, '/' ∉ w := fun w hw => splitOn_no_sep hw
  have rooted : ∀ lead : Str, (lead = c!"/" ∨ lead = c!"//") → startsWith p c!"/" = true →
      absComps cwd (lead ++ joinWith '/' ((splitOn '/' p).foldl (normpathStep (lead ≠ [])) [])) = absComps cwd p ∧
      lead ++ joinWith '/' ((splitOn '/' p).foldl (normpathStep (lead ≠ [])) []) ≠ [] := by
    intro lead hl hs
    have hlr : decide (lead ≠ []) = true := by rcases hl with rfl | rfl <;> rfl
    rw [hlr]
    obtain ⟨h1, h2⟩ := normpath_fold (start := []) (rooted := true) (fun _ => rfl) (acc := []) hsep (by simp)
    have hj : (splitOn '/' (joinWith '/' ((splitOn '/' p).foldl (normpathStep true) []))).foldl normStep [] =
        (splitOn '/' p).foldl normStep [] := by
      by_cases hne : (splitOn '/' p).foldl (normpathStep true) [] = []
      · rw [hne] at h1 ⊢
        simpa [joinWith, splitOn, normStep] using h1
      · rw [splitOn_joinWith hne (fun x hx => (h2 x hx).2.2), h1]
        rfl
    unfold absComps
    rw [hs]
    rcases hl with rfl | rfl
    · refine ⟨?_, by simp⟩
      simp only [List.cons_append, List.nil_append]
      rw [foldl_slash, if_pos (by simp [startsWith]), hj]
      rfl
    · refine ⟨?_, by simp⟩
      simp only [List.cons_append, List.nil_append]
      rw [foldl_slash, foldl_slash, if_pos (by simp [startsWith]), hj]
      rfl
  unfold osNormpath
  dsimp only
  split
  · rename_i h
    have hs : startsWith p c!"/" = true := by
      obtain ⟨t, rfl⟩ := startsWith_iff.mp h.1
      simp [startsWith]
    obtain ⟨h1, h2⟩ := rooted c!"//" (Or.inr rfl) hs
    rw [if_neg h2, h1]
  · split
    · rename_i hs
      obtain ⟨h1, h2⟩ := rooted c!"/" (Or.inl rfl) hs
      rw [if_neg h2, h1]
    · rename_i hs
      have hs : startsWith p c!"/" = false := by simpa using hs
      obtain ⟨h1, h2⟩ := normpath_fold (start := cwd) (rooted := false) (by simp) (acc := []) hsep (by simp)
      have he : absComps cwd p = (splitOn '/' p).foldl normStep cwd := by unfold absComps; rw [hs]; rfl
      have hd : decide (([] : Str) ≠ []) = false := rfl
      rw [hd, List.nil_append]
      by_cases hne : (splitOn '/' p).foldl (normpathStep false) [] = []
      · rw [hne] at h1 ⊢
        rw [if_pos (by rfl), he]
        refine Eq.trans ?_ h1
        simp [absComps, splitOn, normStep, startsWith]
      · rw [if_neg, absComps_join h2 hne, h1, he]
        · rfl
        · exact joinWith_ne_nil hne (fun w hw => ⟨(h2 w hw).1, (h2 w hw).2.2⟩)

end Ocfl
