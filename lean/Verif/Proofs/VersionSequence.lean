import Verif.Proofs.InventoryValidator
import Verif.Proofs.VersionDir
import Mathlib.Data.List.Nodup
import Mathlib.Data.List.Perm.Subperm

/-!
# `_validate_version_sequence` without errors
-/

namespace Ocfl
open IV V Spec

theorem vfmt_eq (w : Option Nat) (n : Nat) : vfmt w n = styleName w n := by
  cases w <;> rfl

theorem styleName_inj {w : Option Nat} {m n : Nat} (h : styleName w m = styleName w n) : m = n := by
  cases w with
  | none =>
    simp only [styleName, unpaddedName_eq, List.cons.injEq, true_and] at h
    exact natStr_inj h
  | some w =>
    simp only [styleName, paddedName_eq, List.cons.injEq, true_and] at h
    have := congrArg intOf h
    rwa [intOf_padStr, intOf_padStr] at this

/-- The names of versions `a`, …, `a + k - 1`. -/
def namesFrom (w : Option Nat) (a k : Nat) : List Str := (List.range' a k).map (styleName w)

theorem mem_namesFrom {w : Option Nat} {a k : Nat} {v : Str} :
    v ∈ namesFrom w a k ↔ ∃ i, a ≤ i ∧ i < a + k ∧ v = styleName w i := by
  simp only [namesFrom, List.mem_map, List.mem_range'_1]
  constructor
  · rintro ⟨i, h, rfl⟩; exact ⟨i, h.1, h.2, rfl⟩
  · rintro ⟨i, h1, h2, rfl⟩; exact ⟨i, ⟨h1, h2⟩, rfl⟩

theorem namesFrom_nodup (w : Option Nat) (a k : Nat) : (namesFrom w a k).Nodup :=
  List.Nodup.map (fun _ _ h => styleName_inj h) List.nodup_range'

theorem namesFrom_length (w : Option Nat) (a k : Nat) : (namesFrom w a k).length = k := by
  simp [namesFrom]

theorem seqLoop_spec (vs : List (Str × Json)) (w : Option Nat) (fuel n : Nat) :
    ∃ k, k ≤ fuel ∧ (seqLoop vs w fuel n).1 = namesFrom w n k ∧ (∀ i, n ≤ i → i < n + k → styleName w i ∈ Dict.keys vs) ∧
      ((k < fuel ∧ (seqLoop vs w fuel n).2 = some (n + k) ∧ styleName w (n + k) ∉ Dict.keys vs) ∨
       (k = fuel ∧ (seqLoop vs w fuel n).2 = none)) := by
  induction fuel generalizing n with
  | zero => exact ⟨0, le_refl _, rfl, fun i h1 h2 => by omega, Or.inr ⟨rfl, rfl⟩⟩
  | succ fuel ih =>
    unfold seqLoop
    rw [vfmt_eq]
    by_cases h : Dict.has vs (styleName w n) = true
    · simp only [h, if_true]
      obtain ⟨k, h1, h2, h3, h4⟩ := ih (n + 1)
      refine ⟨k + 1, by omega, ?_, ?_, ?_⟩
      · rw [h2]
        simp [namesFrom, List.range'_succ]
      · intro i hi1 hi2
        by_cases hi : i = n
        · subst hi; exact (Dict.has_iff _ _).mp h
        · exact h3 i (by omega) (by omega)
      · rcases h4 with ⟨h5, h6, h7⟩ | ⟨h5, h6⟩
        · exact Or.inl ⟨by omega, by rw [h6, show n + (k + 1) = n + 1 + k by omega],
            by rw [show n + (k + 1) = n + 1 + k by omega]; exact h7⟩
        · exact Or.inr ⟨by omega, h6⟩
    · simp only [h]
      refine ⟨0, by omega, rfl, fun i h1 h2 => by omega, Or.inl ⟨by omega, rfl, ?_⟩⟩
      exact (Dict.has_false_iff _ _).mp (by simpa using h)

/-- The keys are exactly the names of versions `1` to `n`. -/
def Exactly (vs : List (Str × Json)) (w : Option Nat) (n : Nat) : Prop :=
  ∀ v, v ∈ Dict.keys vs ↔ ∃ i, 1 ≤ i ∧ i ≤ n ∧ v = styleName w i

theorem exactly_perm {vs : List (Str × Json)} {w : Option Nat} {n : Nat} (hk : Dict.NK vs) (h : Exactly vs w n) :
    vs.length = n := by
  have : (Dict.keys vs).Perm (namesFrom w 1 n) := by
    refine (List.perm_ext_iff_of_nodup hk (namesFrom_nodup w 1 n)).mpr ?_
    intro v
    refine (h v).trans ?_
    rw [mem_namesFrom]
    constructor
    · rintro ⟨i, h1, h2, h3⟩; exact ⟨i, h1, by omega, h3⟩
    · rintro ⟨i, h1, h2, h3⟩; exact ⟨i, h1, by omega, h3⟩
  have := this.length_eq
  rwa [namesFrom_length, Dict.keys, List.length_map] at this

theorem exactly_of {vs : List (Str × Json)} {w : Option Nat} {n : Nat} (hl : vs.length ≤ n)
    (h : ∀ i, 1 ≤ i → i ≤ n → styleName w i ∈ Dict.keys vs) : Exactly vs w n := by
  have hsub : namesFrom w 1 n ⊆ Dict.keys vs := by
    intro v hv
    obtain ⟨i, h1, h2, rfl⟩ := mem_namesFrom.mp hv
    exact h i h1 (by omega)
  have hp : (namesFrom w 1 n).Perm (Dict.keys vs) := by
    refine ((namesFrom_nodup w 1 n).subperm hsub).perm_of_length_le ?_
    rw [namesFrom_length, Dict.keys, List.length_map]
    exact hl
  intro v
  rw [← hp.mem_iff, mem_namesFrom]
  constructor
  · rintro ⟨i, h1, h2, h3⟩; exact ⟨i, h1, by omega, h3⟩
  · rintro ⟨i, h1, h2, h3⟩; exact ⟨i, h1, by omega, h3⟩

theorem clean_sequenceFrom {vs : List (Str × Json)} {w : Option Nat} {mx : Nat} {r : List Str} (hk : Dict.NK vs)
    (h1 : styleName w 1 ∈ Dict.keys vs) (hmx : 1 ≤ mx) :
    Clean (sequenceFrom vs w mx) r ↔ ∃ n, 1 ≤ n ∧ n ≤ mx ∧ Exactly vs w n ∧ r = namesFrom w 1 n := by
  obtain ⟨k, hk1, hk2, hk3, hk4⟩ := seqLoop_spec vs w (mx - 1) 2
  have hr : ∀ n, vfmt w 1 :: namesFrom w 2 n = namesFrom w 1 (n + 1) := by
    intro n; rw [vfmt_eq]; simp [namesFrom, List.range'_succ]
  have hin : ∀ i, 1 ≤ i → i ≤ k + 1 → styleName w i ∈ Dict.keys vs := by
    intro i hi1 hi2
    by_cases hi : i = 1
    · subst hi; exact h1
    · exact hk3 i (by omega) (by omega)
  have hkn : ∀ n, Exactly vs w n → k + 1 ≤ n := by
    intro n he
    obtain ⟨i, _, h3, h4⟩ := (he _).mp (hin (k + 1) (by omega) (by omega))
    rw [styleName_inj h4]; exact h3
  unfold sequenceFrom
  generalize hs : seqLoop vs w (mx - 1) 2 = p at *
  obtain ⟨names, res⟩ := p
  simp only at hk2 hk4
  subst hk2
  rcases hk4 with ⟨h5, rfl, h7⟩ | ⟨h5, rfl⟩
  · simp only [clean_bind', clean_ite, clean_err, and_false, false_or, clean_ret, exists_const, true_and,
      Decidable.not_not, hr, false_and]
    constructor
    · rintro ⟨hl, rfl⟩
      exact ⟨k + 1, by omega, by omega, exactly_of (by omega) hin, rfl⟩
    · rintro ⟨n, hn1, hn2, he, rfl⟩
      have := hkn n he
      have hle : n ≤ k + 1 := by
        rcases Nat.lt_or_ge (k + 1) n with hlt | hge
        · exact absurd ((he _).mpr ⟨2 + k, by omega, by omega, rfl⟩) h7
        · exact hge
      have : n = k + 1 := by omega
      subst this
      exact ⟨by rw [exactly_perm hk he]; omega, rfl⟩
  · simp only [clean_bind', clean_ite, clean_err, and_false, false_or, clean_ret, exists_const, true_and, hr,
      false_and]
    constructor
    · rintro ⟨hl, rfl⟩
      exact ⟨k + 1, by omega, by omega, exactly_of (by omega) hin, rfl⟩
    · rintro ⟨n, hn1, hn2, he, rfl⟩
      have := hkn n he
      have : n = k + 1 := by omega
      subst this
      exact ⟨by rw [exactly_perm hk he]; omega, rfl⟩

theorem styleName_length {w i : Nat} (hw : 1 ≤ w) (hi : i < 10 ^ w) : (styleName (some w) i).length = w + 1 :=
  paddedName_length ((natStr_length_le_iff hw).mpr hi)

theorem findWidth_some {vs : List (Str × Json)} {ws : List Nat} {w : Nat} (h : findWidth vs ws = some w) :
    w ∈ ws ∧ styleName (some w) 1 ∈ Dict.keys vs := by
  induction ws with
  | nil => cases h
  | cons a ws ih =>
    unfold findWidth at h
    split at h
    · rename_i ha
      cases h
      rw [vfmt_eq] at ha
      exact ⟨List.mem_cons_self .., (Dict.has_iff _ _).mp ha⟩
    · exact ⟨List.mem_cons_of_mem _ (ih h).1, (ih h).2⟩

theorem findWidth_only {vs : List (Str × Json)} {ws : List Nat} {w : Nat} (hw : w ∈ ws)
    (h : styleName (some w) 1 ∈ Dict.keys vs) (ho : ∀ u ∈ ws, styleName (some u) 1 ∈ Dict.keys vs → u = w) :
    findWidth vs ws = some w := by
  induction ws with
  | nil => cases hw
  | cons a ws ih =>
    unfold findWidth
    rw [vfmt_eq]
    by_cases ha : Dict.has vs (styleName (some a) 1) = true
    · rw [if_pos ha, ho a (List.mem_cons_self ..) ((Dict.has_iff _ _).mp ha)]
    · rw [if_neg ha]
      rcases List.mem_cons.mp hw with rfl | hw
      · exact absurd ((Dict.has_iff _ _).mpr h) ha
      · exact ih hw (fun u hu => ho u (List.mem_cons_of_mem _ hu))

theorem pow_pred_lt {w i : Nat} (hw : 1 ≤ w) (hi : i ≤ 10 ^ (w - 1) - 1) : i < 10 ^ w := by
  obtain ⟨w, rfl⟩ : ∃ v, w = v + 1 := ⟨w - 1, by omega⟩
  rw [Nat.add_sub_cancel] at hi
  have : 0 < 10 ^ w := Nat.pow_pos (by omega)
  rw [Nat.pow_succ]
  omega

theorem clean_validateVersionSequence {j : Json} {r : List Str} (hk : ∀ vs, j = .obj vs → Dict.NK vs) :
    Clean (validateVersionSequence j) r ↔
      ∃ vs style n, j = .obj vs ∧ VersionNames (vs.map Prod.fst) style n ∧ r = namesFrom style 1 n := by
  cases j with
  | obj vs =>
    have hk := hk vs rfl
    have hkeys : vs.map Prod.fst = Dict.keys vs := rfl
    unfold validateVersionSequence
    by_cases h0 : vs.length = 0
    · simp only [h0, if_true, clean_bind', clean_err, false_and, exists_false, false_iff]
      rintro ⟨vs', style, n, hv, ⟨_, h1, _, h2⟩, _⟩
      cases hv
      have := List.length_eq_zero_iff.mp h0
      subst this
      have := (h2 _).mpr ⟨1, le_refl _, h1, rfl⟩
      simp at this
    · simp only [h0, if_false]
      by_cases hv1 : Dict.has vs c!"v1" = true
      · have hm : styleName none 1 ∈ Dict.keys vs := (Dict.has_iff _ _).mp hv1
        simp only [hv1, if_true]
        rw [clean_sequenceFrom hk hm (by omega)]
        constructor
        · rintro ⟨n, h1, h2, h3, rfl⟩
          exact ⟨vs, none, n, rfl, ⟨fun w h => (by cases h), h1, h2, h3⟩, rfl⟩
        · rintro ⟨vs', style, n, hv, ⟨h1, h2, h3, h4⟩, rfl⟩
          cases hv
          cases style with
          | none => exact ⟨n, h2, h3, h4, rfl⟩
          | some w =>
            exfalso
            have hw := h1 w rfl
            obtain ⟨i, hi1, hi2, hi3⟩ := (h4 _).mp hm
            have := congrArg List.length hi3
            rw [styleName_length (by omega) (pow_pred_lt (by omega) (le_trans hi2 h3))] at this
            have : (styleName none 1).length = 2 := by rfl
            omega
      · simp only [hv1]
        cases hf : findWidth vs [2, 3, 4, 5, 6, 7, 8, 9, 10] with
        | none =>
          simp only [Bool.false_eq_true, if_false, clean_bind', clean_err, false_and, exists_false, false_iff]
          rintro ⟨vs', style, n, hv, ⟨h1, h2, h3, h4⟩, _⟩
          cases hv
          cases style with
          | none =>
            exact hv1 ((Dict.has_iff _ _).mpr ((h4 _).mpr ⟨1, le_refl _, h2, rfl⟩))
          | some w =>
            have hw := h1 w rfl
            rw [findWidth_only (w := w) (by simp; omega) ((h4 _).mpr ⟨1, le_refl _, h2, rfl⟩)] at hf
            · cases hf
            · intro u hu hu1
              have hu : 2 ≤ u := by
                simp only [List.mem_cons, List.not_mem_nil, or_false] at hu; omega
              obtain ⟨i, hi1, hi2, hi3⟩ := (h4 _).mp hu1
              have := congrArg List.length hi3
              rw [styleName_length (by omega) (Nat.one_lt_pow (by omega) (by omega)),
                styleName_length (by omega) (pow_pred_lt (by omega) (le_trans hi2 h3))] at this
              omega
        | some w =>
          obtain ⟨hw, hw1⟩ := findWidth_some hf
          have hw : 2 ≤ w ∧ w ≤ 10 := by
            simp only [List.mem_cons, List.not_mem_nil, or_false] at hw; omega
          have hmx : 1 ≤ 10 ^ (w - 1) - 1 := by
            have : 10 ^ 1 ≤ 10 ^ (w - 1) := Nat.pow_le_pow_right (by omega) (by omega)
            omega
          simp only [Bool.false_eq_true, if_false, clean_bind', clean_warn, true_and, exists_const,
            clean_sequenceFrom hk hw1 hmx]
          constructor
          · rintro ⟨n, h1, h2, h3, rfl⟩
            exact ⟨vs, some w, n, rfl, ⟨fun u h => (by cases h; exact hw), h1, h2, h3⟩, rfl⟩
          · rintro ⟨vs', style, n, hv, ⟨h1, h2, h3, h4⟩, rfl⟩
            cases hv
            cases style with
            | none => exact absurd ((Dict.has_iff _ _).mpr ((h4 _).mpr ⟨1, le_refl _, h2, rfl⟩)) hv1
            | some u =>
              have hu := h1 u rfl
              obtain ⟨i, hi1, hi2, hi3⟩ := (h4 _).mp hw1
              have := congrArg List.length hi3
              rw [styleName_length (by omega) (Nat.one_lt_pow (by omega) (by omega)),
                styleName_length (by omega) (pow_pred_lt (by omega) (le_trans hi2 h3))] at this
              have : w = u := by omega
              subst this
              exact ⟨n, h2, h3, h4, rfl⟩
  | _ => simp [validateVersionSequence, clean_bind', clean_err]

end Ocfl
