import Verif.Py.Decimal
import Verif.Py.StrLemmas
import Verif.Model.ObjectUtils
import Verif.Spec.VersionDir
import Mathlib.Data.List.Perm.Subperm

/-! # Lemmas for version directory names and unused file paths -/

namespace Ocfl

open Spec

theorem matchVDigits_eq_some_iff {d ds : Str} :
    matchVDigits d = some ds ↔
      ds ≠ [] ∧ (∀ c ∈ ds, isDigit c = true) ∧ (d = 'v' :: ds ∨ d = 'v' :: ds ++ ['\n']) := by
  constructor
  · intro h
    unfold matchVDigits at h
    split at h
    · rename_i rest
      simp only at h
      split at h
      · rename_i hc
        simp only [Option.some.injEq] at h
        have h1 := atDollar_iff.mp hc.2
        have h2 := takeWhile_append_dropWhile' isDigit rest
        rw [h] at hc h2
        refine ⟨hc.1, ?_, ?_⟩
        · intro c hc
          rw [← h] at hc
          exact (List.all_takeWhile (p := isDigit) (l := rest) |> List.all_eq_true.mp) c hc
        · rcases h1 with h1 | h1
          · left; rw [h1] at h2; simp at h2; rw [h2]
          · right; rw [h1] at h2; rw [← h2]; rfl
      · cases h
    · cases h
  · rintro ⟨hne, hd, h⟩
    rcases h with rfl | rfl
    · have := takeWhile_eq_of (p := isDigit) (l := ds) (r := []) hd (by simp)
      simp at this
      simp [matchVDigits, hne, this, atDollar]
    · have := takeWhile_eq_of (p := isDigit) (l := ds) (r := ['\n']) hd (by decide)
      simp [matchVDigits, hne, this, atDollar]

theorem matchVDigits5_eq {d : Str} :
    matchVDigits5 d = match matchVDigits d with
      | some ds => if ds.length ≤ 5 then some ds else none
      | none => none := by
  unfold matchVDigits5 matchVDigits
  split
  · rename_i rest
    simp only
    by_cases h1 : rest.takeWhile isDigit = []
    · simp [h1]
    · by_cases h2 : atDollar (rest.dropWhile isDigit) = true
      · by_cases h3 : (rest.takeWhile isDigit).length ≤ 5 <;> simp [h1, h2, h3]
      · simp [h2]
  · rfl

theorem matchVDigits_spells {d ds : Str} : matchVDigits d = some ds ↔ Spells d ds (intOf ds) := by
  rw [matchVDigits_eq_some_iff]
  unfold Spells
  constructor
  · rintro ⟨h1, h2, h3⟩
    refine ⟨h1, ?_, rfl, h3⟩
    intro c hc; exact Option.isSome_iff_exists.mp (h2 c hc)
  · rintro ⟨h1, h2, _, h3⟩
    refine ⟨h1, ?_, h3⟩
    intro c hc; exact Option.isSome_iff_exists.mpr (h2 c hc)

theorem spells_val {d ds : Str} {n : Nat} (h : Spells d ds n) : n = intOf ds := h.2.2.1

theorem spells_match {d ds : Str} {n : Nat} (h : Spells d ds n) : matchVDigits d = some ds := by
  rw [matchVDigits_spells, ← spells_val h]; exact h

theorem paddedName_eq (w n : Nat) : paddedName w n = 'v' :: padStr w n := rfl

theorem unpaddedName_eq (n : Nat) : unpaddedName n = 'v' :: natStr n := rfl

theorem spells_unpadded (n : Nat) : Spells (unpaddedName n) (natStr n) n := by
  refine ⟨natStr_ne_nil n, ?_, (intOf_natStr n).symm, Or.inl rfl⟩
  intro c hc; exact ⟨_, digitVal_ascii (natStr_isDigit hc)⟩

theorem spells_padded (w n : Nat) : Spells (paddedName w n) (padStr w n) n := by
  refine ⟨padStr_ne_nil w n, ?_, (intOf_padStr w n).symm, Or.inl rfl⟩
  intro c hc; exact ⟨_, digitVal_ascii (padStr_isDigit hc)⟩

theorem paddedName_length {w n : Nat} (h : (natStr n).length ≤ w) :
    (paddedName w n).length = w + 1 := by
  rw [paddedName_eq, List.length_cons, padStr_length h]

/-- Candidate number `n` of `make_unused_filepath`. -/
def cand (filepath sep : Str) (n : Nat) : Str :=
  if n ≤ 1 then filepath else filepath ++ sep ++ natStr n

theorem cand_inj {f sep : Str} {m n : Nat} (hm : 1 ≤ m) (hn : 1 ≤ n) (h : cand f sep m = cand f sep n) :
    m = n := by
  unfold cand at h
  split at h <;> split at h
  · omega
  · have := congrArg List.length h
    have h2 := natStr_ne_nil n
    have h3 : 0 < (natStr n).length := List.length_pos_iff.mpr h2
    simp only [List.length_append] at this; omega
  · have := congrArg List.length h
    have h2 := natStr_ne_nil m
    have h3 : 0 < (natStr m).length := List.length_pos_iff.mpr h2
    simp only [List.length_append] at this; omega
  · exact natStr_inj (List.append_cancel_left h)

theorem cand_succ {f sep : Str} {n : Nat} (hn : 1 ≤ n) :
    cand f sep (n + 1) = f ++ sep ++ natStr (n + 1) := by
  unfold cand; rw [if_neg (by omega)]

theorem unusedLoop_some {f sep : Str} {used : List Str} :
    ∀ (fuel n : Nat) (r : Str), 1 ≤ n → unusedLoop f used sep fuel n (cand f sep n) = some r →
      ∃ k, n ≤ k ∧ r = cand f sep k ∧ r ∉ used ∧ ∀ j, n ≤ j → j < k → cand f sep j ∈ used := by
  intro fuel
  induction fuel with
  | zero => intro n r _ h; simp [unusedLoop] at h
  | succ fuel ih =>
    intro n r hn h
    unfold unusedLoop at h
    split at h
    · rename_i hmem
      rw [← cand_succ hn] at h
      obtain ⟨k, hk, hr, hu, hj⟩ := ih (n + 1) r (by omega) h
      refine ⟨k, by omega, hr, hu, ?_⟩
      intro j h1 h2
      rcases Nat.lt_or_ge n j with h3 | h3
      · exact hj j h3 h2
      · have : j = n := by omega
        subst this; exact hmem
    · rename_i hmem
      simp at h; subst h
      exact ⟨n, Nat.le_refl _, rfl, hmem, fun j h1 h2 => by omega⟩

theorem unusedLoop_none {f sep : Str} {used : List Str} :
    ∀ (fuel n : Nat), 1 ≤ n → unusedLoop f used sep fuel n (cand f sep n) = none →
      ∀ j, n ≤ j → j < n + fuel → cand f sep j ∈ used := by
  intro fuel
  induction fuel with
  | zero => intro n _ _ j h1 h2; omega
  | succ fuel ih =>
    intro n hn h j h1 h2
    unfold unusedLoop at h
    split at h
    · rename_i hmem
      rw [← cand_succ hn] at h
      rcases Nat.lt_or_ge n j with h3 | h3
      · exact ih (n + 1) (by omega) h j h3 (by omega)
      · have : j = n := by omega
        subst this; exact hmem
    · cases h

theorem makeUnused_isSome (f sep : Str) (used : List Str) :
    (makeUnusedFilepath f used sep).isSome = true := by
  cases h : makeUnusedFilepath f used sep with
  | some r => rfl
  | none =>
    exfalso
    unfold makeUnusedFilepath at h
    have hall := unusedLoop_none (f := f) (sep := sep) (used := used) (used.length + 2) 1 (by omega) h
    let l := (List.range (used.length + 2)).map (fun i => cand f sep (i + 1))
    have hnd : l.Nodup := by
      refine List.Pairwise.map (R := (· ≠ ·)) _ ?_ List.nodup_range
      intro a b hab e
      apply hab
      have := cand_inj (m := a + 1) (n := b + 1) (by omega) (by omega) e
      omega
    have hsub : l ⊆ used := by
      intro x hx
      obtain ⟨i, hi, rfl⟩ := List.mem_map.mp hx
      rw [List.mem_range] at hi
      exact hall (i + 1) (by omega) (by omega)
    have := (hnd.subperm hsub).length_le
    simp [l] at this
    omega

end Ocfl
