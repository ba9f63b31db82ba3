import Verif.Model.Digest
import Verif.Py.StrLemmas

/-! # Lemmas on digests -/

namespace Ocfl

theorem isUpper_iff {c : Char} : ('A' ≤ c ∧ c ≤ 'Z') ↔ 65 ≤ c.toNat ∧ c.toNat ≤ 90 := by
  simp only [Char.le_def, UInt32.le_iff_toNat_le]
  exact Iff.rfl

theorem ofNat_toNat_small {n : Nat} (h : n < 0xd800) : (Char.ofNat n).toNat = n := by
  have : n.isValidChar := Or.inl h
  simp [Char.ofNat, this, Char.toNat, Char.ofNatAux]

theorem asciiLower_toNat (c : Char) :
    (asciiLower c).toNat = if 65 ≤ c.toNat ∧ c.toNat ≤ 90 then c.toNat + 32 else c.toNat := by
  unfold asciiLower
  by_cases h : 'A' ≤ c ∧ c ≤ 'Z'
  · rw [if_pos h, if_pos (isUpper_iff.mp h)]
    have := isUpper_iff.mp h
    exact ofNat_toNat_small (by omega)
  · rw [if_neg h, if_neg (fun h' => h (isUpper_iff.mpr h'))]

theorem char_toNat_inj {c d : Char} (h : c.toNat = d.toNat) : c = d := by
  apply Char.ext
  apply UInt32.toNat_inj.mp
  exact h

theorem asciiLower_idem (c : Char) : asciiLower (asciiLower c) = asciiLower c := by
  apply char_toNat_inj
  rw [asciiLower_toNat, asciiLower_toNat]
  split
  · rw [if_neg]; omega
  · rfl

theorem range_iff {a b c : Char} : (a ≤ c && c ≤ b) = true ↔ a.toNat ≤ c.toNat ∧ c.toNat ≤ b.toNat := by
  simp only [Bool.and_eq_true, decide_eq_true_eq, Char.le_def, UInt32.le_iff_toNat_le]
  exact Iff.rfl

theorem isHexAny_iff {c : Char} : isHexAny c = true ↔
    (48 ≤ c.toNat ∧ c.toNat ≤ 57) ∨ (97 ≤ c.toNat ∧ c.toNat ≤ 102) ∨ (65 ≤ c.toNat ∧ c.toNat ≤ 70) := by
  unfold isHexAny
  rw [Bool.or_eq_true, Bool.or_eq_true, range_iff, range_iff, range_iff, or_assoc]
  exact Iff.rfl

theorem isHexLower_iff {c : Char} : isHexLower c = true ↔
    (48 ≤ c.toNat ∧ c.toNat ≤ 57) ∨ (97 ≤ c.toNat ∧ c.toNat ≤ 102) := by
  unfold isHexLower
  rw [Bool.or_eq_true, range_iff, range_iff]
  exact Iff.rfl

theorem isHexAny_lower (c : Char) : isHexAny (asciiLower c) = isHexAny c := by
  rw [Bool.eq_iff_iff, isHexAny_iff, isHexAny_iff, asciiLower_toNat]
  split <;> omega

theorem atDollar_lower (s : Str) : atDollar (s.map asciiLower) = atDollar s := by
  rw [Bool.eq_iff_iff, atDollar_iff, atDollar_iff]
  have hnl : asciiLower '\n' = '\n' := by decide
  constructor
  · rintro (h | h)
    · left; simpa using h
    · right
      match s, h with
      | [], h => simp at h
      | _ :: _ :: _, h => simp at h
      | [c], h =>
        simp at h
        have : c = '\n' := by
          apply char_toNat_inj
          have h1 := asciiLower_toNat c
          rw [h] at h1
          change 10 = _ at h1
          split at h1
          · omega
          · rw [← h1]; rfl
        rw [this]
  · rintro (rfl | rfl)
    · left; rfl
    · right; simp [hnl]

theorem matchHex_lower (n : Nat) (s : Str) : matchHex n (s.map asciiLower) = matchHex n s := by
  unfold matchHex
  rw [← List.map_take, ← List.map_drop, List.length_map, atDollar_lower]
  congr 2
  rw [List.all_map]
  congr 1
  funext c
  exact isHexAny_lower c

end Ocfl
