import Verif.Py.Basic

/-! # Lemmas about decimal numerals -/

namespace Ocfl

theorem digitVal_lt {c : Char} {v : Nat} (h : digitVal c = some v) : v < 10 := by
  unfold digitVal at h
  simp only [Option.map_eq_some_iff] at h
  obtain ⟨z, hz, rfl⟩ := h
  have := List.find?_some hz
  simp at this
  omega

theorem isDigit_range {c : Char} (h : c.isDigit = true) : 48 ≤ c.toNat ∧ c.toNat ≤ 57 := by
  simp only [Char.isDigit, Bool.and_eq_true, decide_eq_true_eq] at h
  have h2 := UInt32.le_iff_toNat_le.mp h.1
  have h3 := UInt32.le_iff_toNat_le.mp h.2
  exact ⟨h2, h3⟩

theorem digitVal_ascii {c : Char} (h : c.isDigit = true) : digitVal c = some (c.toNat - 48) := by
  have h1 := isDigit_range h
  unfold digitVal digitZeros
  rw [List.find?_cons_of_pos]
  · rfl
  · simp; omega

theorem isDigit_ascii {c : Char} (h : c.isDigit = true) : isDigit c = true := by
  simp [isDigit, digitVal_ascii h]

theorem isDigit_slash : isDigit '/' = false := by decide
theorem isDigit_newline : isDigit '\n' = false := by decide
theorem isDigit_v : isDigit 'v' = false := by decide

/-- intOf with an accumulator. -/
def intAcc (n : Nat) (s : Str) : Nat := s.foldl (fun n c => 10 * n + (digitVal c).getD 0) n

theorem intAcc_eq (n : Nat) (s : Str) : intAcc n s = n * 10 ^ s.length + intOf s := by
  induction s generalizing n with
  | nil => simp [intAcc, intOf]
  | cons c s ih =>
    have e1 : intAcc n (c :: s) = intAcc (10 * n + (digitVal c).getD 0) s := rfl
    have e2 : intOf (c :: s) = intAcc (10 * 0 + (digitVal c).getD 0) s := rfl
    rw [e1, e2, ih, ih, List.length_cons, Nat.pow_succ]
    simp only [Nat.add_mul, Nat.mul_zero, Nat.zero_add]
    rw [Nat.mul_comm 10 n, Nat.mul_assoc, Nat.mul_comm 10 (10 ^ s.length)]
    omega

theorem intOf_cons (c : Char) (s : Str) :
    intOf (c :: s) = (digitVal c).getD 0 * 10 ^ s.length + intOf s := by
  have e2 : intOf (c :: s) = intAcc (10 * 0 + (digitVal c).getD 0) s := rfl
  rw [e2, intAcc_eq]; simp

theorem intOf_append (s t : Str) : intOf (s ++ t) = intOf s * 10 ^ t.length + intOf t := by
  have : intOf (s ++ t) = intAcc (intOf s) t := by simp [intOf, intAcc, List.foldl_append]
  rw [this, intAcc_eq]

theorem intOf_nil : intOf [] = 0 := rfl

theorem intOf_lt (s : Str) : intOf s < 10 ^ s.length := by
  induction s with
  | nil => simp [intOf]
  | cons c s ih =>
    rw [intOf_cons, List.length_cons, Nat.pow_succ]
    have hv : (digitVal c).getD 0 ≤ 9 := by
      cases hc : digitVal c with
      | none => simp
      | some v => have := digitVal_lt hc; simp; omega
    have : (digitVal c).getD 0 * 10 ^ s.length ≤ 9 * 10 ^ s.length := Nat.mul_le_mul_right _ hv
    omega

theorem intOf_replicate_zero (k : Nat) : intOf (List.replicate k '0') = 0 := by
  induction k with
  | zero => rfl
  | succ k ih =>
    rw [List.replicate_succ, intOf_cons, ih]
    have : digitVal '0' = some 0 := by decide
    simp [this]

theorem intOf_zeros_append (k : Nat) (s : Str) : intOf (List.replicate k '0' ++ s) = intOf s := by
  rw [intOf_append, intOf_replicate_zero]; simp

theorem natStr_ne_nil (n : Nat) : natStr n ≠ [] := Nat.toDigits_ne_nil

theorem natStr_isDigit {n : Nat} {c : Char} (h : c ∈ natStr n) : c.isDigit = true :=
  Nat.isDigit_of_mem_toDigits (by decide) (by decide) h

theorem natStr_isDigit' {n : Nat} {c : Char} (h : c ∈ natStr n) : isDigit c = true :=
  isDigit_ascii (natStr_isDigit h)

theorem natStr_eq (n : Nat) :
    natStr n = if n < 10 then [n.digitChar] else natStr (n / 10) ++ [(n % 10).digitChar] :=
  Nat.toDigits_eq_if (by decide)

theorem digitVal_digitChar {d : Nat} (h : d < 10) : digitVal d.digitChar = some d := by
  have : ∀ d, d < 10 → digitVal d.digitChar = some d := by decide
  exact this d h

theorem intOf_natStr (n : Nat) : intOf (natStr n) = n := by
  induction n using Nat.strongRecOn with
  | ind n ih =>
    rw [natStr_eq]
    split
    · rename_i h
      rw [intOf_cons, digitVal_digitChar h]; simp [intOf_nil]
    · rename_i h
      rw [intOf_append, ih _ (by omega), intOf_cons, digitVal_digitChar (Nat.mod_lt _ (by decide))]
      simp [intOf_nil]; omega

theorem natStr_inj {m n : Nat} (h : natStr m = natStr n) : m = n := by
  rw [← intOf_natStr m, ← intOf_natStr n, h]

theorem natStr_length_le_iff {n k : Nat} (hk : 0 < k) : (natStr n).length ≤ k ↔ n < 10 ^ k :=
  Nat.length_toDigits_le_iff (by decide) hk

theorem digitChar_ne_zero {d : Nat} (h0 : 0 < d) (h : d < 10) : d.digitChar ≠ '0' := by
  have : ∀ d, d < 10 → 0 < d → d.digitChar ≠ '0' := by decide
  exact this d h h0

theorem natStr_head_ne_zero {n : Nat} (h : 0 < n) : (natStr n).head? ≠ some '0' := by
  induction n using Nat.strongRecOn with
  | ind n ih =>
    rw [natStr_eq]
    split
    · rename_i h1
      simpa using digitChar_ne_zero h h1
    · rename_i h1
      have h2 := ih (n / 10) (by omega) (by omega)
      have h3 := natStr_ne_nil (n / 10)
      cases hn : natStr (n / 10) with
      | nil => exact absurd hn h3
      | cons c cs => rw [hn] at h2; simpa using h2

theorem isDigit_digitChar {d : Nat} (h : d < 10) : d.digitChar.isDigit = true := by
  have : ∀ d, d < 10 → d.digitChar.isDigit = true := by decide
  exact this d h

/-- An ASCII digit is determined by its value. -/
theorem ascii_digitChar {c : Char} (h : c.isDigit = true) : ((digitVal c).getD 0).digitChar = c := by
  rw [digitVal_ascii h]
  have h1 := isDigit_range h
  have key : ∀ k, k < 58 → 48 ≤ k → ((k - 48).digitChar) = Char.ofNat k := by decide
  simp only [Option.getD_some]
  rw [key _ (by omega) h1.1, Char.ofNat_toNat]

/-- The decimal string of a number is the only ASCII digit string without a
leading zero that spells it. -/
theorem natStr_intOf {s : Str} (hs : ∀ c ∈ s, c.isDigit = true) (hne : s ≠ [])
    (h0 : s.head? ≠ some '0') : natStr (intOf s) = s := by
  induction hn : s.length using Nat.strongRecOn generalizing s with
  | ind n ih =>
    obtain ⟨t, c, rfl⟩ : ∃ t c, s = t ++ [c] := by
      exact ⟨s.dropLast, s.getLast hne, (List.dropLast_concat_getLast hne).symm⟩
    have hc : c.isDigit = true := hs c (by simp)
    have hcv : (digitVal c).getD 0 < 10 := by
      cases hc : digitVal c with
      | none => simp
      | some v => simpa using digitVal_lt hc
    have hi : intOf (t ++ [c]) = intOf t * 10 + (digitVal c).getD 0 := by
      rw [intOf_append, intOf_cons]; simp [intOf_nil]
    rw [hi]
    cases ht : t with
    | nil =>
      simp only [intOf_nil, Nat.zero_mul, Nat.zero_add, List.nil_append]
      rw [natStr_eq, if_pos hcv, ascii_digitChar hc]
    | cons a t' =>
      rw [← ht]
      have htl : t.length < n := by rw [← hn]; simp
      have hh : t.head? ≠ some '0' := by
        subst ht; simpa using h0
      have ih' := ih t.length htl (s := t) (fun c hc => hs c (by simp [hc])) (by simp [ht]) hh rfl
      have hpos : 0 < intOf t := by
        rcases Nat.eq_zero_or_pos (intOf t) with h | h
        · rw [h] at ih'
          have : natStr 0 = ['0'] := by decide
          rw [this] at ih'
          rw [← ih'] at hh; simp at hh
        · exact h
      rw [natStr_eq, if_neg (by omega)]
      have h1 : (intOf t * 10 + (digitVal c).getD 0) / 10 = intOf t := by omega
      have h2 : (intOf t * 10 + (digitVal c).getD 0) % 10 = (digitVal c).getD 0 := by omega
      rw [h1, h2, ih', ascii_digitChar hc]

theorem padStr_length {w n : Nat} (h : (natStr n).length ≤ w) : (padStr w n).length = w := by
  unfold padStr; simp; omega

theorem padStr_length_ge (w n : Nat) : (natStr n).length ≤ (padStr w n).length := by
  unfold padStr; simp

theorem intOf_padStr (w n : Nat) : intOf (padStr w n) = n := by
  unfold padStr; rw [intOf_zeros_append, intOf_natStr]

theorem padStr_isDigit {w n : Nat} {c : Char} (h : c ∈ padStr w n) : c.isDigit = true := by
  unfold padStr at h
  rcases List.mem_append.mp h with h | h
  · rw [List.mem_replicate] at h; rw [h.2]; decide
  · exact natStr_isDigit h

theorem padStr_ne_nil (w n : Nat) : padStr w n ≠ [] := by
  unfold padStr; simp [natStr_ne_nil]

end Ocfl
