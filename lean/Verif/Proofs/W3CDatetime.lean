import Verif.Model.W3CDatetime
import Verif.Py.Decimal

/-! # Lemmas on dates and times -/

namespace Ocfl

theorem isLeap_iff (y : Nat) : isLeap y = true ↔ y % 4 = 0 ∧ (y % 100 ≠ 0 ∨ y % 400 = 0) := by
  unfold isLeap; simp

/-- Month and day of the `n`-th day (counted from 0) of a year. -/
def monthDay (leap : Bool) (n : Nat) : Nat × Nat :=
  let month := (n + 50) / 32
  let preceding := daysBeforeMonthTable month + (if month > 2 ∧ leap then 1 else 0)
  if preceding > n then
    let month := month - 1
    let dim := (if month = 2 then 28 else if month = 4 ∨ month = 6 ∨ month = 9 ∨ month = 11 then 30 else 31) +
      (if month = 2 ∧ leap then 1 else 0)
    (month, n - (preceding - dim) + 1)
  else (month, n - preceding + 1)

theorem monthDay_spec : ∀ leap : Bool, ∀ n, n < (if leap then 366 else 365) →
    1 ≤ (monthDay leap n).1 ∧ (monthDay leap n).1 ≤ 12 ∧ 1 ≤ (monthDay leap n).2 ∧
    (monthDay leap n).2 ≤ (if (monthDay leap n).1 = 2 then (if leap then 29 else 28)
      else if (monthDay leap n).1 = 4 ∨ (monthDay leap n).1 = 6 ∨ (monthDay leap n).1 = 9 ∨ (monthDay leap n).1 = 11 then 30 else 31) ∧
    daysBeforeMonthTable (monthDay leap n).1 + (if (monthDay leap n).1 > 2 ∧ leap then 1 else 0) + (monthDay leap n).2 = n + 1 := by
  intro leap
  cases leap
  · decide +kernel
  · decide +kernel

theorem daysBeforeYear_eq {y a b c d : Nat} (h : y = 400 * a + 100 * b + 4 * c + d + 1) (hb : b ≤ 3) (hc : c ≤ 24)
    (hd : d ≤ 3) : daysBeforeYear y = 146097 * a + 36524 * b + 1461 * c + 365 * d := by
  unfold daysBeforeYear
  have h0 : y - 1 = 400 * a + 100 * b + 4 * c + d := by omega
  rw [h0]
  have h1 : (400 * a + 100 * b + 4 * c + d) / 4 = 100 * a + 25 * b + c := by omega
  have h2 : (400 * a + 100 * b + 4 * c + d) / 100 = 4 * a + b := by omega
  have h3 : (400 * a + 100 * b + 4 * c + d) / 400 = a := by omega
  rw [h1, h2, h3]
  omega

/-- The calendar inversion. -/
theorem ord2ymd_spec {n : Nat} (hn : 1 ≤ n) {y m d : Nat} (h : ord2ymd n = (y, m, d)) :
    1 ≤ y ∧ 1 ≤ m ∧ m ≤ 12 ∧ 1 ≤ d ∧ d ≤ daysInMonth y m ∧ toOrdinal y m d = n := by
  unfold ord2ymd at h
  simp only at h
  generalize h400 : (n - 1) / 146097 = n400 at h
  generalize hr400 : (n - 1) % 146097 = r400 at h
  generalize h100 : r400 / 36524 = n100 at h
  generalize hr100 : r400 % 36524 = r100 at h
  generalize h4 : r100 / 1461 = n4 at h
  generalize hr4 : r100 % 1461 = r4 at h
  generalize h1 : r4 / 365 = n1 at h
  generalize hr1 : r4 % 365 = r at h
  have e400 : n - 1 = 146097 * n400 + r400 ∧ r400 < 146097 := by omega
  have e100 : r400 = 36524 * n100 + r100 ∧ r100 < 36524 ∧ n100 ≤ 4 := by omega
  have e4 : r100 = 1461 * n4 + r4 ∧ r4 < 1461 ∧ n4 ≤ 24 := by omega
  have e1 : r4 = 365 * n1 + r ∧ r < 365 ∧ n1 ≤ 4 := by omega
  clear h400 hr400 h100 hr100 h4 hr4 h1 hr1
  by_cases hlast : n1 = 4 ∨ n100 = 4
  · rw [if_pos hlast] at h
    simp only [Prod.mk.injEq] at h
    obtain ⟨hy, rfl, rfl⟩ := h
    have hleap : isLeap y = true := by
      rw [isLeap_iff]; omega
    refine ⟨by omega, by omega, by omega, by omega, by simp [daysInMonth], ?_⟩
    unfold toOrdinal daysBeforeMonth
    rw [hleap]
    simp only [daysBeforeMonthTable]
    rw [if_pos (by decide)]
    by_cases h4 : n100 = 4
    · rw [daysBeforeYear_eq (a := n400) (b := 3) (c := 24) (d := 3) (by omega) (by omega) (by omega) (by omega)]
      omega
    · rw [daysBeforeYear_eq (a := n400) (b := n100) (c := n4) (d := 3) (by omega) (by omega) (by omega) (by omega)]
      omega
  · rw [if_neg hlast] at h
    generalize hl : (decide (n1 = 3) && (decide (n4 ≠ 24) || decide (n100 = 3))) = leap at h
    have hmd : (y, m, d) = (n400 * 400 + 1 + n100 * 100 + n4 * 4 + n1, monthDay leap r) := by
      rw [← h]
      unfold monthDay
      simp only
      generalize hP : (daysBeforeMonthTable ((r + 50) / 32) + if (r + 50) / 32 > 2 ∧ leap = true then 1 else 0) = P
      by_cases hPr : P > r
      · rw [if_pos hPr, if_pos hPr]
      · rw [if_neg hPr, if_neg hPr]
    simp only [Prod.mk.injEq] at hmd
    obtain ⟨hy, hm⟩ := hmd
    have hm1 : m = (monthDay leap r).1 := by rw [← hm]
    have hm2 : d = (monthDay leap r).2 := by rw [← hm]
    have hleap : isLeap y = leap := by
      rw [Bool.eq_iff_iff, isLeap_iff, ← hl]
      simp only [Bool.and_eq_true, Bool.or_eq_true, decide_eq_true_eq]
      omega
    obtain ⟨s1, s2, s3, s4, s5⟩ := monthDay_spec leap r (by split <;> omega)
    rw [← hm1, ← hm2] at s4 s5
    rw [← hm1] at s1 s2
    rw [← hm2] at s3
    refine ⟨by omega, s1, s2, s3, ?_, ?_⟩
    · unfold daysInMonth; rw [hleap]; exact s4
    · unfold toOrdinal daysBeforeMonth
      rw [hleap, daysBeforeYear_eq (a := n400) (b := n100) (c := n4) (d := n1) (by omega) (by omega) (by omega) (by omega)]
      omega

theorem takeDigits_append {n : Nat} {ds r : Str} (hl : ds.length = n) (hd : ∀ c ∈ ds, isDigit c = true) :
    takeDigits n (ds ++ r) = some (intOf ds, r) := by
  unfold takeDigits
  have h1 : (ds ++ r).take n = ds := by rw [← hl]; simp
  have h2 : (ds ++ r).drop n = r := by rw [← hl]; simp
  rw [h1, h2, if_pos ⟨hl, by simpa using hd⟩]

theorem takeDigits_pad {w n : Nat} (hw : 0 < w) (hn : n < 10 ^ w) (r : Str) : takeDigits w (padStr w n ++ r) = some (n, r) := by
  rw [takeDigits_append (padStr_length ((natStr_length_le_iff hw).mpr hn))
    (fun c hc => isDigit_ascii (padStr_isDigit hc)), intOf_padStr]

theorem takeDigits_some {n : Nat} {s r : Str} {v : Nat} (h : takeDigits n s = some (v, r)) :
    s.drop n = r ∧ (s.take n).length = n ∧ (s.take n).all isDigit = true := by
  unfold takeDigits at h
  split at h
  · rename_i hc
    simp at h
    exact ⟨h.2, hc.1, hc.2⟩
  · cases h

theorem takeChar_some {c : Char} {s r : Str} (h : takeChar c s = some r) : s = c :: r := by
  cases s with
  | nil => cases h
  | cons d s =>
    simp only [takeChar] at h
    split at h
    · simp at h; subst h; rename_i hd; rw [hd]
    · cases h

theorem takeChar_cons (c : Char) (s : Str) : takeChar c (c :: s) = some s := by simp [takeChar]

theorem fracHere_dot {s : Str} {x} (h : fracHere s = some x) : '.' ∈ s.drop 8 := by
  unfold fracHere at h
  split at h
  · cases h
  · rename_i p r hr
    split at h
    · cases h
    · rename_i r' hr'
      have h0 := takeChar_some hr'
      rw [Option.bind_eq_some_iff] at hr
      obtain ⟨a1, ha1, hr⟩ := hr
      have k1 := (takeDigits_some hr).1
      rw [Option.bind_eq_some_iff] at ha1
      obtain ⟨a2, ha2, ha1⟩ := ha1
      have k2 := takeChar_some ha1
      rw [Option.bind_eq_some_iff] at ha2
      obtain ⟨a3, ha3, ha2⟩ := ha2
      have k3 := (takeDigits_some ha2).1
      rw [Option.bind_eq_some_iff] at ha3
      obtain ⟨a4, ha4, ha3⟩ := ha3
      have k4 := takeChar_some ha3
      have k5 := (takeDigits_some ha4).1
      have e1 : a3 = s.drop 3 := by
        have : a4.2.drop 1 = a3 := by rw [k4]; rfl
        rw [← this, ← k5, List.drop_drop]
      have e2 : a1 = s.drop 6 := by
        have : a2.2.drop 1 = a1 := by rw [k2]; rfl
        rw [← this, ← k3, e1, List.drop_drop, List.drop_drop]
      have e3 : r = s.drop 8 := by rw [← k1, e2, List.drop_drop]
      rw [← e3, h0]
      simp

theorem fracSearch_none {s : Str} (h : '.' ∉ s.drop 8) : fracSearch s = none := by
  induction s with
  | nil => rfl
  | cons c s ih =>
    have h' : '.' ∉ s.drop 8 := by
      intro hm
      apply h
      have : (c :: s).drop 8 = s.drop 7 := rfl
      rw [this]
      have h8 : s.drop 8 = (s.drop 7).drop 1 := by rw [List.drop_drop]
      rw [h8] at hm
      exact List.mem_of_mem_drop hm
    unfold fracSearch
    rw [ih h']
    simp only [ite_self]
    cases hf : fracHere (c :: s) with
    | none => rfl
    | some x => exact absurd (fracHere_dot hf) h

theorem fracSearch_append {q g1 ds g3 : Str} (p : Str) (hp : '\n' ∉ p) (hq : fracSearch q = some (g1, ds, g3)) :
    fracSearch (p ++ q) = some (p ++ g1, ds, g3) := by
  induction p with
  | nil => exact hq
  | cons c p ih =>
    simp only [List.mem_cons, not_or] at hp
    rw [List.cons_append]
    unfold fracSearch
    rw [if_neg (fun e => hp.1 e.symm), ih hp.2]
    rfl

end Ocfl
