import Verif.Spec.W3CDatetime
import Verif.Proofs.W3CDatetime
import Mathlib.Data.List.Basic
import Mathlib.Data.List.TakeWhile

/-!
# C61, C62: W3C date-times
-/

namespace Ocfl
open Spec

theorem leap_iff (y : Nat) : isLeap y = true ↔ Leap y := by
  rw [isLeap_iff]; unfold Leap; omega

theorem monthLength_iff {y m n : Nat} : MonthLength y m n ↔ 1 ≤ m ∧ m ≤ 12 ∧ n = daysInMonth y m := by
  unfold MonthLength daysInMonth
  rw [← leap_iff]
  constructor
  · rintro (⟨h, rfl⟩ | ⟨h, rfl⟩ | ⟨rfl, ⟨h, rfl⟩ | ⟨h, rfl⟩⟩)
    · simp only [List.mem_cons, List.not_mem_nil, or_false] at h
      rcases h with rfl | rfl | rfl | rfl | rfl | rfl | rfl <;> simp
    · simp only [List.mem_cons, List.not_mem_nil, or_false] at h
      rcases h with rfl | rfl | rfl | rfl <;> simp
    · simp [h]
    · simp [h]
  · rintro ⟨h1, h2, rfl⟩
    have : m = 1 ∨ m = 2 ∨ m = 3 ∨ m = 4 ∨ m = 5 ∨ m = 6 ∨ m = 7 ∨ m = 8 ∨ m = 9 ∨ m = 10 ∨ m = 11 ∨ m = 12 := by omega
    rcases this with rfl | rfl | rfl | rfl | rfl | rfl | rfl | rfl | rfl | rfl | rfl | rfl <;> simp

theorem daysBeforeYear_succ (y : Nat) (hy : 1 ≤ y) :
    daysBeforeYear (y + 1) = daysBeforeYear y + (if isLeap y then 366 else 365) := by
  obtain ⟨a, ha⟩ : ∃ a, a = (y - 1) / 400 := ⟨_, rfl⟩
  obtain ⟨b, hb⟩ : ∃ b, b = (y - 1) % 400 / 100 := ⟨_, rfl⟩
  obtain ⟨c, hc⟩ : ∃ c, c = (y - 1) % 100 / 4 := ⟨_, rfl⟩
  obtain ⟨d, hd⟩ : ∃ d, d = (y - 1) % 4 := ⟨_, rfl⟩
  have e : y = 400 * a + 100 * b + 4 * c + d + 1 := by omega
  have b1 : b ≤ 3 := by omega
  have c1 : c ≤ 24 := by omega
  have d1 : d ≤ 3 := by omega
  clear ha hb hc hd
  rw [daysBeforeYear_eq e b1 c1 d1]
  by_cases hd : d < 3
  · rw [daysBeforeYear_eq (a := a) (b := b) (c := c) (d := d + 1) (by omega) b1 c1 (by omega)]
    rw [if_neg (by rw [isLeap_iff]; omega)]; omega
  · by_cases hc : c < 24
    · rw [daysBeforeYear_eq (a := a) (b := b) (c := c + 1) (d := 0) (by omega) b1 (by omega) (by omega)]
      rw [if_pos (by rw [isLeap_iff]; omega)]; omega
    · by_cases hb : b < 3
      · rw [daysBeforeYear_eq (a := a) (b := b + 1) (c := 0) (d := 0) (by omega) (by omega) (by omega) (by omega)]
        rw [if_neg (by rw [isLeap_iff]; omega)]; omega
      · rw [daysBeforeYear_eq (a := a + 1) (b := 0) (c := 0) (d := 0) (by omega) (by omega) (by omega) (by omega)]
        rw [if_pos (by rw [isLeap_iff]; omega)]; omega

/-- The ordinal of a date goes up by one with every day of the calendar. -/
theorem toOrdinal_nextDay {y m d y' m' d' : Nat} (h : NextDay (y, m, d) (y', m', d')) (hy : 1 ≤ y) :
    toOrdinal y' m' d' = toOrdinal y m d + 1 ∧ 1 ≤ y' := by
  cases h with
  | day hl h1 h2 => exact ⟨rfl, hy⟩
  | month hl hm =>
    obtain ⟨h1, h2, rfl⟩ := monthLength_iff.mp hl
    refine ⟨?_, hy⟩
    unfold toOrdinal daysBeforeMonth
    have : m = 1 ∨ m = 2 ∨ m = 3 ∨ m = 4 ∨ m = 5 ∨ m = 6 ∨ m = 7 ∨ m = 8 ∨ m = 9 ∨ m = 10 ∨ m = 11 := by omega
    rcases this with rfl | rfl | rfl | rfl | rfl | rfl | rfl | rfl | rfl | rfl | rfl <;>
      by_cases hl : isLeap y = true <;> simp [daysBeforeMonthTable, daysInMonth, hl] <;> omega
  | year =>
    refine ⟨?_, by omega⟩
    unfold toOrdinal daysBeforeMonth
    rw [daysBeforeYear_succ y hy]
    by_cases hl : isLeap y = true <;> simp [daysBeforeMonthTable, hl] <;> omega

theorem toOrdinal_daysAfter {k : Nat} {a b : Nat × Nat × Nat} (h : DaysAfter k a b) (hy : 1 ≤ a.1) :
    toOrdinal b.1 b.2.1 b.2.2 = toOrdinal a.1 a.2.1 a.2.2 + k ∧ 1 ≤ b.1 := by
  induction h with
  | zero => exact ⟨rfl, hy⟩
  | succ h1 h2 ih =>
    obtain ⟨e1, e2⟩ := ih hy
    obtain ⟨e3, e4⟩ := toOrdinal_nextDay h2 e2
    exact ⟨by rw [e3, e1]; omega, e4⟩

/-- The instant computed by the code for a valid date and time is its Unix time. -/
theorem timegm_eq {x : DateTime} {t : Int} (hx : x.Valid) (h : UnixTime x t) :
    timegm x.year x.month x.day x.hour x.minute x.second = t := by
  have he : toOrdinal 1970 1 1 = epochOrdinal := by decide
  unfold timegm
  rcases h with ⟨k, h, rfl⟩ | ⟨k, h, rfl⟩
  · obtain ⟨e, _⟩ := toOrdinal_daysAfter h (by decide)
    simp only at e
    rw [e, he]
    push_cast
    omega
  · obtain ⟨e, _⟩ := toOrdinal_daysAfter h hx.1
    simp only at e
    rw [he] at e
    rw [e]
    push_cast
    omega

theorem two_eq {n : Nat} (h : n < 100) : padStr 2 n = two n := by
  have : ∀ n, n < 100 → padStr 2 n = two n := by decide +kernel
  exact this n h

theorem four_eq {n : Nat} (h : n < 10000) : padStr 4 n = four n := by
  unfold padStr four
  by_cases h1 : n < 10
  · have : ∀ n, n < 10 → List.replicate (4 - (natStr n).length) '0' ++ natStr n = four n := by decide +kernel
    exact this n h1
  · by_cases h2 : n < 100
    · rw [natStr_eq n, if_neg h1, natStr_eq (n / 10), if_pos (by omega)]
      have e1 : n / 1000 = 0 := by omega
      have e2 : n / 100 % 10 = 0 := by omega
      have e3 : n / 10 % 10 = n / 10 := by omega
      rw [e1, e2, e3]
      rfl
    · by_cases h3 : n < 1000
      · rw [natStr_eq n, if_neg h1, natStr_eq (n / 10), if_neg (by omega), natStr_eq (n / 10 / 10), if_pos (by omega)]
        have e1 : n / 1000 = 0 := by omega
        have e2 : n / 100 % 10 = n / 10 / 10 := by omega
        rw [e1, e2]
        rfl
      · rw [natStr_eq n, if_neg h1, natStr_eq (n / 10), if_neg (by omega), natStr_eq (n / 10 / 10), if_neg (by omega),
          natStr_eq (n / 10 / 10 / 10), if_pos (by omega)]
        have e1 : n / 1000 = n / 10 / 10 / 10 := by omega
        have e2 : n / 100 % 10 = n / 10 / 10 % 10 := by omega
        rw [e1, e2]
        rfl

theorem takeDigits_two {n : Nat} (h : n < 100) (r : Str) : takeDigits 2 (two n ++ r) = some (n, r) := by
  rw [← two_eq h]; exact takeDigits_pad (by decide) (by omega) r

theorem takeDigits_four {n : Nat} (h : n < 10000) (r : Str) : takeDigits 4 (four n ++ r) = some (n, r) := by
  rw [← four_eq h]; exact takeDigits_pad (by decide) (by omega) r

theorem two_digit {n : Nat} (h : n < 100) {c : Char} (hc : c ∈ two n) : isDigit c = true := by
  rw [← two_eq h] at hc; exact isDigit_ascii (padStr_isDigit hc)

theorem four_digit {n : Nat} (h : n < 10000) {c : Char} (hc : c ∈ four n) : isDigit c = true := by
  rw [← four_eq h] at hc; exact isDigit_ascii (padStr_isDigit hc)

theorem DateTime.Valid.bounds {x : DateTime} (h : x.Valid) :
    x.year < 10000 ∧ x.month < 100 ∧ x.day < 100 ∧ x.hour < 100 ∧ x.minute < 100 ∧ x.second < 100 := by
  obtain ⟨h1, h2, h3, ⟨n, h4, h5⟩, h6, h7, h8⟩ := h
  obtain ⟨m1, m2, rfl⟩ := monthLength_iff.mp h4
  have : daysInMonth x.year x.month ≤ 31 := by unfold daysInMonth; split <;> (try split) <;> omega
  omega

theorem validFields_of {x : DateTime} (h : x.Valid) :
    validFields x.year x.month x.day x.hour x.minute x.second = true := by
  obtain ⟨h1, h2, h3, ⟨n, h4, h5⟩, h6, h7, h8⟩ := h
  obtain ⟨m1, m2, rfl⟩ := monthLength_iff.mp h4
  simp [validFields, h1, m1, m2, h3, h5, h6, h7, h8]

theorem atDollar_two (n : Nat) (a b : Str) : atDollar (two n ++ a ++ b) = false := rfl

theorem completeDate_clock {x : DateTime} (h : x.Valid) (r : Str) : completeDate (clock x ++ r) = clock x ++ r := by
  obtain ⟨b1, b2, b3, _⟩ := DateTime.Valid.bounds h
  unfold completeDate clock
  simp only [List.append_assoc]
  rw [takeDigits_four b1]
  simp only [List.cons_append, List.nil_append, takeChar_cons, Option.bind_some]
  rw [takeDigits_two b2]
  simp only [takeChar_cons, Option.bind_some]
  rw [takeDigits_two b3]
  simp [two, atDollar]

theorem matchZone_text {z : Zone} (hz : z.Valid) :
    matchZone z.text = some (match z with
      | .utc => (none, 0, 0)
      | .offset neg hh mm => (some (if neg then '-' else '+'), hh, mm)) := by
  cases z with
  | utc => exact (by decide : matchZone c!"Z" = some (none, 0, 0))
  | offset neg hh mm =>
    obtain ⟨h1, h2⟩ := hz
    have key : ∀ c : Char, c = '-' ∨ c = '+' → matchZone (c :: (two hh ++ ':' :: two mm)) = some (some c, hh, mm) := by
      intro c hc
      unfold matchZone
      rw [if_neg (by simp [two, atDollar])]
      have hz : c ≠ 'Z' := by rcases hc with rfl | rfl <;> decide
      simp only [hz, if_false]
      rw [if_pos hc.symm, takeDigits_two (by omega)]
      simp only [Option.bind_some, takeChar_cons, Option.map_some]
      have := takeDigits_two (n := mm) (by omega) []
      rw [List.append_nil] at this
      rw [this]
      simp [atDollar]
    cases neg
    · exact key '+' (Or.inr rfl)
    · exact key '-' (Or.inl rfl)

theorem text_not_dot {z : Zone} (hz : z.Valid) : '.' ∉ z.text ∧ '\n' ∉ z.text := by
  cases z with
  | utc => decide
  | offset neg hh mm =>
    obtain ⟨h1, h2⟩ := hz
    have key : ∀ c, isDigit c = false → c ≠ ':' → c ≠ '-' → c ≠ '+' → c ∉ (Zone.offset neg hh mm).text := by
      intro c k1 k2 k3 k4 hm
      unfold Zone.text at hm
      simp only [List.mem_append, List.mem_singleton] at hm
      rcases hm with ((hm | hm) | hm) | hm
      · cases neg <;> simp at hm <;> contradiction
      · rw [two_digit (by omega) hm] at k1; cases k1
      · exact k2 hm
      · rw [two_digit (by omega) hm] at k1; cases k1
    exact ⟨key _ (by decide) (by decide) (by decide) (by decide), key _ (by decide) (by decide) (by decide) (by decide)⟩

theorem matchDateTime_clock {x : DateTime} (h : x.Valid) {z : Zone} (hz : z.Valid) :
    matchDateTime (clock x ++ z.text) = some ((x.year, x.month, x.day, x.hour, x.minute, x.second),
      match z with
      | .utc => (none, 0, 0)
      | .offset neg hh mm => (some (if neg then '-' else '+'), hh, mm)) := by
  obtain ⟨b1, b2, b3, b4, b5, b6⟩ := DateTime.Valid.bounds h
  unfold matchDateTime clock
  simp only [List.append_assoc]
  rw [takeDigits_four b1]
  simp only [List.cons_append, List.nil_append, takeChar_cons, Option.bind_some, takeDigits_two b2, takeDigits_two b3,
    takeDigits_two b4, takeDigits_two b5, takeSeconds, takeDigits_two b6, matchZone_text hz]

/-- What the code does with a clock reading, a fraction and a zone. -/
def codeCorrection : Zone → Int
  | .utc => 0
  | .offset neg hh mm => if neg then -(hh * 3600 + mm * 60 : Int) else hh * 3600 + mm * 60

theorem fracHere_clock {h mi s : Nat} (b4 : h < 100) (b5 : mi < 100) (b6 : s < 100) {ds : Str} (hne : ds ≠ [])
    (hd : ∀ c ∈ ds, isDigit c = true) {z : Zone} (hz : z.Valid) :
    fracHere (two h ++ ':' :: (two mi ++ ':' :: (two s ++ '.' :: (ds ++ z.text)))) =
      some (two h ++ ':' :: (two mi ++ ':' :: two s), ds, z.text) := by
  have hzt : ∃ c t, z.text = c :: t ∧ isDigit c = false ∧ '\n' ∉ t := by
    have hn := (text_not_dot hz).2
    cases z with
    | utc => exact ⟨'Z', [], rfl, by decide, by simp⟩
    | offset neg hh mm =>
      cases neg
      · refine ⟨'+', _, rfl, by decide, ?_⟩
        intro hm; exact hn (List.mem_cons_of_mem _ hm)
      · refine ⟨'-', _, rfl, by decide, ?_⟩
        intro hm; exact hn (List.mem_cons_of_mem _ hm)
  obtain ⟨c, t, hzt, hc, ht⟩ := hzt
  have htw : ∀ (ds : Str), (∀ c ∈ ds, isDigit c = true) →
      (ds ++ c :: t).takeWhile isDigit = ds ∧ (ds ++ c :: t).dropWhile isDigit = c :: t := by
    intro ds hd
    induction ds with
    | nil => simp [List.takeWhile, List.dropWhile, hc]
    | cons a ds ih =>
      have ha := hd a (by simp)
      obtain ⟨i1, i2⟩ := ih (fun c hc => hd c (by simp [hc]))
      simp [List.takeWhile, List.dropWhile, ha, i1, i2]
  obtain ⟨t1, t2⟩ := htw ds hd
  have htn : t.dropWhile (· ≠ '\n') = [] ∧ t.takeWhile (· ≠ '\n') = t := by
    constructor
    · rw [List.dropWhile_eq_nil_iff]; intro a ha; simp; rintro rfl; exact ht ha
    · rw [List.takeWhile_eq_self_iff]; intro a ha; simp; rintro rfl; exact ht ha
  unfold fracHere
  rw [takeDigits_two b4]
  simp only [Option.bind_some, takeChar_cons, takeDigits_two b5, takeDigits_two b6]
  rw [hzt, t1, t2, if_neg hne]
  simp only [fracHere.matchAny', htn.1, htn.2, atDollar, if_true]
  simp [two]

theorem strToDatetime_exact {x : DateTime} (hx : x.Valid) (ds : Str) (hd : ∀ c ∈ ds, isDigit c = true) {z : Zone}
    (hz : z.Valid) : strToDatetime (clock x ++ fraction ds ++ z.text) =
      .ok (timegm x.year x.month x.day x.hour x.minute x.second + codeCorrection z, ds) := by
  obtain ⟨b1, b2, b3, b4, b5, b6⟩ := DateTime.Valid.bounds hx
  have hfr : splitFraction (clock x ++ fraction ds ++ z.text) = (clock x ++ z.text, ds) := by
    unfold splitFraction
    by_cases hne : ds = []
    · subst hne
      simp only [fraction, if_true, List.append_nil]
      rw [fracSearch_none]
      intro hm
      have hm := List.mem_of_mem_drop hm
      have key : ∀ c : Char, isDigit c = false → c ≠ '-' → c ≠ 'T' → c ≠ ':' → c ∉ clock x := by
        intro c k1 k2 k3 k4 hm
        unfold clock at hm
        simp only [List.mem_append, List.mem_singleton] at hm
        rcases hm with ((((((((((hm | hm) | hm) | hm) | hm) | hm) | hm) | hm) | hm) | hm) | hm)
        · rw [four_digit b1 hm] at k1; cases k1
        · exact k2 hm
        · rw [two_digit b2 hm] at k1; cases k1
        · exact k2 hm
        · rw [two_digit b3 hm] at k1; cases k1
        · exact k3 hm
        · rw [two_digit b4 hm] at k1; cases k1
        · exact k4 hm
        · rw [two_digit b5 hm] at k1; cases k1
        · exact k4 hm
        · rw [two_digit b6 hm] at k1; cases k1
      rcases List.mem_append.mp hm with hm | hm
      · exact key '.' (by decide) (by decide) (by decide) (by decide) hm
      · exact (text_not_dot hz).1 hm
    · have hq : fracSearch (two x.hour ++ ':' :: (two x.minute ++ ':' :: (two x.second ++ '.' :: (ds ++ z.text)))) =
          some (two x.hour ++ ':' :: (two x.minute ++ ':' :: two x.second), ds, z.text) := by
        rw [← fracHere_clock b4 b5 b6 hne hd hz]
        generalize hrest : two x.minute ++ ':' :: (two x.second ++ '.' :: (ds ++ z.text)) = rest
        have hno : fracSearch ([(x.hour % 10).digitChar] ++ ':' :: rest) = none := by
          apply fracSearch_none
          subst hrest
          simp only [two, List.cons_append, List.nil_append, List.drop_succ_cons, List.drop_zero]
          intro hm
          rcases List.mem_append.mp hm with hm | hm
          · have := hd _ hm; revert this; decide
          · exact (text_not_dot hz).1 hm
        unfold two
        simp only [List.cons_append, List.nil_append] at hno ⊢
        conv_lhs => unfold fracSearch
        rw [hno]
        simp
      have hp : '\n' ∉ four x.year ++ c!"-" ++ two x.month ++ c!"-" ++ two x.day ++ c!"T" := by
        intro hm
        simp only [List.mem_append, List.mem_singleton] at hm
        rcases hm with ((((hm | hm) | hm) | hm) | hm) | hm
        · have := four_digit b1 hm; revert this; decide
        · revert hm; decide
        · have := two_digit b2 hm; revert this; decide
        · revert hm; decide
        · have := two_digit b3 hm; revert this; decide
        · revert hm; decide
      have heq : clock x ++ fraction ds ++ z.text = (four x.year ++ c!"-" ++ two x.month ++ c!"-" ++ two x.day ++ c!"T") ++
          (two x.hour ++ ':' :: (two x.minute ++ ':' :: (two x.second ++ '.' :: (ds ++ z.text)))) := by
        simp [clock, fraction, hne]
      rw [heq, fracSearch_append _ hp hq]
      simp [clock]
  have hs : clock x ++ fraction ds ++ z.text ≠ [] := by simp [clock, four]
  unfold strToDatetime
  rw [if_neg hs]
  simp only
  have hc : completeDate (clock x ++ fraction ds ++ z.text) = clock x ++ fraction ds ++ z.text := by
    rw [List.append_assoc]; exact completeDate_clock hx _
  rw [hc, hfr]
  simp only
  rw [matchDateTime_clock hx hz]
  simp only [validFields_of hx]
  cases z with
  | utc => simp [codeCorrection]
  | offset neg hh mm =>
    obtain ⟨h1, h2⟩ := hz
    simp only [Bool.not_true, Bool.false_eq_true, if_false, codeCorrection]
    rw [if_neg (by omega)]
    cases neg <;> simp

/-- **C61.** For every whole-second time between the beginning of year 1 and the end of year 9999,
parsing the string that is made for it gives back that time. The string is a UTC clock reading. -/
theorem C61_round_trip (t : Int) (h1 : -62135596800 ≤ t) (h2 : t ≤ 253402300799) :
    ∃ x : DateTime, x.Valid ∧ datetimeToStr t = .ok (clock x ++ c!"Z") ∧ strToDatetime (clock x ++ c!"Z") = .ok (t, []) := by
  have hdays : 1 ≤ t / 86400 + (epochOrdinal : Int) ∧ t / 86400 + (epochOrdinal : Int) ≤ 3652059 := by
    simp only [epochOrdinal]; omega
  obtain ⟨y, mo, d, ho⟩ : ∃ y mo d, ord2ymd (t / 86400 + (epochOrdinal : Int)).toNat = (y, mo, d) := ⟨_, _, _, rfl⟩
  obtain ⟨s1, s2, s3, s4, s5, s6⟩ := ord2ymd_spec (by omega) ho
  have hy : y ≤ 9999 := by
    by_contra hy
    have hmono : ∀ k, 3652059 ≤ daysBeforeYear (10000 + k) := by
      intro k
      induction k with
      | zero => decide
      | succ k ih => rw [← Nat.add_assoc, daysBeforeYear_succ _ (by omega)]; omega
    have := hmono (y - 10000)
    rw [show 10000 + (y - 10000) = y by omega] at this
    unfold toOrdinal at s6
    omega
  let x : DateTime := ⟨y, mo, d, (t % 86400).toNat / 3600, (t % 86400).toNat / 60 % 60, (t % 86400).toNat % 60⟩
  have hx : x.Valid := by
    refine ⟨s1, hy, s4, ⟨_, monthLength_iff.mpr ⟨s2, s3, rfl⟩, s5⟩, ?_, ?_, ?_⟩
    · show (t % 86400).toNat / 3600 ≤ 23; omega
    · show (t % 86400).toNat / 60 % 60 ≤ 59; omega
    · show (t % 86400).toNat % 60 ≤ 59; omega
  obtain ⟨b1, b2, b3, b4, b5, b6⟩ := DateTime.Valid.bounds hx
  refine ⟨x, hx, ?_, ?_⟩
  · unfold datetimeToStr
    simp only
    rw [if_neg (by omega), ho]
    simp only
    rw [four_eq b1, two_eq b2, two_eq b3, two_eq b4, two_eq b5, two_eq b6]
    rfl
  · have := strToDatetime_exact hx [] (by simp) (z := .utc) trivial
    simp only [fraction, if_true, List.append_nil, Zone.text, codeCorrection] at this
    rw [this]
    have : timegm x.year x.month x.day x.hour x.minute x.second = t := by
      unfold timegm
      rw [s6]
      show _ + (((t % 86400).toNat / 3600 : Nat) : Int) * 3600 + (((t % 86400).toNat / 60 % 60 : Nat) : Int) * 60 +
        (((t % 86400).toNat % 60 : Nat) : Int) = t
      omega
    rw [this]
    simp

/-- Outside of that range there is no string. -/
theorem C61_range (t : Int) : (∃ s, datetimeToStr t = .ok s) ↔ -62135596800 ≤ t ∧ t ≤ 253402300799 := by
  constructor
  · rintro ⟨s, h⟩
    unfold datetimeToStr at h
    simp only at h
    split at h
    · cases h
    · rename_i hc
      simp only [epochOrdinal] at hc
      omega
  · rintro ⟨h1, h2⟩
    obtain ⟨x, _, h, _⟩ := C61_round_trip t h1 h2
    exact ⟨_, h⟩

example : datetimeToStr 951827696 = .ok c!"2000-02-29T12:34:56Z" ∧
    strToDatetime c!"2000-02-29T12:34:56Z" = .ok (951827696, []) := by decide +kernel

/-- **C62, the part that holds.** A clock reading with `Z` (or a zero offset) denotes its Unix time,
with the given fraction. Missing: all other offsets, see `C62_violated`. -/
theorem C62_utc_partial (x : DateTime) (hx : x.Valid) (t : Int) (ht : UnixTime x t) (ds : Str)
    (hd : ∀ c ∈ ds, isDigit c = true) (z : Zone) (hz : z.Valid) (h0 : z.correction = 0) :
    strToDatetime (clock x ++ fraction ds ++ z.text) = .ok (t + z.correction, ds) := by
  rw [strToDatetime_exact hx ds hd hz, timegm_eq hx ht]
  have : codeCorrection z = - z.correction := by
    cases z with
    | utc => rfl
    | offset neg hh mm => cases neg <;> simp [codeCorrection, Zone.correction]
  rw [this, h0]
  rfl

/-- **C62 is violated** for every clock reading and every offset other than zero: the code applies
the offset with the wrong sign. -/
theorem C62_violated (x : DateTime) (hx : x.Valid) (t : Int) (ht : UnixTime x t) (ds : Str)
    (hd : ∀ c ∈ ds, isDigit c = true) (z : Zone) (hz : z.Valid) (h0 : z.correction ≠ 0) :
    strToDatetime (clock x ++ fraction ds ++ z.text) = .ok (t - z.correction, ds) ∧
    strToDatetime (clock x ++ fraction ds ++ z.text) ≠ .ok (t + z.correction, ds) := by
  have hc : codeCorrection z = - z.correction := by
    cases z with
    | utc => rfl
    | offset neg hh mm => cases neg <;> simp [codeCorrection, Zone.correction]
  rw [strToDatetime_exact hx ds hd hz, timegm_eq hx ht, hc]
  refine ⟨rfl, ?_⟩
  intro h
  simp only [Except.ok.injEq, Prod.mk.injEq, and_true] at h
  omega

/-- Non-vacuity: 1970-01-03T12:00:00 has a Unix time; `+01:00` is a valid offset. -/
example : UnixTime ⟨1970, 1, 3, 12, 0, 0⟩ 216000 ∧ (⟨1970, 1, 3, 12, 0, 0⟩ : DateTime).Valid ∧
    (Zone.offset false 1 0).Valid ∧ (Zone.offset false 1 0).correction ≠ 0 ∧
    clock ⟨1970, 1, 3, 12, 0, 0⟩ ++ fraction c!"25" ++ (Zone.offset false 1 0).text = c!"1970-01-03T12:00:00.25+01:00" ∧
    strToDatetime c!"1970-01-03T12:00:00.25+01:00" = .ok (216000 + 3600, c!"25") := by
  have hm : MonthLength 1970 1 31 := by simp [MonthLength]
  refine ⟨Or.inl ⟨2, ?_, by decide⟩, ?_, by simp [Zone.Valid], by decide, by decide, by decide +kernel⟩
  · exact .succ (.succ .zero (.day hm (by decide) (by decide))) (.day hm (by decide) (by decide))
  · exact ⟨by decide, by decide, by decide, ⟨31, hm, by decide⟩, by decide, by decide, by decide⟩

end Ocfl
