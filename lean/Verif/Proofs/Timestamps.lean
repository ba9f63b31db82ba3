import Verif.Proofs.InventoryText
import Verif.Props.W3CDatetime

/-!
# The time stamps that the inventory validator accepts
-/

namespace Ocfl
open IV V Spec

theorem takeDigits_two_iff {s r : Str} {v : Nat} :
    takeDigits 2 s = some (v, r) ↔ ∃ a b, s = a :: b :: r ∧ isDigit a = true ∧ isDigit b = true ∧ v = intOf [a, b] := by
  unfold takeDigits
  match s with
  | [] => simp
  | [a] => simp
  | a :: b :: t =>
    simp only [List.take_succ_cons, List.take_zero, List.length_cons, List.length_nil, Nat.zero_add, List.all_cons, List.all_nil,
      Bool.and_true, true_and, List.drop_succ_cons, List.drop_zero, Bool.and_eq_true]
    constructor
    · intro h
      split at h
      · rename_i hc
        simp at h
        exact ⟨a, b, by rw [h.2], hc.1, hc.2, h.1.symm⟩
      · cases h
    · rintro ⟨a', b', h, h1, h2, rfl⟩
      simp only [List.cons.injEq] at h
      obtain ⟨rfl, rfl, rfl⟩ := h
      rw [if_pos ⟨h1, h2⟩]

theorem takeDigits_four_iff {s r : Str} {v : Nat} :
    takeDigits 4 s = some (v, r) ↔ ∃ a b c d, s = a :: b :: c :: d :: r ∧
      (isDigit a = true ∧ isDigit b = true ∧ isDigit c = true ∧ isDigit d = true) ∧ v = intOf [a, b, c, d] := by
  unfold takeDigits
  match s with
  | [] => simp
  | [a] => simp
  | [a, b] => simp
  | [a, b, c] => simp
  | a :: b :: c :: d :: t =>
    simp only [List.take_succ_cons, List.take_zero, List.length_cons, List.length_nil, Nat.zero_add, List.all_cons, List.all_nil,
      Bool.and_true, true_and, List.drop_succ_cons, List.drop_zero, Bool.and_eq_true]
    constructor
    · intro h
      split at h
      · rename_i hc
        simp at h
        exact ⟨a, b, c, d, by rw [h.2], hc, h.1.symm⟩
      · cases h
    · rintro ⟨a', b', c', d', h, h1, rfl⟩
      simp only [List.cons.injEq] at h
      obtain ⟨rfl, rfl, rfl, rfl, rfl⟩ := h
      rw [if_pos h1]

theorem takeChar_iff {c : Char} {s r : Str} : takeChar c s = some r ↔ s = c :: r :=
  ⟨takeChar_some, by rintro rfl; exact takeChar_cons c r⟩

/-- A character and two digits. -/
theorem char_two_iff {c : Char} {s r : Str} {v : Nat} :
    (takeChar c s).bind (takeDigits 2) = some (v, r) ↔
      ∃ a b, s = c :: a :: b :: r ∧ isDigit a = true ∧ isDigit b = true ∧ v = intOf [a, b] := by
  rw [Option.bind_eq_some_iff]
  constructor
  · rintro ⟨q, h1, h2⟩
    rw [takeChar_iff] at h1
    obtain ⟨a, b, rfl, h⟩ := takeDigits_two_iff.mp h2
    exact ⟨a, b, h1, h⟩
  · rintro ⟨a, b, rfl, h⟩
    exact ⟨_, takeChar_cons _ _, takeDigits_two_iff.mpr ⟨a, b, rfl, h⟩⟩

theorem twoDigits_iff {s r : Str} : twoDigits s = some r ↔ ∃ a b, s = a :: b :: r ∧ isDigit a = true ∧ isDigit b = true := by
  unfold twoDigits
  rw [Option.map_eq_some_iff]
  constructor
  · rintro ⟨⟨v, q⟩, h1, rfl⟩
    obtain ⟨a, b, h, ha, hb, _⟩ := takeDigits_two_iff.mp h1
    exact ⟨a, b, h, ha, hb⟩
  · rintro ⟨a, b, h, ha, hb⟩
    exact ⟨(_, r), takeDigits_two_iff.mpr ⟨a, b, h, ha, hb, rfl⟩, rfl⟩

theorem digit_ne {c : Char} (h : isDigit c = true) {d : Char} (hd : isDigit d = false) : c ≠ d := by
  rintro rfl; rw [h] at hd; cases hd

/-! ## The pieces of a date and time -/

/-- `YYYY-MM-DDThh:mm`, with any decimal digits. -/
structure Minutes where
  (y1 y2 y3 y4 m1 m2 d1 d2 h1 h2 i1 i2 : Char)

/-- All fields are digits. -/
def Minutes.Digits (x : Minutes) : Prop :=
  ((isDigit x.y1 = true ∧ isDigit x.y2 = true ∧ isDigit x.y3 = true ∧ isDigit x.y4 = true) ∧
    isDigit x.m1 = true ∧ isDigit x.m2 = true ∧ isDigit x.d1 = true ∧ isDigit x.d2 = true) ∧
  isDigit x.h1 = true ∧ isDigit x.h2 = true ∧ isDigit x.i1 = true ∧ isDigit x.i2 = true

/-- The text before the seconds. -/
def Minutes.text (x : Minutes) (r : Str) : Str :=
  x.y1 :: x.y2 :: x.y3 :: x.y4 :: '-' :: x.m1 :: x.m2 :: '-' :: x.d1 :: x.d2 :: 'T' :: x.h1 :: x.h2 :: ':' :: x.i1 :: x.i2 :: r

/-- Seconds: absent, or with digits. -/
def SecText (sec : Nat) (q : Str) : Prop :=
  (q = [] ∧ sec = 0) ∨ ∃ a b, q = [':', a, b] ∧ isDigit a = true ∧ isDigit b = true ∧ sec = intOf [a, b]

/-- The zone and what the code reads from it. -/
def ZoneIs (z : Option Char × Nat × Nat) (q : Str) : Prop :=
  (q = [] ∧ z = (none, 0, 0)) ∨ (q = ['Z'] ∧ z = (none, 0, 0)) ∨
  ∃ c a b e f, (c = '+' ∨ c = '-') ∧ q = [c, a, b, ':', e, f] ∧
    (isDigit a = true ∧ isDigit b = true ∧ isDigit e = true ∧ isDigit f = true) ∧ z = (some c, intOf [a, b], intOf [e, f])

theorem takeSeconds_spec {r r' : Str} {sec : Nat} (h : takeSeconds r = (sec, r')) :
    ∃ q, r = q ++ r' ∧ SecText sec q := by
  unfold takeSeconds at h
  split at h
  · rename_i p hp
    rw [h] at hp
    obtain ⟨a, b, rfl, ha, hb, hv⟩ := char_two_iff.mp hp
    exact ⟨[':', a, b], rfl, Or.inr ⟨a, b, rfl, ha, hb, hv⟩⟩
  · simp at h
    exact ⟨[], by simp [h.2], Or.inl ⟨rfl, h.1.symm⟩⟩

theorem matchZone_spec {r : Str} {z : Option Char × Nat × Nat} (h : matchZone r = some z) :
    ∃ q nl, r = q ++ nl ∧ ZoneIs z q ∧ (nl = [] ∨ nl = ['\n']) := by
  unfold matchZone at h
  split at h
  · rename_i hd
    rw [atDollar_iff] at hd
    cases h
    exact ⟨[], r, rfl, Or.inl ⟨rfl, rfl⟩, hd⟩
  · split at h
    · cases h
    · rename_i c r' _
      split at h
      · rename_i hc
        subst hc
        split at h
        · rename_i hd
          rw [atDollar_iff] at hd
          cases h
          exact ⟨['Z'], r', rfl, Or.inr (Or.inl ⟨rfl, rfl⟩), hd⟩
        · cases h
      · split at h
        · rename_i hc
          split at h
          · cases h
          · rename_i hh mm rest hm
            split at h
            · rename_i hd
              rw [atDollar_iff] at hd
              cases h
              rw [Option.bind_eq_some_iff] at hm
              obtain ⟨⟨v1, q1⟩, h1, h2⟩ := hm
              rw [Option.bind_eq_some_iff] at h1
              obtain ⟨⟨v2, q2⟩, h3, h4⟩ := h1
              obtain ⟨a, b, rfl, ha, hb, hv⟩ := takeDigits_two_iff.mp h3
              rw [Option.map_eq_some_iff] at h4
              obtain ⟨q3, h5, h6⟩ := h4
              rw [takeChar_iff] at h5
              simp only at h5
              rw [h5]
              simp only [Prod.mk.injEq] at h6
              rw [Option.map_eq_some_iff] at h2
              obtain ⟨⟨v4, q4⟩, h7, h8⟩ := h2
              simp only [Prod.mk.injEq] at h8
              obtain ⟨e, f, h9, he, hf, hv2⟩ := takeDigits_two_iff.mp h7
              obtain ⟨rfl, rfl⟩ := h6
              obtain ⟨rfl, rfl, rfl⟩ := h8
              simp only at h9
              rw [h9]
              refine ⟨[c, a, b, ':', e, f], q4, rfl, Or.inr (Or.inr ⟨c, a, b, e, f, hc, rfl, ⟨ha, hb, he, hf⟩, ?_⟩), hd⟩
              rw [hv, hv2]
            · cases h
        · cases h

theorem matchDateTime_spec {s : Str} {y mo d h mi sec : Nat} {z : Option Char × Nat × Nat}
    (hm : matchDateTime s = some ((y, mo, d, h, mi, sec), z)) :
    ∃ (x : Minutes) (q zt nl : Str), x.Digits ∧ s = x.text (q ++ (zt ++ nl)) ∧ SecText sec q ∧ ZoneIs z zt ∧
      (nl = [] ∨ nl = ['\n']) ∧
      y = intOf [x.y1, x.y2, x.y3, x.y4] ∧ mo = intOf [x.m1, x.m2] ∧ d = intOf [x.d1, x.d2] ∧
      h = intOf [x.h1, x.h2] ∧ mi = intOf [x.i1, x.i2] := by
  unfold matchDateTime at hm
  split at hm
  · cases hm
  rename_i y' r1 e1
  split at hm
  · cases hm
  rename_i mo' r2 e2
  split at hm
  · cases hm
  rename_i d' r3 e3
  split at hm
  · cases hm
  rename_i h' r4 e4
  split at hm
  · cases hm
  rename_i mi' r5 e5
  cases hts : takeSeconds r5 with
  | mk sec' r6 =>
  rw [hts] at hm
  simp only at hm
  split at hm
  · cases hm
  rename_i z' ez
  simp only [Option.some.injEq, Prod.mk.injEq] at hm
  obtain ⟨⟨rfl, rfl, rfl, rfl, rfl, rfl⟩, rfl⟩ := hm
  obtain ⟨y1, y2, y3, y4, rfl, hy, rfl⟩ := takeDigits_four_iff.mp e1
  obtain ⟨m1, m2, rfl, hm1, hm2, rfl⟩ := char_two_iff.mp e2
  obtain ⟨d1, d2, rfl, hd1, hd2, rfl⟩ := char_two_iff.mp e3
  obtain ⟨h1, h2, rfl, hh1, hh2, rfl⟩ := char_two_iff.mp e4
  obtain ⟨i1, i2, rfl, hi1, hi2, rfl⟩ := char_two_iff.mp e5
  obtain ⟨q, rfl, hq⟩ := takeSeconds_spec hts
  obtain ⟨zt, nl, rfl, hz, hnl⟩ := matchZone_spec ez
  exact ⟨⟨y1, y2, y3, y4, m1, m2, d1, d2, h1, h2, i1, i2⟩, q, zt, nl, ⟨⟨hy, hm1, hm2, hd1, hd2⟩, hh1, hh2, hi1, hi2⟩, rfl,
    hq, hz, hnl, rfl, rfl, rfl, rfl, rfl⟩

theorem matchDateTime_text (x : Minutes) (hx : x.Digits) {a b : Char} (ha : isDigit a = true) (hb : isDigit b = true)
    {zt nl : Str} {z : Option Char × Nat × Nat} (hz : ZoneIs z zt) (hne : zt ≠ []) (hnl : nl = [] ∨ nl = ['\n']) :
    matchDateTime (x.text (':' :: a :: b :: (zt ++ nl))) =
      some ((intOf [x.y1, x.y2, x.y3, x.y4], intOf [x.m1, x.m2], intOf [x.d1, x.d2], intOf [x.h1, x.h2], intOf [x.i1, x.i2],
        intOf [a, b]), z) := by
  obtain ⟨⟨hy, hm1, hm2, hd1, hd2⟩, hh1, hh2, hi1, hi2⟩ := hx
  have hzone : matchZone (zt ++ nl) = some z := by
    rcases hz with ⟨rfl, rfl⟩ | ⟨rfl, rfl⟩ | ⟨c, a, b, e, f, hc, rfl, ⟨ha, hb, he, hf⟩, rfl⟩
    · exact absurd rfl hne
    · rcases hnl with rfl | rfl <;> decide
    · unfold matchZone
      rw [if_neg (by simp [atDollar])]
      have hz : c ≠ 'Z' := by rcases hc with rfl | rfl <;> decide
      simp only [List.cons_append, List.nil_append, hz, if_false]
      rw [if_pos hc, takeDigits_two_iff.mpr ⟨a, b, rfl, ha, hb, rfl⟩]
      simp only [Option.bind_some, takeChar_cons, Option.map_some]
      rw [takeDigits_two_iff.mpr ⟨e, f, rfl, he, hf, rfl⟩]
      simp only [Option.map_some]
      rw [if_pos (atDollar_iff.mpr hnl)]
  unfold matchDateTime Minutes.text
  rw [takeDigits_four_iff.mpr ⟨_, _, _, _, rfl, hy, rfl⟩]
  simp only
  rw [char_two_iff.mpr ⟨_, _, rfl, hm1, hm2, rfl⟩]
  simp only
  rw [char_two_iff.mpr ⟨_, _, rfl, hd1, hd2, rfl⟩]
  simp only
  rw [char_two_iff.mpr ⟨_, _, rfl, hh1, hh2, rfl⟩]
  simp only
  rw [char_two_iff.mpr ⟨_, _, rfl, hi1, hi2, rfl⟩]
  simp only [takeSeconds]
  rw [char_two_iff.mpr ⟨_, _, rfl, ha, hb, rfl⟩]
  simp only [hzone]

/-! ## The completion of dates -/

theorem completeDate_of_T {s : Str} (h : 'T' ∈ s) : completeDate s = s := by
  have dT : isDigit 'T' = false := by decide
  have nl : ∀ {r : Str}, atDollar r = true → 'T' ∉ r := by
    intro r hr
    rcases atDollar_iff.mp hr with rfl | rfl <;> simp
  unfold completeDate
  split
  · rfl
  rename_i v r e1
  obtain ⟨a, b, c, d, rfl, ⟨ha, hb, hc, hd⟩, _⟩ := takeDigits_four_iff.mp e1
  have h1 : 'T' ∈ r := by
    simp only [List.mem_cons] at h
    rcases h with h | h | h | h | h
    · exact absurd h.symm (digit_ne ha dT)
    · exact absurd h.symm (digit_ne hb dT)
    · exact absurd h.symm (digit_ne hc dT)
    · exact absurd h.symm (digit_ne hd dT)
    · exact h
  split
  · rw [if_neg (fun hd => nl hd h1)]
  rename_i v r2 e2
  obtain ⟨a, b, rfl, ha, hb, _⟩ := char_two_iff.mp e2
  have h2 : 'T' ∈ r2 := by
    simp only [List.mem_cons] at h1
    rcases h1 with h | h | h | h
    · cases h
    · exact absurd h.symm (digit_ne ha dT)
    · exact absurd h.symm (digit_ne hb dT)
    · exact h
  split
  · rw [if_neg (fun hd => nl hd h2)]
  rename_i v r3 e3
  obtain ⟨a, b, rfl, ha, hb, _⟩ := char_two_iff.mp e3
  have h3 : 'T' ∈ r3 := by
    simp only [List.mem_cons] at h2
    rcases h2 with h | h | h | h
    · cases h
    · exact absurd h.symm (digit_ne ha dT)
    · exact absurd h.symm (digit_ne hb dT)
    · exact h
  rw [if_neg (fun hd => nl hd h3)]

theorem timeHere_iff {s : Str} :
    timeHere s = true ↔ ∃ a b c d e f r, s = 'T' :: a :: b :: ':' :: c :: d :: ':' :: e :: f :: r ∧
      isDigit a = true ∧ isDigit b = true ∧ isDigit c = true ∧ isDigit d = true ∧ isDigit e = true ∧ isDigit f = true := by
  unfold timeHere
  rw [Option.isSome_iff_exists]
  constructor
  · rintro ⟨r, h⟩
    simp only [Option.bind_eq_some_iff] at h
    obtain ⟨r5, ⟨r4, ⟨r3, ⟨r2, ⟨r1, h1, h2⟩, h3⟩, h4⟩, h5⟩, h6⟩ := h
    rw [takeChar_iff] at h1 h3 h5
    rw [twoDigits_iff] at h2 h4 h6
    subst h1
    obtain ⟨a, b, rfl, ha, hb⟩ := h2
    subst h3
    obtain ⟨c, d, rfl, hc, hd⟩ := h4
    subst h5
    obtain ⟨e, f, rfl, he, hf⟩ := h6
    exact ⟨a, b, c, d, e, f, r, rfl, ha, hb, hc, hd, he, hf⟩
  · rintro ⟨a, b, c, d, e, f, r, rfl, ha, hb, hc, hd, he, hf⟩
    refine ⟨r, ?_⟩
    rw [takeChar_cons, Option.bind_some, twoDigits_iff.mpr ⟨a, b, rfl, ha, hb⟩, Option.bind_some, takeChar_cons,
      Option.bind_some, twoDigits_iff.mpr ⟨c, d, rfl, hc, hd⟩, Option.bind_some, takeChar_cons, Option.bind_some,
      twoDigits_iff.mpr ⟨e, f, rfl, he, hf⟩]

theorem searchTime_T {s : Str} (h : searchTime s = true) : 'T' ∈ s := by
  induction s with
  | nil => cases h
  | cons c t ih =>
    rw [searchTime, Bool.or_eq_true] at h
    rcases h with h | h
    · obtain ⟨a, b, c, d, e, f, r, h, _⟩ := timeHere_iff.mp h
      rw [h]; simp
    · exact List.mem_cons_of_mem _ (ih h)

theorem searchTime_skip {c : Char} {t : Str} (h : c ≠ 'T') : searchTime (c :: t) = searchTime t := by
  rw [searchTime]
  have : timeHere (c :: t) = false := by
    rw [Bool.eq_false_iff, ne_eq, timeHere_iff]
    rintro ⟨_, _, _, _, _, _, _, h', _⟩
    simp at h'
    exact h h'.1
  rw [this, Bool.false_or]

theorem searchTime_no_T {s : Str} (h : 'T' ∉ s) : searchTime s = false := by
  rw [Bool.eq_false_iff]
  exact fun h' => h (searchTime_T h')

theorem zoneHere_iff {s : Str} :
    zoneHere s = true ↔ ∃ nl, (nl = [] ∨ nl = ['\n']) ∧ (s = 'Z' :: nl ∨
      ∃ c a b e f, (c = '+' ∨ c = '-') ∧ s = c :: a :: b :: ':' :: e :: f :: nl ∧
        (isDigit a = true ∧ isDigit b = true ∧ isDigit e = true ∧ isDigit f = true)) := by
  unfold zoneHere
  cases s with
  | nil => simp
  | cons c t =>
    simp only [Bool.or_eq_true, Bool.and_eq_true, decide_eq_true_eq]
    constructor
    · rintro (⟨rfl, h⟩ | ⟨hc, h⟩)
      · exact ⟨t, atDollar_iff.mp h, Or.inl rfl⟩
      · split at h
        · cases h
        · rename_i r hr
          simp only [Option.bind_eq_some_iff] at hr
          obtain ⟨r2, ⟨r1, h1, h2⟩, h3⟩ := hr
          rw [takeChar_iff] at h2
          rw [twoDigits_iff] at h1 h3
          obtain ⟨a, b, rfl, ha, hb⟩ := h1
          subst h2
          obtain ⟨e, f, rfl, he, hf⟩ := h3
          exact ⟨r, atDollar_iff.mp h, Or.inr ⟨c, a, b, e, f, hc, rfl, ha, hb, he, hf⟩⟩
    · rintro ⟨nl, hnl, h | ⟨c', a, b, e, f, hc, h, ha, hb, he, hf⟩⟩
      · simp only [List.cons.injEq] at h
        rw [h.1, h.2]
        exact Or.inl ⟨rfl, atDollar_iff.mpr hnl⟩
      · simp only [List.cons.injEq] at h
        obtain ⟨rfl, rfl⟩ := h
        refine Or.inr ⟨hc, ?_⟩
        rw [twoDigits_iff.mpr ⟨a, b, rfl, ha, hb⟩, Option.bind_some, takeChar_cons, Option.bind_some,
          twoDigits_iff.mpr ⟨e, f, rfl, he, hf⟩]
        exact atDollar_iff.mpr hnl

theorem searchZone_skip {c : Char} {t : Str} (h : zoneHere (c :: t) = false) : searchZone (c :: t) = searchZone t := by
  rw [searchZone, h, Bool.false_or]

theorem zoneHere_other {c : Char} {t : Str} (h1 : c ≠ 'Z') (h2 : c ≠ '+') (h3 : c ≠ '-') : zoneHere (c :: t) = false := by
  simp [zoneHere, h1, h2, h3]

/-- A minus sign that is not followed by `dd:`. -/
theorem zoneHere_minus {a b c : Char} {t : Str} (h : c ≠ ':') : zoneHere ('-' :: a :: b :: c :: t) = false := by
  rw [Bool.eq_false_iff, ne_eq, zoneHere_iff]
  rintro ⟨nl, hnl, h' | ⟨c', a', b', e, f, hc, h', _⟩⟩
  · simp at h'
  · simp only [List.cons.injEq] at h'
    exact h h'.2.2.2.1

theorem zoneHere_digit {c : Char} {t : Str} (h : isDigit c = true) : zoneHere (c :: t) = false :=
  zoneHere_other (digit_ne h (by decide)) (digit_ne h (by decide)) (digit_ne h (by decide))

theorem searchZone_append {p q : Str} (h : searchZone q = true) : searchZone (p ++ q) = true := by
  induction p with
  | nil => exact h
  | cons c p ih => rw [List.cons_append, searchZone, ih, Bool.or_true]

/-- In a date and time the zone can only come after the minutes. -/
theorem searchZone_minutes {x : Minutes} (hx : x.Digits) (r : Str) : searchZone (x.text r) = searchZone r := by
  obtain ⟨⟨⟨hy1, hy2, hy3, hy4⟩, hm1, hm2, hd1, hd2⟩, hh1, hh2, hi1, hi2⟩ := hx
  unfold Minutes.text
  rw [searchZone_skip (zoneHere_digit hy1), searchZone_skip (zoneHere_digit hy2), searchZone_skip (zoneHere_digit hy3),
    searchZone_skip (zoneHere_digit hy4), searchZone_skip (zoneHere_minus (by decide)), searchZone_skip (zoneHere_digit hm1),
    searchZone_skip (zoneHere_digit hm2), searchZone_skip (zoneHere_minus (by decide)), searchZone_skip (zoneHere_digit hd1),
    searchZone_skip (zoneHere_digit hd2), searchZone_skip (zoneHere_other (by decide) (by decide) (by decide)),
    searchZone_skip (zoneHere_digit hh1), searchZone_skip (zoneHere_digit hh2),
    searchZone_skip (zoneHere_other (by decide) (by decide) (by decide)),
    searchZone_skip (zoneHere_digit hi1), searchZone_skip (zoneHere_digit hi2)]

/-- The time of day can only be looked for at the letter T. -/
theorem searchTime_minutes {x : Minutes} (hx : x.Digits) {r : Str} (hr : 'T' ∉ r) :
    searchTime (x.text r) = true ↔ ∃ a b r', r = ':' :: a :: b :: r' ∧ isDigit a = true ∧ isDigit b = true := by
  obtain ⟨⟨⟨hy1, hy2, hy3, hy4⟩, hm1, hm2, hd1, hd2⟩, hh1, hh2, hi1, hi2⟩ := hx
  have dT : isDigit 'T' = false := by decide
  unfold Minutes.text
  rw [searchTime_skip (digit_ne hy1 dT), searchTime_skip (digit_ne hy2 dT), searchTime_skip (digit_ne hy3 dT),
    searchTime_skip (digit_ne hy4 dT), searchTime_skip (by decide), searchTime_skip (digit_ne hm1 dT),
    searchTime_skip (digit_ne hm2 dT), searchTime_skip (by decide), searchTime_skip (digit_ne hd1 dT),
    searchTime_skip (digit_ne hd2 dT), searchTime, searchTime_no_T (s := x.h1 :: x.h2 :: ':' :: x.i1 :: x.i2 :: r), Bool.or_false,
    timeHere_iff]
  · constructor
    · rintro ⟨a, b, c, d, e, f, r', h, _, _, _, _, he, hf⟩
      simp only [List.cons.injEq, true_and] at h
      exact ⟨e, f, r', h.2.2.2.2, he, hf⟩
    · rintro ⟨a, b, r', rfl, ha, hb⟩
      exact ⟨_, _, _, _, _, _, _, rfl, hh1, hh2, hi1, hi2, ha, hb⟩
  · simp only [List.mem_cons, not_or]
    exact ⟨(digit_ne hh1 dT).symm, (digit_ne hh2 dT).symm, by decide, (digit_ne hi1 dT).symm, (digit_ne hi2 dT).symm, hr⟩

/-! ## Fractions -/

theorem fracHere_spec {s g1 ds g3 : Str} (h : fracHere s = some (g1, ds, g3)) :
    ∃ a b c d e f tail, g1 = [a, b, ':', c, d, ':', e, f] ∧ ds ≠ [] ∧ (∀ x ∈ ds, isDigit x = true) ∧
      s = g1 ++ '.' :: (ds ++ (g3 ++ tail)) ∧ (tail = [] ∨ tail = ['\n']) ∧
      (∀ x t, g3 = x :: t → isDigit x = false ∧ '\n' ∉ t) ∧ (g3 = [] → tail = []) := by
  unfold fracHere at h
  split at h
  · cases h
  rename_i v r e1
  simp only [Option.bind_eq_some_iff] at e1
  obtain ⟨r5, ⟨⟨v3, r4⟩, ⟨r3, ⟨⟨v1, r2⟩, h1, h2⟩, h3⟩, h4⟩, h5⟩ := e1
  rw [takeChar_iff] at h2 h4
  simp only at h2 h4
  obtain ⟨a, b, rfl, ha, hb, _⟩ := takeDigits_two_iff.mp h1
  subst h2
  obtain ⟨c, d, rfl, hc, hd, _⟩ := takeDigits_two_iff.mp h3
  subst h4
  obtain ⟨e, f, rfl, he, hf, _⟩ := takeDigits_two_iff.mp h5
  split at h
  · cases h
  rename_i r' e2
  rw [takeChar_iff] at e2
  subst e2
  simp only at h
  have happ := List.takeWhile_append_dropWhile (p := isDigit) (l := r')
  have hdig : ∀ x ∈ r'.takeWhile isDigit, isDigit x = true := fun x hx => List.mem_takeWhile_imp hx
  have hhead : ∀ x t, r'.dropWhile isDigit = x :: t → isDigit x = false := by
    intro x t hxt
    have := List.dropWhile_get_zero_not isDigit r' (by rw [hxt]; simp)
    simpa [hxt] using this
  split at h
  · cases h
  rename_i hne
  split at h
  · rename_i hd0
    simp only [List.take_succ_cons, List.take_zero, Option.some.injEq, Prod.mk.injEq] at h
    obtain ⟨rfl, rfl, rfl⟩ := h
    rw [hd0, List.append_nil] at happ
    exact ⟨a, b, c, d, e, f, [], rfl, hne, hdig, by simp [happ], Or.inl rfl, by simp, fun _ => rfl⟩
  · rename_i x t hd0
    split at h
    · rename_i hm
      simp only [List.take_succ_cons, List.take_zero, Option.some.injEq, Prod.mk.injEq] at h
      obtain ⟨rfl, rfl, rfl⟩ := h
      rw [hd0] at happ
      refine ⟨a, b, c, d, e, f, t.dropWhile (fun c => decide (c ≠ '\n')), rfl, hne, hdig, ?_, atDollar_iff.mp hm, ?_, by simp⟩
      · have h2 := List.takeWhile_append_dropWhile (p := fun c => decide (c ≠ '\n')) (l := t)
        rw [List.cons_append (as := List.takeWhile _ t), h2, happ]; rfl
      · intro x' t' hxt
        simp only [List.cons.injEq] at hxt
        refine ⟨by rw [← hxt.1]; exact hhead x t hd0, ?_⟩
        rw [← hxt.2]
        intro hmem
        simpa using List.mem_takeWhile_imp hmem
    · cases h

theorem fracSearch_spec {s g1 ds g3 : Str} (h : fracSearch s = some (g1, ds, g3)) :
    ∃ p q g, s = p ++ q ∧ g1 = p ++ g ∧ fracHere q = some (g, ds, g3) := by
  induction s generalizing g1 with
  | nil => cases h
  | cons c s ih =>
    rw [fracSearch] at h
    split at h
    · rename_i g1' ds' g3' hf
      simp only [Option.some.injEq, Prod.mk.injEq] at h
      obtain ⟨rfl, rfl, rfl⟩ := h
      split at hf
      · cases hf
      · obtain ⟨p, q, g, rfl, rfl, hq⟩ := ih hf
        exact ⟨c :: p, q, g, rfl, rfl, hq⟩
    · exact ⟨[], c :: s, g1, rfl, rfl, h⟩

/-- Where two colons can be three characters apart in a date and time: before the minutes and
before the seconds. -/
theorem colons {x : Minutes} (hx : x.Digits) {sec : Nat} {q zt nl : Str} {z : Option Char × Nat × Nat}
    (hq : SecText sec q) (hz : ZoneIs z zt) (hnl : nl = [] ∨ nl = ['\n']) {k : Nat}
    (h1 : (x.text (q ++ (zt ++ nl)))[k]? = some ':') (h2 : (x.text (q ++ (zt ++ nl)))[k + 3]? = some ':') :
    k = 13 ∧ q ≠ [] := by
  have dc : isDigit ':' = false := by decide
  have zc : ∀ j, (zt ++ nl)[j]? = some ':' → j = 3 := by
    intro j hj
    rcases hz with ⟨rfl, _⟩ | ⟨rfl, _⟩ | ⟨c, a, b, e, f, hc, rfl, ⟨ha, hb, he, hf⟩, _⟩
    · rcases hnl with rfl | rfl
      · simp at hj
      · match j with
        | 0 => simp at hj
        | j + 1 => simp at hj
    · rcases hnl with rfl | rfl
      · match j with
        | 0 => simp at hj
        | j + 1 => simp at hj
      · match j with
        | 0 => simp at hj
        | 1 => simp at hj
        | j + 2 => simp at hj
    · have hcc : c ≠ ':' := by rcases hc with rfl | rfl <;> decide
      rcases hnl with rfl | rfl
      · match j with
        | 0 => simp [hcc] at hj
        | 1 => simp [digit_ne ha dc] at hj
        | 2 => simp [digit_ne hb dc] at hj
        | 3 => rfl
        | 4 => simp [digit_ne he dc] at hj
        | 5 => simp [digit_ne hf dc] at hj
        | j + 6 => simp at hj
      · match j with
        | 0 => simp [hcc] at hj
        | 1 => simp [digit_ne ha dc] at hj
        | 2 => simp [digit_ne hb dc] at hj
        | 3 => rfl
        | 4 => simp [digit_ne he dc] at hj
        | 5 => simp [digit_ne hf dc] at hj
        | 6 => simp at hj
        | j + 7 => simp at hj
  have rc : ∀ j, (q ++ (zt ++ nl))[j]? = some ':' → (q = [] ∧ j = 3) ∨ (q ≠ [] ∧ (j = 0 ∨ j = 6)) := by
    intro j hj
    rcases hq with ⟨rfl, _⟩ | ⟨a, b, rfl, ha, hb, _⟩
    · exact Or.inl ⟨rfl, zc j hj⟩
    · refine Or.inr ⟨by simp, ?_⟩
      match j with
      | 0 => exact Or.inl rfl
      | 1 => simp [digit_ne ha dc] at hj
      | 2 => simp [digit_ne hb dc] at hj
      | j + 3 =>
        have := zc j (by simpa using hj)
        omega
  obtain ⟨⟨⟨hy1, hy2, hy3, hy4⟩, hm1, hm2, hd1, hd2⟩, hh1, hh2, hi1, hi2⟩ := hx
  have key : ∀ k, (x.text (q ++ (zt ++ nl)))[k]? = some ':' → k = 13 ∨ ∃ j, k = 16 + j ∧ (q ++ (zt ++ nl))[j]? = some ':' := by
    intro k hk
    unfold Minutes.text at hk
    match k with
    | 0 => simp [digit_ne hy1 dc] at hk
    | 1 => simp [digit_ne hy2 dc] at hk
    | 2 => simp [digit_ne hy3 dc] at hk
    | 3 => simp [digit_ne hy4 dc] at hk
    | 4 => simp at hk
    | 5 => simp [digit_ne hm1 dc] at hk
    | 6 => simp [digit_ne hm2 dc] at hk
    | 7 => simp at hk
    | 8 => simp [digit_ne hd1 dc] at hk
    | 9 => simp [digit_ne hd2 dc] at hk
    | 10 => simp at hk
    | 11 => simp [digit_ne hh1 dc] at hk
    | 12 => simp [digit_ne hh2 dc] at hk
    | 13 => exact Or.inl rfl
    | 14 => simp [digit_ne hi1 dc] at hk
    | 15 => simp [digit_ne hi2 dc] at hk
    | k + 16 => exact Or.inr ⟨k, by omega, by simpa only [List.getElem?_cons_succ] using hk⟩
  rcases key k h1 with rfl | ⟨j, rfl, hj⟩
  · refine ⟨rfl, ?_⟩
    rcases key 16 h2 with h | ⟨j, h, hj⟩
    · omega
    · rcases rc j hj with ⟨h1, h2⟩ | ⟨h1, h2⟩
      · omega
      · exact h1
  · rcases key _ h2 with h | ⟨j', h, hj'⟩
    · omega
    · exfalso
      rcases rc j hj with ⟨a1, a2⟩ | ⟨a1, a2⟩ <;> rcases rc j' hj' with ⟨b1, b2⟩ | ⟨b1, b2⟩
      · omega
      · exact b1 a1
      · exact a1 b1
      · omega

theorem searchZone_chars {s : Str} (h : searchZone s = true) : 'Z' ∈ s ∨ '+' ∈ s ∨ '-' ∈ s := by
  induction s with
  | nil => cases h
  | cons c t ih =>
    rw [searchZone, Bool.or_eq_true] at h
    rcases h with h | h
    · obtain ⟨nl, _, h | ⟨c', a, b, e, f, hc, h, _⟩⟩ := zoneHere_iff.mp h
      · rw [h]; simp
      · rw [h]
        rcases hc with rfl | rfl <;> simp
    · rcases ih h with h | h | h
      · exact Or.inl (List.mem_cons_of_mem _ h)
      · exact Or.inr (Or.inl (List.mem_cons_of_mem _ h))
      · exact Or.inr (Or.inr (List.mem_cons_of_mem _ h))

theorem no_zone {s : Str} (h : ∀ c ∈ s, isDigit c = true ∨ c = ':' ∨ c = '.' ∨ c = '\n') : searchZone s = false := by
  rw [Bool.eq_false_iff]
  intro hz
  rcases searchZone_chars hz with hm | hm | hm <;> rcases h _ hm with h | h | h | h <;> revert h <;> decide

theorem zoneIs_chars {z : Option Char × Nat × Nat} {zt : Str} (hz : ZoneIs z zt) {c : Char} (hc : c ∈ zt) :
    isDigit c = true ∨ c = ':' ∨ c = 'Z' ∨ c = '+' ∨ c = '-' := by
  rcases hz with ⟨rfl, _⟩ | ⟨rfl, _⟩ | ⟨c', a, b, e, f, hc', rfl, ⟨ha, hb, he, hf⟩, _⟩
  · simp at hc
  · simp at hc; simp [hc]
  · simp only [List.mem_cons, List.not_mem_nil, or_false] at hc
    rcases hc with rfl | rfl | rfl | rfl | rfl | rfl
    · rcases hc' with rfl | rfl <;> simp
    all_goals simp [*]

theorem secText_chars {sec : Nat} {q : Str} (hq : SecText sec q) {c : Char} (hc : c ∈ q) : isDigit c = true ∨ c = ':' := by
  rcases hq with ⟨rfl, _⟩ | ⟨a, b, rfl, ha, hb, _⟩
  · simp at hc
  · simp only [List.mem_cons, List.not_mem_nil, or_false] at hc
    rcases hc with rfl | rfl | rfl <;> simp [*]

theorem zoneText_iff {zt : Str} :
    ZoneText zt ↔ zt ≠ [] ∧ ∃ z, ZoneIs z zt ∧ (z.1.isSome = true → z.2.1 ≤ 23 ∧ z.2.2 ≤ 59) := by
  constructor
  · rintro (rfl | ⟨sign, hh, mm, hs, h1, h2, hd, b1, b2, rfl⟩)
    · exact ⟨by simp, (none, 0, 0), Or.inr (Or.inl ⟨rfl, rfl⟩), by simp⟩
    · obtain ⟨a, b, rfl⟩ := List.length_eq_two.mp h1
      obtain ⟨e, f, rfl⟩ := List.length_eq_two.mp h2
      have hd' : isDigit a = true ∧ isDigit b = true ∧ isDigit e = true ∧ isDigit f = true := by simpa using hd
      rcases hs with rfl | rfl
      · exact ⟨by simp, (some '+', _, _), Or.inr (Or.inr ⟨'+', a, b, e, f, Or.inl rfl, rfl, hd', rfl⟩), fun _ => ⟨b1, b2⟩⟩
      · exact ⟨by simp, (some '-', _, _), Or.inr (Or.inr ⟨'-', a, b, e, f, Or.inr rfl, rfl, hd', rfl⟩), fun _ => ⟨b1, b2⟩⟩
  · rintro ⟨hne, z, hz, hb⟩
    rcases hz with ⟨rfl, _⟩ | ⟨rfl, _⟩ | ⟨c, a, b, e, f, hc, rfl, hd, rfl⟩
    · exact absurd rfl hne
    · exact Or.inl rfl
    · obtain ⟨b1, b2⟩ := hb rfl
      refine Or.inr ⟨[c], [a, b], [e, f], ?_, rfl, rfl, by simpa using hd, b1, b2, rfl⟩
      rcases hc with rfl | rfl
      · exact Or.inl rfl
      · exact Or.inr rfl

/-- The fields of a date and time to the second. -/
def Minutes.dateTime (x : Minutes) (a b : Char) : DateTime :=
  ⟨intOf [x.y1, x.y2, x.y3, x.y4], intOf [x.m1, x.m2], intOf [x.d1, x.d2], intOf [x.h1, x.h2], intOf [x.i1, x.i2], intOf [a, b]⟩

theorem validFields_iff {x : Minutes} {a b : Char} :
    validFields (intOf [x.y1, x.y2, x.y3, x.y4]) (intOf [x.m1, x.m2]) (intOf [x.d1, x.d2]) (intOf [x.h1, x.h2])
      (intOf [x.i1, x.i2]) (intOf [a, b]) = true ↔ (x.dateTime a b).Valid := by
  refine ⟨fun h => ?_, fun h => by have := validFields_of h; simpa only [Minutes.dateTime] using this⟩
  simp only [validFields, Bool.and_eq_true, decide_eq_true_eq] at h
  obtain ⟨⟨⟨⟨⟨⟨⟨h1, h2⟩, h3⟩, h4⟩, h5⟩, h6⟩, h7⟩, h8⟩ := h
  have := intOf_lt [x.y1, x.y2, x.y3, x.y4]
  simp only [List.length_cons, List.length_nil] at this
  have hy : intOf [x.y1, x.y2, x.y3, x.y4] ≤ 9999 := by omega
  unfold DateTime.Valid Minutes.dateTime
  exact ⟨h1, hy, h4, ⟨daysInMonth _ _, monthLength_iff.mpr ⟨h2, h3, rfl⟩, h5⟩, h6, h7, h8⟩

theorem clockText_iff {d : DateTime} {s : Str} :
    ClockText d s ↔ ∃ (x : Minutes) (a b : Char), x.Digits ∧ isDigit a = true ∧ isDigit b = true ∧
      d = x.dateTime a b ∧ s = x.text [':', a, b] := by
  have four : ∀ s : Str, s.length = 4 → ∃ a b c d, s = [a, b, c, d] := by
    intro s h
    match s, h with
    | [a, b, c, d], _ => exact ⟨a, b, c, d, rfl⟩
  constructor
  · rintro ⟨y, mo, dd, h, mi, sec, ⟨l1, l2, l3, l4, l5, l6⟩, hd, ⟨e1, e2, e3, e4, e5, e6⟩, rfl⟩
    obtain ⟨y1, y2, y3, y4, rfl⟩ := four y l1
    obtain ⟨m1, m2, rfl⟩ := List.length_eq_two.mp l2
    obtain ⟨d1, d2, rfl⟩ := List.length_eq_two.mp l3
    obtain ⟨h1, h2, rfl⟩ := List.length_eq_two.mp l4
    obtain ⟨i1, i2, rfl⟩ := List.length_eq_two.mp l5
    obtain ⟨a, b, rfl⟩ := List.length_eq_two.mp l6
    simp only [List.cons_append, List.nil_append, List.mem_cons, List.not_mem_nil, or_false, forall_eq_or_imp, forall_eq] at hd
    obtain ⟨k1, k2, k3, k4, k5, k6, k7, k8, k9, k10, k11, k12, k13, k14⟩ := hd
    refine ⟨⟨y1, y2, y3, y4, m1, m2, d1, d2, h1, h2, i1, i2⟩, a, b,
      ⟨⟨⟨k1, k2, k3, k4⟩, k5, k6, k7, k8⟩, k9, k10, k11, k12⟩, k13, k14, ?_, rfl⟩
    unfold Minutes.dateTime
    rw [e1, e2, e3, e4, e5, e6]
  · rintro ⟨x, a, b, ⟨⟨⟨k1, k2, k3, k4⟩, k5, k6, k7, k8⟩, k9, k10, k11, k12⟩, k13, k14, rfl, rfl⟩
    refine ⟨_, _, _, _, _, _, ⟨rfl, rfl, rfl, rfl, rfl, rfl⟩, ?_, ⟨rfl, rfl, rfl, rfl, rfl, rfl⟩, rfl⟩
    simp only [List.cons_append, List.nil_append, List.mem_cons, List.not_mem_nil, or_false, forall_eq_or_imp, forall_eq]
    exact ⟨k1, k2, k3, k4, k5, k6, k7, k8, k9, k10, k11, k12, k13, k14⟩

theorem strToDatetime_ok {t : Str} (hT : 'T' ∈ t) {r : Int × Str} (h : strToDatetime t = .ok r) :
    ∃ y mo d hh mi sec z, matchDateTime (splitFraction t).1 = some ((y, mo, d, hh, mi, sec), z) ∧
      validFields y mo d hh mi sec = true ∧ (z.1.isSome = true → z.2.1 ≤ 23 ∧ z.2.2 ≤ 59) := by
  unfold strToDatetime at h
  split at h
  · cases h
  simp only [completeDate_of_T hT] at h
  split at h
  · cases h
  · rename_i y mo d hh mi sec sign zh zm hm
    split at h
    · cases h
    · rename_i hv
      refine ⟨y, mo, d, hh, mi, sec, (sign, zh, zm), hm, by simpa using hv, ?_⟩
      intro hs
      simp only at hs ⊢
      cases sign with
      | none => cases hs
      | some c =>
        simp only at h
        split at h
        · cases h
        · omega

theorem strToDatetime_ok' {t : Str} (hT : 'T' ∈ t) {y mo d hh mi sec : Nat} {z : Option Char × Nat × Nat}
    (hm : matchDateTime (splitFraction t).1 = some ((y, mo, d, hh, mi, sec), z))
    (hv : validFields y mo d hh mi sec = true) (hz : z.1.isSome = true → z.2.1 ≤ 23 ∧ z.2.2 ≤ 59) :
    ∃ r, strToDatetime t = .ok r := by
  obtain ⟨sign, zh, zm⟩ := z
  unfold strToDatetime
  rw [if_neg (by rintro rfl; simp at hT)]
  simp only [completeDate_of_T hT]
  rw [hm]
  simp only [hv, Bool.not_true, Bool.false_eq_true, if_false]
  cases sign with
  | none => exact ⟨_, rfl⟩
  | some c =>
    have := hz rfl
    simp only at this ⊢
    rw [if_neg (by omega)]
    exact ⟨_, rfl⟩

theorem goodCreated_timestamp {t : Str} (h : goodCreated t) : Timestamp t := by
  obtain ⟨⟨r, hr⟩, hzone, htime⟩ := h
  have hT := searchTime_T htime
  obtain ⟨y, mo, d, hh, mi, sec, z, hm, hv, hzb⟩ := strToDatetime_ok hT hr
  obtain ⟨x, q, zt, nl, hx, hs, hq, hz, hnl, rfl, rfl, rfl, rfl, rfl⟩ := matchDateTime_spec hm
  have dT : isDigit 'T' = false := by decide
  have done : ∀ (a b : Char) (fr nl : Str), isDigit a = true → isDigit b = true → sec = intOf [a, b] →
      (∀ c ∈ fr, isDigit c = true) → (nl = [] ∨ nl = ['\n']) → zt ≠ [] →
      t = x.text (':' :: a :: b :: (fraction fr ++ (zt ++ nl))) → Timestamp t := by
    intro a b fr nl ha hb hsec hfr hnl hne ht
    rw [hsec] at hv
    refine ⟨x.dateTime a b, x.text [':', a, b], fr, zt, nl, validFields_iff.mp hv, clockText_iff.mpr ⟨x, a, b, hx, ha, hb, rfl, rfl⟩,
      hfr, zoneText_iff.mpr ⟨hne, z, hz, hzb⟩, hnl, ?_⟩
    rw [ht]
    simp [Minutes.text]
  unfold splitFraction at hs
  split at hs
  · simp only at hs
    have hnT : 'T' ∉ q ++ (zt ++ nl) := by
      intro hm
      rcases List.mem_append.mp hm with hm | hm
      · rcases secText_chars hq hm with h | h <;> revert h <;> decide
      · rcases List.mem_append.mp hm with hm | hm
        · rcases zoneIs_chars hz hm with h | h | h | h | h <;> revert h <;> decide
        · rcases hnl with rfl | rfl <;> simp at hm
    rw [hs, searchTime_minutes hx hnT] at htime
    obtain ⟨a', b', r', hr', ha', hb'⟩ := htime
    rcases id hq with ⟨rfl, rfl⟩ | ⟨a, b, rfl, ha, hb, hsec⟩
    · exfalso
      have : ':' ∈ (zt ++ nl).head? := by
        rw [List.nil_append] at hr'
        rw [hr']; rfl
      rcases hz with ⟨rfl, _⟩ | ⟨rfl, _⟩ | ⟨c', a, b, e, f, hc', rfl, _, _⟩
      · rcases hnl with rfl | rfl <;> simp at this
      · simp at this
      · simp at this; subst this; rcases hc' with h | h <;> cases h
    · refine done a b [] nl ha hb hsec (by simp) hnl ?_ hs
      rintro rfl
      rw [hs, searchZone_minutes hx, no_zone] at hzone
      · cases hzone
      · intro c hc
        simp only [List.nil_append, List.mem_append] at hc
        rcases hc with hc | hc
        · rcases secText_chars hq hc with h | h <;> simp [h]
        · rcases hnl with rfl | rfl <;> simp at hc
          simp [hc]
  · rename_i g1 ds g3 hf
    simp only at hs
    obtain ⟨p, q', g, rfl, rfl, hfh⟩ := fracSearch_spec hf
    obtain ⟨a, b, c, d, e, f, tail, rfl, hne, hds, rfl, htail, hg3, hg3'⟩ := fracHere_spec hfh
    have hk : p.length + 2 = 13 ∧ q ≠ [] := by
      apply colons hx hq hz hnl (k := p.length + 2)
      · rw [← hs]; simp
      · rw [← hs, Nat.add_assoc]; simp
    obtain ⟨hk, hqne⟩ := hk
    rcases id hq with ⟨rfl, _⟩ | ⟨s1, s2, rfl, h1, h2, hsec⟩
    · exact absurd rfl hqne
    have e1 : (p ++ [a, b, ':', c, d, ':', e, f]) ++ g3 = x.text [':', s1, s2] ++ (zt ++ nl) := by
      rw [hs]; rfl
    obtain ⟨e2, e3⟩ := List.append_inj e1 (by
      have : (x.text [':', s1, s2]).length = 19 := rfl
      rw [this, List.length_append]; simp; omega)
    have ht : p ++ ([a, b, ':', c, d, ':', e, f] ++ '.' :: (ds ++ (g3 ++ tail))) =
        x.text (':' :: s1 :: s2 :: '.' :: (ds ++ (zt ++ nl ++ tail))) := by
      rw [← List.append_assoc, e2, e3]; rfl
    rw [ht] at hzone
    have hzt : zt ≠ [] := by
      rintro rfl
      rw [searchZone_minutes hx, no_zone] at hzone
      · cases hzone
      · intro c hc
        simp only [List.nil_append, List.mem_append, List.mem_cons] at hc
        rcases hc with rfl | rfl | rfl | rfl | hc | hc | hc
        · simp
        · simp [h1]
        · simp [h2]
        · simp
        · simp [hds c hc]
        · rcases hnl with rfl | rfl <;> simp at hc
          simp [hc]
        · rcases htail with rfl | rfl <;> simp at hc
          simp [hc]
    have hnl0 : nl = [] := by
      rcases hnl with h | h
      · exact h
      · obtain ⟨c', t', rfl⟩ := List.exists_cons_of_ne_nil hzt
        rw [h, List.cons_append] at e3
        have := (hg3 _ _ e3).2
        simp at this
    subst hnl0
    refine done s1 s2 ds tail h1 h2 hsec hds htail hzt ?_
    rw [ht]
    simp [fraction, hne]

theorem digits_until {c : Char} (hc : isDigit c = false) (t : Str) : ∀ ds : Str, (∀ c ∈ ds, isDigit c = true) →
    (ds ++ c :: t).takeWhile isDigit = ds ∧ (ds ++ c :: t).dropWhile isDigit = c :: t := by
  intro ds hd
  exact takeWhile_append_stop (l := ds) hd hc

theorem fracHere_text {a b c d e f : Char} (h1 : isDigit a = true) (h2 : isDigit b = true) (h3 : isDigit c = true)
    (h4 : isDigit d = true) (h5 : isDigit e = true) (h6 : isDigit f = true) {ds : Str} (hne : ds ≠ [])
    (hd : ∀ c ∈ ds, isDigit c = true) {zt nl : Str} {z : Option Char × Nat × Nat} (hz : ZoneIs z zt) (hzt : zt ≠ [])
    (hnl : nl = [] ∨ nl = ['\n']) :
    fracHere (a :: b :: ':' :: c :: d :: ':' :: e :: f :: '.' :: (ds ++ (zt ++ nl))) =
      some ([a, b, ':', c, d, ':', e, f], ds, zt) := by
  have hzt : ∃ c t, zt = c :: t ∧ isDigit c = false ∧ '\n' ∉ t := by
    have hn : '\n' ∉ zt := by
      intro hm
      rcases zoneIs_chars hz hm with h | h | h | h | h <;> revert h <;> decide
    rcases hz with ⟨rfl, _⟩ | ⟨rfl, _⟩ | ⟨c', a, b, e, f, hc', rfl, _, _⟩
    · exact absurd rfl hzt
    · exact ⟨'Z', [], rfl, by decide, by simp⟩
    · refine ⟨c', _, rfl, by rcases hc' with rfl | rfl <;> decide, fun hm => hn (List.mem_cons_of_mem _ hm)⟩
  obtain ⟨c', t, rfl, hc, ht⟩ := hzt
  obtain ⟨t1, t2⟩ := digits_until hc (t ++ nl) ds hd
  have htn : (t ++ nl).takeWhile (fun c => decide (c ≠ '\n')) = t ∧ (t ++ nl).dropWhile (fun c => decide (c ≠ '\n')) = nl := by
    rcases hnl with rfl | rfl
    · rw [List.append_nil]; exact takeWhile_all (all_ne ht)
    · exact takeWhile_append_stop (all_ne ht) (by simp)
  unfold fracHere
  rw [takeDigits_two_iff.mpr ⟨a, b, rfl, h1, h2, rfl⟩]
  simp only [Option.bind_some, takeChar_cons]
  rw [takeDigits_two_iff.mpr ⟨c, d, rfl, h3, h4, rfl⟩]
  simp only [Option.bind_some, takeChar_cons]
  rw [takeDigits_two_iff.mpr ⟨e, f, rfl, h5, h6, rfl⟩]
  simp only [Option.bind_some, takeChar_cons, List.cons_append]
  rw [t1, t2, if_neg hne]
  simp only [fracHere.matchAny', htn.1, htn.2, atDollar_iff.mpr hnl, if_true]
  simp

theorem splitFraction_text {x : Minutes} (hx : x.Digits) {a b : Char} (ha : isDigit a = true) (hb : isDigit b = true)
    {ds : Str} (hd : ∀ c ∈ ds, isDigit c = true) {zt nl : Str} {z : Option Char × Nat × Nat} (hz : ZoneIs z zt) (hzt : zt ≠ [])
    (hnl : nl = [] ∨ nl = ['\n']) :
    ∃ nl', (nl' = [] ∨ nl' = ['\n']) ∧ (splitFraction (x.text (':' :: a :: b :: (fraction ds ++ (zt ++ nl))))).1 =
      x.text (':' :: a :: b :: (zt ++ nl')) := by
  have dd : isDigit '.' = false := by decide
  have dn : isDigit '\n' = false := by decide
  have hdot : '.' ∉ zt ++ nl := by
    intro hm
    rcases List.mem_append.mp hm with hm | hm
    · rcases zoneIs_chars hz hm with h | h | h | h | h <;> revert h <;> decide
    · rcases hnl with rfl | rfl <;> simp at hm
  obtain ⟨⟨⟨hy1, hy2, hy3, hy4⟩, hm1, hm2, hd1, hd2⟩, hh1, hh2, hi1, hi2⟩ := hx
  by_cases hne : ds = []
  · subst hne
    refine ⟨nl, hnl, ?_⟩
    have hnone : fracSearch (x.text (':' :: a :: b :: (fraction [] ++ (zt ++ nl)))) = none := by
      apply fracSearch_none
      intro hm
      simp only [Minutes.text, List.drop_succ_cons, List.drop_zero, fraction, if_true, List.nil_append, List.mem_cons] at hm
      rcases hm with h | h | h | h | h | h | h | h | h | h | h | h
      · exact digit_ne hd1 dd h.symm
      · exact digit_ne hd2 dd h.symm
      · cases h
      · exact digit_ne hh1 dd h.symm
      · exact digit_ne hh2 dd h.symm
      · cases h
      · exact digit_ne hi1 dd h.symm
      · exact digit_ne hi2 dd h.symm
      · cases h
      · exact digit_ne ha dd h.symm
      · exact digit_ne hb dd h.symm
      · exact hdot h
    unfold splitFraction
    rw [hnone]
    rfl
  · refine ⟨[], Or.inl rfl, ?_⟩
    have hq : fracSearch (x.h1 :: x.h2 :: ':' :: x.i1 :: x.i2 :: ':' :: a :: b :: '.' :: (ds ++ (zt ++ nl))) =
        some ([x.h1, x.h2, ':', x.i1, x.i2, ':', a, b], ds, zt) := by
      rw [← fracHere_text hh1 hh2 hi1 hi2 ha hb hne hd hz hzt hnl]
      have hno : fracSearch (x.h2 :: ':' :: x.i1 :: x.i2 :: ':' :: a :: b :: '.' :: (ds ++ (zt ++ nl))) = none := by
        apply fracSearch_none
        simp only [List.drop_succ_cons, List.drop_zero, List.mem_append, not_or]
        exact ⟨fun hm => digit_ne (hd _ hm) dd rfl, fun hm => hdot (List.mem_append_left _ hm),
          fun hm => hdot (List.mem_append_right _ hm)⟩
      rw [fracSearch, hno]
      simp
    have hp : '\n' ∉ [x.y1, x.y2, x.y3, x.y4, '-', x.m1, x.m2, '-', x.d1, x.d2, 'T'] := by
      simp only [List.mem_cons, List.not_mem_nil, not_or, or_false]
      exact ⟨(digit_ne hy1 dn).symm, (digit_ne hy2 dn).symm, (digit_ne hy3 dn).symm, (digit_ne hy4 dn).symm, by decide,
        (digit_ne hm1 dn).symm, (digit_ne hm2 dn).symm, by decide, (digit_ne hd1 dn).symm, (digit_ne hd2 dn).symm, by decide⟩
    have heq : x.text (':' :: a :: b :: (fraction ds ++ (zt ++ nl))) =
        [x.y1, x.y2, x.y3, x.y4, '-', x.m1, x.m2, '-', x.d1, x.d2, 'T'] ++
          (x.h1 :: x.h2 :: ':' :: x.i1 :: x.i2 :: ':' :: a :: b :: '.' :: (ds ++ (zt ++ nl))) := by
      simp [Minutes.text, fraction, hne]
    unfold splitFraction
    rw [heq, fracSearch_append _ hp hq]
    simp [Minutes.text]

theorem goodCreated_iff {t : Str} : goodCreated t ↔ Timestamp t := by
  refine ⟨goodCreated_timestamp, ?_⟩
  rintro ⟨d, clk, fr, zt, nl, hv, hclk, hfr, hzone, hnl, rfl⟩
  obtain ⟨x, a, b, hx, ha, hb, rfl, rfl⟩ := clockText_iff.mp hclk
  obtain ⟨hzt, z, hz, hzb⟩ := zoneText_iff.mp hzone
  have heq : x.text [':', a, b] ++ fraction fr ++ zt ++ nl = x.text (':' :: a :: b :: (fraction fr ++ (zt ++ nl))) := by
    simp [Minutes.text]
  rw [heq]
  obtain ⟨nl', hnl', hsf⟩ := splitFraction_text hx ha hb hfr hz hzt hnl
  have hzt' : zoneHere (zt ++ nl) = true := by
    rw [zoneHere_iff]
    refine ⟨nl, hnl, ?_⟩
    rcases hz with ⟨rfl, _⟩ | ⟨rfl, _⟩ | ⟨c, a, b, e, f, hc, rfl, hd, _⟩
    · exact absurd rfl hzt
    · exact Or.inl rfl
    · exact Or.inr ⟨c, a, b, e, f, hc, rfl, hd⟩
  have hzs : searchZone (zt ++ nl) = true := by
    obtain ⟨c, t, rfl⟩ := List.exists_cons_of_ne_nil hzt
    rw [List.cons_append] at hzt' ⊢
    rw [searchZone, hzt', Bool.true_or]
  refine ⟨strToDatetime_ok' (by simp [Minutes.text]) (by rw [hsf, matchDateTime_text x hx ha hb hz hzt hnl'])
    (validFields_iff.mpr hv) hzb, ?_, ?_⟩
  · rw [searchZone_minutes hx]
    exact searchZone_append (p := ':' :: a :: b :: fraction fr) hzs
  · rw [searchTime_minutes hx]
    · exact ⟨a, b, _, rfl, ha, hb⟩
    · have dT : isDigit 'T' = false := by decide
      intro hm
      simp only [List.mem_cons, List.mem_append] at hm
      rcases hm with h | h | h | h | h | h
      · cases h
      · exact digit_ne ha dT h.symm
      · exact digit_ne hb dT h.symm
      · unfold fraction at h
        split at h
        · simp at h
        · rcases List.mem_cons.mp h with h | h
          · cases h
          · exact digit_ne (hfr _ h) dT rfl
      · rcases zoneIs_chars hz h with h | h | h | h | h <;> revert h <;> decide
      · rcases hnl with rfl | rfl <;> simp at h

end Ocfl
