import Verif.Model.PyJson
import Verif.Proofs.Utf8
import Verif.Py.Decimal
import Verif.Py.DictLemmas

/-!
# The JSON library reads what it writes
-/

namespace Ocfl
namespace PyJson

/-! ## Strings -/

theorem hexVal_digitChar {k : Nat} (h : k < 16) : hexVal (Nat.digitChar k) = some k := by
  have : ∀ k : Fin 16, hexVal (Nat.digitChar k.1) = some k.1 := by decide
  exact this ⟨k, h⟩

theorem scan_hex {u : Nat} (hu : u < 65536) (r : Str) :
    scan ('\\' :: 'u' :: hex4 u ++ r) = (scan r).map (fun p => (u :: p.1, p.2)) := by
  unfold hex4
  simp only [List.cons_append, List.nil_append]
  rw [scan.eq_def]
  simp only [show ('\\' : Char) ≠ '"' by decide, if_false, if_true]
  unfold hexVal4
  rw [hexVal_digitChar (Nat.mod_lt _ (by decide)), hexVal_digitChar (Nat.mod_lt _ (by decide)),
    hexVal_digitChar (Nat.mod_lt _ (by decide)), hexVal_digitChar (Nat.mod_lt _ (by decide))]
  dsimp only
  have : u / 4096 % 16 * 4096 + u / 256 % 16 * 256 + u / 16 % 16 * 16 + u % 16 = u := by omega
  rw [this]
  cases scan r <;> rfl

theorem units_lt (c : Char) : ∀ u ∈ units c, u < 65536 := by
  intro u hu
  have hv : c.toNat < 0x110000 := by
    have := c.valid
    simp only [UInt32.isValidChar, Nat.isValidChar] at this
    have h2 : c.toNat = c.val.toNat := rfl
    omega
  unfold units at hu
  generalize c.toNat = k at *
  split at hu
  · simp only [List.mem_singleton] at hu; omega
  · simp only [List.mem_cons, List.not_mem_nil, or_false] at hu
    rcases hu with h | h <;> (rw [h]; omega)

theorem scan_units (l : List Nat) (hl : ∀ u ∈ l, u < 65536) (r : Str) :
    scan (l.flatMap (fun u => '\\' :: 'u' :: hex4 u) ++ r) = (scan r).map (fun p => (l ++ p.1, p.2)) := by
  induction l with
  | nil => simp
  | cons u l ih =>
    rw [List.flatMap_cons, List.append_assoc]
    have := scan_hex (hl u (by simp)) (l.flatMap (fun u => '\\' :: 'u' :: hex4 u) ++ r)
    rw [this, ih (fun x hx => hl x (by simp [hx]))]
    cases scan r <;> rfl

theorem scan_escape (c : Char) (r : Str) :
    scan (escape c ++ r) = (scan r).map (fun p => (units c ++ p.1, p.2)) := by
  have simple : ∀ e c : Char, e ≠ 'u' → simpleEscape e = some c → c.toNat < 0x10000 →
      scan ('\\' :: e :: r) = (scan r).map (fun p => (units c ++ p.1, p.2)) := by
    intro e c he hs hc
    rw [scan.eq_def]
    simp only [show ('\\' : Char) ≠ '"' by decide, if_false, if_true, he, hs]
    unfold units
    rw [if_pos hc]
    cases scan r <;> rfl
  unfold escape
  split
  · rename_i h; subst h; exact simple '"' '"' (by decide) rfl (by decide)
  split
  · rename_i h; subst h; exact simple '\\' '\\' (by decide) rfl (by decide)
  split
  · rename_i h; subst h; exact simple 'n' '\n' (by decide) rfl (by decide)
  split
  · rename_i h; subst h; exact simple 'r' '\r' (by decide) rfl (by decide)
  split
  · rename_i h; subst h; exact simple 't' '\t' (by decide) rfl (by decide)
  split
  · rename_i h; subst h; exact simple 'f' (Char.ofNat 12) (by decide) rfl (by decide)
  split
  · rename_i h; subst h; exact simple 'b' (Char.ofNat 8) (by decide) rfl (by decide)
  split
  · rename_i h1 h2 _ _ _ _ _ h3
    rw [List.singleton_append, scan.eq_def]
    simp only [h1, h2, if_false]
    rw [if_neg (by omega)]
    unfold units
    rw [if_pos (by omega)]
    cases scan r <;> rfl
  · exact scan_units _ (units_lt c) r

theorem scan_string (s r : Str) :
    scan (s.flatMap escape ++ '"' :: r) = some (s.flatMap units, r) := by
  induction s with
  | nil => rw [List.flatMap_nil, List.nil_append, scan.eq_def]; rfl
  | cons c s ih =>
    rw [List.flatMap_cons, List.append_assoc, scan_escape, ih]
    rfl

theorem combine_units (c : Char) (us : List Nat) : combine (units c ++ us) = (combine us).map (fun s => c :: s) := by
  have hv := c.valid
  simp only [UInt32.isValidChar, Nat.isValidChar] at hv
  have h2 : c.toNat = c.val.toNat := rfl
  have hof : Char.ofNat c.toNat = c := Char.ofNat_toNat c
  unfold units
  split
  · rw [List.singleton_append, combine.eq_def]
    simp only
    rw [if_neg (by omega), if_neg (by omega), hof]
  · simp only [List.cons_append, List.nil_append]
    rw [combine.eq_def]
    simp only
    rw [if_pos (by omega), if_pos (by omega)]
    have : 0x10000 + (0xd800 + (c.toNat - 0x10000) / 0x400 - 0xd800) * 0x400 +
        (0xdc00 + (c.toNat - 0x10000) % 0x400 - 0xdc00) = c.toNat := by omega
    rw [this, hof]

theorem combine_string (s : Str) : combine (s.flatMap units) = some s := by
  induction s with
  | nil => rw [List.flatMap_nil, combine.eq_def]
  | cons c s ih => rw [List.flatMap_cons, combine_units, ih]; rfl

theorem pString_quote (s r : Str) : pString (s.flatMap escape ++ '"' :: r) = some (s, r) := by
  unfold pString
  rw [scan_string]
  dsimp only
  rw [combine_string]

theorem quote_append (s r : Str) : quote s ++ r = '"' :: (s.flatMap escape ++ '"' :: r) := by
  unfold quote; simp

/-! ## White space -/

theorem skipWs_newline (n : Nat) {r : Str} (h : skipWs r = r) : skipWs (newline n ++ r) = r := by
  have h1 : ∀ k, skipWs (List.replicate k ' ' ++ r) = r := by
    intro k
    induction k with
    | zero => exact h
    | succ k ih =>
      rw [List.replicate_succ, List.cons_append]
      unfold skipWs at ih ⊢
      rw [List.dropWhile_cons_of_pos (by decide)]
      exact ih
  unfold newline
  rw [List.cons_append]
  have h1 := h1 (2 * n)
  unfold skipWs at h1 ⊢
  rw [List.dropWhile_cons_of_pos (by decide)]
  exact h1

theorem skipWs_cons {c : Char} {r : Str} (h : isWs c = false) : skipWs (c :: r) = c :: r := by
  unfold skipWs
  rw [List.dropWhile_cons_of_neg (by simp [h])]

/-! ## Numbers -/

/-- After a value comes the end, a comma or a new line. -/
def Stop (r : Str) : Prop := r = [] ∨ ∃ t, r = ',' :: t ∨ r = '\n' :: t

theorem digits_stop {d r : Str} (hd : ∀ c ∈ d, c.isDigit = true) (hr : Stop r) : digits (d ++ r) = (d, r) := by
  unfold digits
  rw [List.takeWhile_append_of_pos hd, List.dropWhile_append_of_pos hd]
  rcases hr with rfl | ⟨t, rfl | rfl⟩
  · simp
  · rw [List.takeWhile_cons_of_neg (by decide), List.dropWhile_cons_of_neg (by decide)]; simp
  · rw [List.takeWhile_cons_of_neg (by decide), List.dropWhile_cons_of_neg (by decide)]; simp

theorem pNumber_natStr (n : Nat) {r : Str} (hr : Stop r) : pNumber (natStr n ++ r) = some (natStr n, r) := by
  have htail : pFrac r = ([], r) ∧ pExp r = ([], r) := by
    rcases hr with rfl | ⟨t, rfl | rfl⟩
    · exact ⟨rfl, rfl⟩
    · exact ⟨rfl, rfl⟩
    · exact ⟨rfl, rfl⟩
  have hint : pInt (natStr n ++ r) = some (natStr n, r) := by
    by_cases hn : n = 0
    · subst hn; rfl
    · have h0 := natStr_head_ne_zero (Nat.pos_of_ne_zero hn)
      have hdig : ∀ c ∈ natStr n, c.isDigit = true := fun c hc => natStr_isDigit hc
      cases hs : natStr n with
      | nil => exact absurd hs (natStr_ne_nil n)
      | cons c d =>
        rw [hs] at h0 hdig
        have hc : c ≠ '0' := by rintro rfl; exact h0 rfl
        unfold pInt
        rw [List.cons_append]
        simp only
        rw [if_neg hc, if_pos (hdig c (by simp)), digits_stop (fun x hx => hdig x (by simp [hx])) hr]
  unfold pNumber
  have hneg : pSign (natStr n ++ r) = ([], natStr n ++ r) := by
    cases hs : natStr n with
    | nil => exact absurd hs (natStr_ne_nil n)
    | cons c d =>
      have hc : c.isDigit = true := natStr_isDigit (n := n) (by rw [hs]; simp)
      rw [List.cons_append]
      unfold pSign
      dsimp only
      rw [if_neg]
      rintro rfl
      exact absurd hc (by decide)
  simp only [hneg, hint, htail.1, htail.2]
  simp

theorem natStr_first {n : Nat} : ∃ c d, natStr n = c :: d ∧ c.isDigit = true := by
  cases hs : natStr n with
  | nil => exact absurd hs (natStr_ne_nil n)
  | cons c d => exact ⟨c, d, rfl, natStr_isDigit (n := n) (by rw [hs]; simp)⟩

/-! ## Values -/

/-- A value starts with a character that is neither white space nor a closing bracket. -/
theorem dump_first {j : Json} (h : j.Writable) (n : Nat) :
    ∃ c t, dump n j = c :: t ∧ isWs c = false ∧ c ≠ ']' ∧ c ≠ '}' := by
  cases h with
  | null => exact ⟨'n', c!"ull", by unfold dump; rfl, by decide, by decide, by decide⟩
  | @bool b =>
    cases b
    · exact ⟨'f', c!"alse", by unfold dump; rfl, by decide, by decide, by decide⟩
    · exact ⟨'t', c!"rue", by unfold dump; rfl, by decide, by decide, by decide⟩
  | @num k =>
    obtain ⟨c, d, h1, h2⟩ := natStr_first (n := k)
    refine ⟨c, d, by unfold dump; exact h1, ?_, ?_, ?_⟩
    · unfold isWs
      rcases Decidable.em (c = ' ') with rfl | h1
      · exact absurd h2 (by decide)
      rcases Decidable.em (c = '\n') with rfl | h3
      · exact absurd h2 (by decide)
      rcases Decidable.em (c = '\r') with rfl | h4
      · exact absurd h2 (by decide)
      rcases Decidable.em (c = '\t') with rfl | h5
      · exact absurd h2 (by decide)
      simp [h1, h3, h4, h5]
    · rintro rfl; exact absurd h2 (by decide)
    · rintro rfl; exact absurd h2 (by decide)
  | str => exact ⟨'"', _, by unfold dump quote; rfl, by decide, by decide, by decide⟩
  | @arr l _ =>
    cases l with
    | nil => exact ⟨'[', _, by unfold dump; rfl, by decide, by decide, by decide⟩
    | cons => exact ⟨'[', _, by unfold dump; rfl, by decide, by decide, by decide⟩
  | @obj d _ _ =>
    cases d with
    | nil => exact ⟨'{', _, by unfold dump; rfl, by decide, by decide, by decide⟩
    | cons => exact ⟨'{', _, by unfold dump; rfl, by decide, by decide, by decide⟩

/-- Reading back at any depth. -/
def Reads (j : Json) : Prop :=
  ∀ n fuel r, 2 * (dump n j).length ≤ fuel → Stop r → pValue fuel (dump n j ++ r) = some (j, r)

theorem stop_newline (n : Nat) (r : Str) : Stop (newline n ++ r) := Or.inr ⟨_, Or.inr rfl⟩

theorem dumpItems_stop (n : Nat) (l : List Json) (r : Str) : Stop (dumpItems n l ++ r) := by
  cases l with
  | nil => unfold dumpItems; rw [List.append_assoc]; exact stop_newline _ _
  | cons x xs => unfold dumpItems; exact Or.inr ⟨_, Or.inl rfl⟩

theorem dumpPairs_stop (n : Nat) (l : List (Str × Json)) (r : Str) : Stop (dumpPairs n l ++ r) := by
  cases l with
  | nil => unfold dumpPairs; rw [List.append_assoc]; exact stop_newline _ _
  | cons x xs => obtain ⟨k, x⟩ := x; unfold dumpPairs; exact Or.inr ⟨_, Or.inl rfl⟩

theorem skipWs_dump {j : Json} (h : j.Writable) (n : Nat) (r : Str) : skipWs (dump n j ++ r) = dump n j ++ r := by
  obtain ⟨c, t, h1, h2, _⟩ := dump_first h n
  rw [h1, List.cons_append, skipWs_cons h2]

theorem dump_length_pos {j : Json} (h : j.Writable) (n : Nat) : 0 < (dump n j).length := by
  obtain ⟨c, t, h1, h2, _⟩ := dump_first h n
  rw [h1]; simp

theorem reads_items (n : Nat) : ∀ (x : Json) (xs : List Json) (fuel : Nat) (r : Str),
    (∀ y ∈ x :: xs, Reads y ∧ y.Writable) → 2 * ((dump (n + 1) x).length + (dumpItems n xs).length) ≤ fuel →
    pItems fuel (dump (n + 1) x ++ (dumpItems n xs ++ r)) = some (x :: xs, r)
  | x, xs, 0, r, h, hf => by
    have := dump_length_pos (h x (by simp)).2 (n + 1)
    omega
  | x, [], fuel + 1, r, h, hf => by
    have hx := (h x (by simp)).1 (n + 1) fuel (dumpItems n [] ++ r) (by
      have : 0 < (dumpItems n []).length := by unfold dumpItems newline; simp
      omega) (dumpItems_stop _ _ _)
    unfold pItems
    rw [hx]
    dsimp only
    have : skipWs (dumpItems n [] ++ r) = ']' :: r := by
      unfold dumpItems
      rw [List.append_assoc]
      exact skipWs_newline n (skipWs_cons (by decide))
    rw [this, if_neg (by simp), if_pos (by simp)]
    rfl
  | x, y :: ys, fuel + 1, r, h, hf => by
    have hlen : (dumpItems n (y :: ys)).length =
        1 + (newline (n + 1)).length + ((dump (n + 1) y).length + (dumpItems n ys).length) := by
      conv_lhs => unfold dumpItems
      simp; omega
    have hx := (h x (by simp)).1 (n + 1) fuel (dumpItems n (y :: ys) ++ r) (by omega) (dumpItems_stop _ _ _)
    unfold pItems
    rw [hx]
    dsimp only
    have : skipWs (dumpItems n (y :: ys) ++ r) =
        ',' :: (newline (n + 1) ++ (dump (n + 1) y ++ (dumpItems n ys ++ r))) := by
      conv_lhs => unfold dumpItems
      simp only [List.cons_append, List.append_assoc]
      exact skipWs_cons (by decide)
    rw [this, if_pos (by simp), List.tail_cons, skipWs_newline _ (skipWs_dump (h y (by simp)).2 _ _),
      reads_items n y ys fuel r (fun z hz => h z (by simp only [List.mem_cons] at hz ⊢; exact Or.inr hz)) (by omega)]

theorem reads_pairs (n : Nat) : ∀ (k : Str) (x : Json) (xs : List (Str × Json)) (fuel : Nat) (r : Str),
    (∀ y ∈ (k, x) :: xs, Reads y.2 ∧ y.2.Writable) →
    2 * ((quote k).length + 2 + (dump (n + 1) x).length + (dumpPairs n xs).length) ≤ fuel →
    pPairs fuel (quote k ++ (c!": " ++ (dump (n + 1) x ++ (dumpPairs n xs ++ r)))) = some ((k, x) :: xs, r)
  | k, x, xs, 0, r, h, hf => by omega
  | k, x, xs, fuel + 1, r, h, hf => by
    unfold pPairs
    rw [quote_append, if_neg (by simp), List.tail_cons, pString_quote]
    dsimp only [List.cons_append, List.nil_append]
    rw [skipWs_cons (c := ':') (by decide), if_neg (by simp), List.tail_cons]
    have : skipWs (' ' :: (dump (n + 1) x ++ (dumpPairs n xs ++ r))) = dump (n + 1) x ++ (dumpPairs n xs ++ r) := by
      have h1 := skipWs_dump (h (k, x) (by simp)).2 (n + 1) (dumpPairs n xs ++ r)
      unfold skipWs at h1 ⊢
      rw [List.dropWhile_cons_of_pos (by decide)]
      exact h1
    rw [this, (h (k, x) (by simp)).1 (n + 1) fuel (dumpPairs n xs ++ r) (by dsimp only; omega) (dumpPairs_stop _ _ _)]
    dsimp only
    cases xs with
    | nil =>
      have : skipWs (dumpPairs n [] ++ r) = '}' :: r := by
        unfold dumpPairs
        rw [List.append_assoc]
        exact skipWs_newline n (skipWs_cons (by decide))
      rw [this, if_neg (by simp), if_pos (by simp)]
      rfl
    | cons y ys =>
      obtain ⟨k', y⟩ := y
      have hlen : (dumpPairs n ((k', y) :: ys)).length =
          1 + (newline (n + 1)).length + ((quote k').length + 2 + (dump (n + 1) y).length + (dumpPairs n ys).length) := by
        conv_lhs => unfold dumpPairs
        simp; omega
      have : skipWs (dumpPairs n ((k', y) :: ys) ++ r) =
          ',' :: (newline (n + 1) ++ (quote k' ++ (c!": " ++ (dump (n + 1) y ++ (dumpPairs n ys ++ r))))) := by
        conv_lhs => unfold dumpPairs
        simp only [List.cons_append, List.append_assoc, List.nil_append]
        exact skipWs_cons (by decide)
      rw [this, if_pos (by simp), List.tail_cons, skipWs_newline _ (by rw [quote_append]; exact skipWs_cons (by decide)),
        reads_pairs n k' y ys fuel r (fun z hz => h z (by simp only [List.mem_cons] at hz ⊢; exact Or.inr hz)) (by omega)]

theorem foldl_set (d : List (Str × Json)) (acc : List (Str × Json)) (h : Dict.NK (acc ++ d)) :
    d.foldl (fun d e => Dict.set d e.1 e.2) acc = acc ++ d := by
  induction d generalizing acc with
  | nil => simp
  | cons e d ih =>
    rw [List.foldl_cons]
    have hset : Dict.set acc e.1 e.2 = acc ++ [e] := by
      have hnot : e.1 ∉ acc.map Prod.fst := by
        intro hm
        unfold Dict.NK at h
        rw [List.map_append, List.nodup_append] at h
        exact h.2.2 _ hm _ (by simp) rfl
      clear ih h
      induction acc with
      | nil => rfl
      | cons a acc ih =>
        obtain ⟨k, v⟩ := a
        simp only [List.map_cons, List.mem_cons, not_or] at hnot
        unfold Dict.set
        rw [if_neg (fun h => hnot.1 h.symm), ih hnot.2]
        rfl
    rw [hset, ih _ (by rw [List.append_assoc]; exact h), List.append_assoc]
    rfl

theorem reads {j : Json} (h : j.Writable) : Reads j := by
  induction h with
  | null =>
    intro n fuel r hf _
    unfold dump at hf ⊢
    cases fuel with
    | zero => simp at hf
    | succ fuel => unfold pValue; rfl
  | @bool b =>
    intro n fuel r hf _
    cases b
    · unfold dump at hf ⊢
      cases fuel with
      | zero => simp at hf
      | succ fuel => unfold pValue; rfl
    · unfold dump at hf ⊢
      cases fuel with
      | zero => simp at hf
      | succ fuel => unfold pValue; rfl
  | @num k =>
    intro n fuel r hf hr
    unfold dump at hf ⊢
    obtain ⟨c, d, h1, h2⟩ := natStr_first (n := k)
    have hnum := pNumber_natStr k hr
    rw [h1] at hf hnum ⊢
    cases fuel with
    | zero => simp at hf
    | succ fuel =>
      rw [List.cons_append] at hnum ⊢
      unfold pValue
      have hc : ∀ x : Char, x.isDigit = false → c ≠ x := by
        rintro x hx rfl
        rw [h2] at hx; cases hx
      have hpre : ∀ (x : Char) (w : Str), x.isDigit = false → ¬ ((x :: w).isPrefixOf (c :: (d ++ r)) = true) := by
        intro x w hx hp
        rw [List.isPrefixOf_iff_prefix, List.cons_prefix_cons] at hp
        exact hc x hx hp.1.symm
      rw [if_neg (hc _ (by decide)), if_neg (hc _ (by decide)), if_neg (hc _ (by decide))]
      unfold pAtom
      rw [if_neg (hpre _ _ (by decide)), if_neg (hpre _ _ (by decide)), if_neg (hpre _ _ (by decide)), hnum]
      rfl
  | @str s =>
    intro n fuel r hf _
    unfold dump at hf ⊢
    cases fuel with
    | zero => unfold quote at hf; simp at hf
    | succ fuel =>
      rw [quote_append]
      unfold pValue
      rw [if_pos rfl, pString_quote]
      rfl
  | @arr l hl ih =>
    intro n fuel r hf _
    cases fuel with
    | zero =>
      have := dump_length_pos (.arr hl) n
      omega
    | succ fuel =>
      cases l with
      | nil => unfold dump pValue; rfl
      | cons x xs =>
        have hd : dump n (.arr (x :: xs)) = '[' :: (newline (n + 1) ++ (dump (n + 1) x ++ dumpItems n xs)) := by
          conv_lhs => unfold dump
          simp
        rw [hd] at hf ⊢
        simp only [List.length_cons, List.length_append] at hf
        obtain ⟨c, t, h1, h2, h3, h4⟩ := dump_first (hl x (by simp)) (n + 1)
        have hsk : skipWs (newline (n + 1) ++ (dump (n + 1) x ++ (dumpItems n xs ++ r))) = dump (n + 1) x ++ (dumpItems n xs ++ r) :=
          skipWs_newline _ (skipWs_dump (hl x (by simp)) _ _)
        simp only [List.cons_append, List.append_assoc]
        unfold pValue
        rw [if_neg (by decide), if_pos rfl, hsk, if_neg (by rw [h1]; simp [h3]),
          reads_items n x xs fuel r (fun y hy => ⟨ih y hy, hl y hy⟩) (by omega)]
        rfl
  | @obj d hnk hd ih =>
    intro n fuel r hf _
    cases fuel with
    | zero =>
      have := dump_length_pos (.obj hnk hd) n
      omega
    | succ fuel =>
      cases d with
      | nil => unfold dump pValue; rfl
      | cons x xs =>
        obtain ⟨k, x⟩ := x
        have hd' : dump n (.obj ((k, x) :: xs)) =
            '{' :: (newline (n + 1) ++ (quote k ++ (c!": " ++ (dump (n + 1) x ++ dumpPairs n xs)))) := by
          conv_lhs => unfold dump
          simp
        rw [hd'] at hf ⊢
        simp only [List.length_cons, List.length_append, List.length_nil] at hf
        have hsk : ∀ t, skipWs (newline (n + 1) ++ (quote k ++ t)) = quote k ++ t := by
          intro t
          exact skipWs_newline _ (by rw [quote_append]; exact skipWs_cons (by decide))
        simp only [List.cons_append, List.append_assoc]
        unfold pValue
        rw [if_neg (by decide), if_neg (by decide), if_pos rfl, hsk, if_neg (by unfold quote; simp)]
        have := reads_pairs n k x xs fuel r (fun y hy => ⟨ih y hy, hd y hy⟩) (by omega)
        simp only [List.cons_append, List.nil_append] at this ⊢
        rw [this]
        dsimp only [Option.map_some]
        rw [foldl_set _ [] hnk]
        rfl

theorem load_dump {j : Json} (h : j.Writable) : load (dump 0 j) = some j := by
  unfold load
  have hs := skipWs_dump h 0 []
  rw [List.append_nil] at hs
  have := reads h 0 (2 * (dump 0 j).length + 1) [] (by omega) (Or.inl rfl)
  rw [List.append_nil] at this
  rw [hs, this]
  rfl

/-! ## No carriage return -/

theorem escape_noCR (c : Char) : '\r' ∉ escape c := by
  have hhex : ∀ k : Fin 16, Nat.digitChar k.1 ≠ '\r' := by decide
  unfold escape
  repeat' split
  all_goals first
    | decide
    | skip
  · rename_i h _ _ _ _
    simp only [List.mem_singleton]
    exact fun hc => h hc.symm
  · intro hm
    obtain ⟨u, _, hu⟩ := List.mem_flatMap.mp hm
    unfold hex4 at hu
    simp only [List.mem_cons, List.not_mem_nil, or_false] at hu
    rcases hu with h | h | h | h | h | h
    · exact absurd h (by decide)
    · exact absurd h (by decide)
    · exact hhex ⟨_, Nat.mod_lt _ (by decide)⟩ h.symm
    · exact hhex ⟨_, Nat.mod_lt _ (by decide)⟩ h.symm
    · exact hhex ⟨_, Nat.mod_lt _ (by decide)⟩ h.symm
    · exact hhex ⟨_, Nat.mod_lt _ (by decide)⟩ h.symm

theorem quote_noCR (s : Str) : '\r' ∉ quote s := by
  unfold quote
  intro h
  simp only [List.mem_cons, List.mem_append, List.mem_flatMap, List.not_mem_nil, or_false, List.cons_append] at h
  rcases h with h | ⟨c, _, h⟩ | h
  · exact absurd h (by decide)
  · exact escape_noCR c h
  · exact absurd h (by decide)

theorem newline_noCR (n : Nat) : '\r' ∉ newline n := by
  unfold newline
  intro h
  rcases List.mem_cons.mp h with h | h
  · exact absurd h (by decide)
  · exact absurd (List.eq_of_mem_replicate h) (by decide)

theorem dumpItems_noCR (n : Nat) (l : List Json) (h : ∀ x ∈ l, ∀ n, '\r' ∉ dump n x) : '\r' ∉ dumpItems n l := by
  induction l with
  | nil => unfold dumpItems; simp [newline_noCR]
  | cons x xs ih =>
    unfold dumpItems
    simp [newline_noCR, h x (by simp), ih (fun y hy => h y (by simp [hy]))]

theorem dumpPairs_noCR (n : Nat) (l : List (Str × Json)) (h : ∀ x ∈ l, ∀ n, '\r' ∉ dump n x.2) : '\r' ∉ dumpPairs n l := by
  induction l with
  | nil => unfold dumpPairs; simp [newline_noCR]
  | cons x xs ih =>
    obtain ⟨k, x⟩ := x
    unfold dumpPairs
    simp [newline_noCR, quote_noCR, h (k, x) (by simp), ih (fun y hy => h y (by simp [hy]))]

theorem dump_noCR {j : Json} (h : j.Writable) : ∀ n, '\r' ∉ dump n j := by
  induction h with
  | null => intro n; unfold dump; decide
  | @bool b => intro n; cases b <;> (unfold dump; decide)
  | @num k =>
    intro n hm
    unfold dump at hm
    exact absurd (natStr_isDigit hm) (by decide)
  | str => intro n; unfold dump; exact quote_noCR _
  | @arr l hl ih =>
    intro n
    cases l with
    | nil => unfold dump; simp
    | cons x xs =>
      unfold dump
      simp [newline_noCR, ih x (by simp), dumpItems_noCR n xs (fun y hy => ih y (by simp [hy]))]
  | @obj d _ hd ih =>
    intro n
    cases d with
    | nil => unfold dump; simp
    | cons x xs =>
      obtain ⟨k, x⟩ := x
      unfold dump
      simp [newline_noCR, quote_noCR, ih (k, x) (by simp), dumpPairs_noCR n xs (fun y hy => ih y (by simp [hy]))]

/-! ## Objects are dictionaries -/

theorem foldl_set_wf (d acc : List (Str × Json)) (hd : ∀ p ∈ d, p.2.WF) (hnk : Dict.NK acc) (ha : ∀ p ∈ acc, p.2.WF) :
    (Json.obj (d.foldl (fun d e => Dict.set d e.1 e.2) acc)).WF := by
  induction d generalizing acc with
  | nil => exact .obj hnk ha
  | cons e d ih =>
    rw [List.foldl_cons]
    refine ih _ (fun p hp => hd p (by simp [hp])) (Dict.NK_set hnk _ _) (fun p hp => ?_)
    rcases (Dict.mem_set hnk).mp hp with h | h
    · rw [h]; exact hd e (by simp)
    · exact ha p h.2

mutual
  theorem pValue_wf : ∀ (n : Nat) (s : Str) (j : Json) (r : Str), pValue n s = some (j, r) → j.WF
    | 0, s, j, r, h => by unfold pValue at h; cases h
    | n + 1, [], j, r, h => by unfold pValue at h; cases h
    | n + 1, c :: t, j, r, h => by
      unfold pValue at h
      split at h
      · cases hp : pString t with
        | none => rw [hp] at h; cases h
        | some p => rw [hp] at h; cases h; exact .str
      split at h
      · split at h
        · cases h; exact .arr (by simp)
        · cases hp : pItems n (skipWs t) with
          | none => rw [hp] at h; cases h
          | some p => rw [hp] at h; cases h; exact .arr (pItems_wf n _ _ p.2 hp)
      split at h
      · split at h
        · cases h; exact .obj (by simp [Dict.NK]) (by simp)
        · cases hp : pPairs n (skipWs t) with
          | none => rw [hp] at h; cases h
          | some p =>
            rw [hp] at h; cases h
            exact foldl_set_wf _ _ (pPairs_wf n _ _ p.2 hp) (by simp [Dict.NK]) (by simp)
      · unfold pAtom at h
        split at h
        · cases h; exact .null
        split at h
        · cases h; exact .bool
        split at h
        · cases h; exact .bool
        · cases hp : pNumber (c :: t) with
          | none => rw [hp] at h; cases h
          | some p => rw [hp] at h; cases h; exact .num
  theorem pItems_wf : ∀ (n : Nat) (s : Str) (l : List Json) (r : Str), pItems n s = some (l, r) → ∀ x ∈ l, x.WF
    | 0, s, l, r, h => by unfold pItems at h; cases h
    | n + 1, s, l, r, h => by
      unfold pItems at h
      cases hp : pValue n s with
      | none => rw [hp] at h; cases h
      | some p =>
        obtain ⟨x, t⟩ := p
        have hx := pValue_wf n s x t hp
        rw [hp] at h
        dsimp only at h
        split at h
        · cases hq : pItems n (skipWs (skipWs t).tail) with
          | none => rw [hq] at h; cases h
          | some q =>
            obtain ⟨xs, u⟩ := q
            rw [hq] at h
            cases h
            intro y hy
            rcases List.mem_cons.mp hy with rfl | hy
            · exact hx
            · exact pItems_wf n _ xs _ hq y hy
        · split at h
          · cases h
            intro y hy
            rw [List.mem_singleton.mp hy]; exact hx
          · cases h
  theorem pPairs_wf : ∀ (n : Nat) (s : Str) (l : List (Str × Json)) (r : Str), pPairs n s = some (l, r) → ∀ x ∈ l, x.2.WF
    | 0, s, l, r, h => by unfold pPairs at h; cases h
    | n + 1, s, l, r, h => by
      unfold pPairs at h
      split at h
      · cases h
      cases hk : pString s.tail with
      | none => rw [hk] at h; cases h
      | some p =>
        obtain ⟨k, r1⟩ := p
        rw [hk] at h
        dsimp only at h
        split at h
        · cases h
        cases hp : pValue n (skipWs (skipWs r1).tail) with
        | none => rw [hp] at h; cases h
        | some p =>
          obtain ⟨x, t⟩ := p
          have hx := pValue_wf n _ x t hp
          rw [hp] at h
          dsimp only at h
          split at h
          · cases hq : pPairs n (skipWs (skipWs t).tail) with
            | none => rw [hq] at h; cases h
            | some q =>
              obtain ⟨xs, u⟩ := q
              rw [hq] at h
              cases h
              intro y hy
              rcases List.mem_cons.mp hy with rfl | hy
              · exact hx
              · exact pPairs_wf n _ xs _ hq y hy
          · split at h
            · cases h
              intro y hy
              rw [List.mem_singleton.mp hy]; exact hx
            · cases h
end

theorem load_wf {s : Str} {j : Json} (h : load s = some j) : j.WF := by
  unfold load at h
  cases hp : pValue (2 * s.length + 1) (skipWs s) with
  | none => rw [hp] at h; cases h
  | some p =>
    rw [hp] at h
    dsimp only at h
    split at h
    · cases h; exact pValue_wf _ _ _ p.2 hp
    · cases h

end PyJson

/-- The laws assumed of `json` are those of a library that exists. -/
theorem pyJson_lawful : pyJson.Lawful where
  loads _ h := PyJson.load_dump h
  loadb j h := by
    show (utf8Decode (utf8 (PyJson.dump 0 j))).bind PyJson.load = some j
    rw [utf8Decode_utf8]
    exact PyJson.load_dump h
  noCR j h := PyJson.dump_noCR h 0
  wf _ _ h := PyJson.load_wf h

end Ocfl
