import Verif.Proofs.InventorySpec

/-!
# Digest and type strings: the checks of the code and the specification
-/

namespace Ocfl
open IV V Spec

/-! ## Digests -/

theorem isHexAny_spec {c : Char} : isHexAny c = true ↔ Hex c := by
  rw [isHexAny_iff]
  unfold Hex
  constructor
  · intro h
    have : c.toNat ∈ [48,49,50,51,52,53,54,55,56,57,97,98,99,100,101,102,65,66,67,68,69,70] := by
      simp only [List.mem_cons, List.not_mem_nil, or_false]; omega
    simp only [List.mem_cons, List.not_mem_nil, or_false] at this ⊢
    rcases this with h | h | h | h | h | h | h | h | h | h | h | h | h | h | h | h | h | h | h | h | h | h <;>
      simp [char_toNat_inj (c := c) (d := Char.ofNat _) (h.trans (ofNat_toNat_small (by omega)).symm)]
  · intro h
    simp only [List.mem_cons, List.not_mem_nil, or_false] at h
    rcases h with h | h | h | h | h | h | h | h | h | h | h | h | h | h | h | h | h | h | h | h | h | h <;>
      subst h <;> decide

theorem isHexLower_spec {c : Char} : isHexLower c = true ↔ HexLower c := by
  rw [isHexLower_iff]
  unfold HexLower
  constructor
  · intro h
    have : c.toNat ∈ [48,49,50,51,52,53,54,55,56,57,97,98,99,100,101,102] := by
      simp only [List.mem_cons, List.not_mem_nil, or_false]; omega
    simp only [List.mem_cons, List.not_mem_nil, or_false] at this ⊢
    rcases this with h | h | h | h | h | h | h | h | h | h | h | h | h | h | h | h <;>
      simp [char_toNat_inj (c := c) (d := Char.ofNat _) (h.trans (ofNat_toNat_small (by omega)).symm)]
  · intro h
    simp only [List.mem_cons, List.not_mem_nil, or_false] at h
    rcases h with h | h | h | h | h | h | h | h | h | h | h | h | h | h | h | h <;>
      subst h <;> decide

/-- A pattern for a fixed number of characters and then `$`. -/
theorem fixed_dollar (n : Nat) (P : Str → Prop) (s : Str) :
    ((s.take n).length = n ∧ P (s.take n) ∧ atDollar (s.drop n) = true) ↔
      (s.length = n ∧ P s) ∨ ∃ d, s = d ++ ['\n'] ∧ d.length = n ∧ P d := by
  constructor
  · rintro ⟨h1, h2, h3⟩
    rw [atDollar_iff] at h3
    have e := List.take_append_drop n s
    rcases h3 with h3 | h3
    · rw [h3, List.append_nil] at e
      rw [e] at h1 h2
      exact Or.inl ⟨h1, h2⟩
    · rw [h3] at e
      exact Or.inr ⟨_, e.symm, h1, h2⟩
  · rintro (⟨h1, h2⟩ | ⟨d, rfl, h1, h2⟩)
    · subst h1
      rw [List.take_length, List.drop_length]
      exact ⟨rfl, h2, rfl⟩
    · subst h1
      rw [List.take_left, List.drop_left]
      exact ⟨rfl, h2, rfl⟩

theorem matchHex_iff {n : Nat} {s : Str} :
    matchHex n s = true ↔ (s.length = n ∧ ∀ c ∈ s, Hex c) ∨ ∃ d, s = d ++ ['\n'] ∧ d.length = n ∧ ∀ c ∈ d, Hex c := by
  unfold matchHex
  rw [Bool.and_eq_true, Bool.and_eq_true, decide_eq_true_eq, List.all_eq_true, and_assoc,
    fixed_dollar n (fun s => ∀ c ∈ s, isHexAny c = true)]
  simp only [isHexAny_spec]

/-- The abbreviated digests of the specification's examples. -/
def SpecExForm (d : Str) : Prop :=
  ∃ a b, d = a ++ c!"..." ++ b ∧ a.length = 6 ∧ b.length = 3 ∧ ∀ c ∈ a ++ b, HexLower c

theorem specEx_form {d : Str} (h : d.length = 12) :
    ((d.take 6).all isHexLower = true ∧ (d.drop 6).take 3 = c!"..." ∧ ((d.drop 9).take 3).all isHexLower = true) ↔
      SpecExForm d := by
  unfold SpecExForm
  have hd : d = d.take 6 ++ (d.drop 6).take 3 ++ (d.drop 9).take 3 := by
    have e1 := List.take_append_drop 6 d
    have e2 := List.take_append_drop 3 (d.drop 6)
    rw [List.drop_drop] at e2
    have e3 : (d.drop 9).take 3 = d.drop 9 := List.take_of_length_le (by rw [List.length_drop]; omega)
    rw [e3, List.append_assoc, e2, e1]
  constructor
  · rintro ⟨h1, h2, h3⟩
    rw [h2] at hd
    refine ⟨d.take 6, (d.drop 9).take 3, hd, by rw [List.length_take]; omega,
      by rw [List.length_take, List.length_drop]; omega, ?_⟩
    intro c hc
    rw [← isHexLower_spec]
    rcases List.mem_append.mp hc with hc | hc
    · exact List.all_eq_true.mp h1 c hc
    · exact List.all_eq_true.mp h3 c hc
  · rintro ⟨a, b, rfl, ha, hb, hc⟩
    have e1 : (a ++ c!"..." ++ b).take 6 = a := by
      rw [← ha, List.append_assoc, List.take_left]
    have e2 : (a ++ c!"..." ++ b).drop 6 = c!"..." ++ b := by
      rw [← ha, List.append_assoc, List.drop_left]
    have e3 : (a ++ c!"..." ++ b).drop 9 = b := by
      rw [show 9 = (a ++ c!"...").length by rw [List.length_append, ha]; rfl, List.drop_left]
    rw [e1, e2, e3]
    refine ⟨List.all_eq_true.mpr fun c h => isHexLower_spec.mpr (hc c (List.mem_append_left _ h)), rfl,
      List.all_eq_true.mpr fun c h => isHexLower_spec.mpr (hc c (List.mem_append_right _ (List.mem_of_mem_take h)))⟩

theorem specEx_length {d : Str} (h : SpecExForm d) : d.length = 12 := by
  obtain ⟨a, b, rfl, ha, hb, _⟩ := h
  simp [ha, hb]

theorem matchSpecEx_iff {s : Str} : matchSpecEx s = true ↔ SpecExForm s ∨ ∃ d, s = d ++ ['\n'] ∧ SpecExForm d := by
  have step : matchSpecEx s = true ↔ ((s.take 12).length = 12 ∧
      ((s.take 12).length = 12 ∧ ((s.take 12).take 6).all isHexLower = true ∧ ((s.take 12).drop 6).take 3 = c!"..." ∧
        (((s.take 12).drop 9).take 3).all isHexLower = true) ∧ atDollar (s.drop 12) = true) := by
    unfold matchSpecEx
    simp only [Bool.and_eq_true, decide_eq_true_eq, List.take_take, List.drop_take]
    simp only [show min 6 12 = 6 from rfl, show min 3 (12 - 6) = 3 from rfl, show min 3 (12 - 9) = 3 from rfl]
    tauto
  rw [step, fixed_dollar 12 (fun d => d.length = 12 ∧ (d.take 6).all isHexLower = true ∧ (d.drop 6).take 3 = c!"..." ∧
        ((d.drop 9).take 3).all isHexLower = true)]
  constructor
  · rintro (⟨_, h, h'⟩ | ⟨d, rfl, _, h, h'⟩)
    · exact Or.inl ((specEx_form h).mp h')
    · exact Or.inr ⟨d, rfl, (specEx_form h).mp h'⟩
  · rintro (h | ⟨d, rfl, h⟩)
    · exact Or.inl ⟨specEx_length h, specEx_length h, (specEx_form (specEx_length h)).mpr h⟩
    · exact Or.inr ⟨d, rfl, specEx_length h, specEx_length h, (specEx_form (specEx_length h)).mpr h⟩

theorem matchAny_iff {s : Str} : matchAny s = true ↔ '\n' ∉ s ∨ ∃ d, s = d ++ ['\n'] ∧ '\n' ∉ d := by
  unfold matchAny
  rw [atDollar_iff]
  constructor
  · intro h
    have e := List.takeWhile_append_dropWhile (p := fun c => decide (c ≠ '\n')) (l := s)
    have hn : '\n' ∉ s.takeWhile (fun c => decide (c ≠ '\n')) := fun hm => by simpa using List.mem_takeWhile_imp hm
    rcases h with h | h
    · rw [h, List.append_nil] at e
      rw [e] at hn
      exact Or.inl hn
    · rw [h] at e
      exact Or.inr ⟨_, e.symm, hn⟩
  · rintro (h | ⟨d, rfl, h⟩)
    · exact Or.inl (takeWhile_all (all_ne h)).2
    · exact Or.inr (takeWhile_append_stop (all_ne h) (by simp)).2

theorem hexLength_not_caseSensitive {alg : Str} {n : Nat} (h : hexLength alg = some n) : ¬ CaseSensitive alg := by
  rintro (rfl | rfl) <;> simp [hexLength] at h

theorem digestRegex_hex {alg : Str} {n : Nat} (h : hexLength alg = some n) : digestRegex alg = some (matchHex n) := by
  unfold hexLength at h
  split at h
  · rename_i ha; cases h; rcases ha with rfl | rfl <;> rfl
  split at h
  · rename_i ha; cases h; subst ha; rfl
  split at h
  · rename_i ha; cases h; rcases ha with rfl | rfl <;> rfl
  split at h
  · rename_i ha; cases h; rcases ha with rfl | rfl <;> rfl
  split at h
  · rename_i ha; cases h; subst ha; rfl
  · cases h

theorem digestRegex_specEx {alg : Str} (h : CaseSensitive alg) : digestRegex alg = some matchSpecEx := by
  rcases h with rfl | rfl <;> rfl

theorem digestRegex_unknown {alg : Str} (h : ¬ KnownAlg alg) : digestRegex alg = none := by
  unfold KnownAlg at h
  rw [not_or] at h
  obtain ⟨h1, h2⟩ := h
  unfold CaseSensitive at h2
  rw [not_or] at h2
  unfold hexLength at h1
  unfold digestRegex
  split at h1
  · simp at h1
  split at h1
  · simp at h1
  split at h1
  · simp at h1
  split at h1
  · simp at h1
  split at h1
  · simp at h1
  simp_all

theorem digestRegex_isSome {alg : Str} : (digestRegex alg).isSome = true ↔ KnownAlg alg := by
  constructor
  · intro h
    by_contra hn
    rw [digestRegex_unknown hn] at h
    cases h
  · rintro (h | h)
    · obtain ⟨n, hn⟩ := Option.isSome_iff_exists.mp h
      rw [digestRegex_hex hn]; rfl
    · rw [digestRegex_specEx h]; rfl

theorem digestTest_iff {alg d : Str} : digestTest alg d = true ↔ DigestText alg d := by
  unfold digestTest DigestText
  by_cases hk : KnownAlg alg
  · rcases id hk with h | h
    · obtain ⟨n, hn⟩ := Option.isSome_iff_exists.mp h
      have hf : ∀ x, DigestForm alg x ↔ (x.length = n ∧ ∀ c ∈ x, Hex c) := by
        intro x
        unfold DigestForm
        constructor
        · exact fun h => h.1 n hn
        · intro h
          refine ⟨fun m hm => ?_, fun hc => absurd hc (hexLength_not_caseSensitive hn), fun hn => absurd hk hn⟩
          rw [hn, Option.some.injEq] at hm
          subst hm
          exact h
      simp only [hf]
      rw [digestRegex_hex hn, Option.getD_some, matchHex_iff]
    · have hf : ∀ x, DigestForm alg x ↔ SpecExForm x := by
        intro x
        unfold DigestForm
        constructor
        · exact fun h' => h'.2.1 h
        · exact fun h' => ⟨fun m hm => absurd h (hexLength_not_caseSensitive hm), fun _ => h', fun hn => absurd hk hn⟩
      simp only [hf]
      rw [digestRegex_specEx h, Option.getD_some, matchSpecEx_iff]
  · have hf : ∀ x, DigestForm alg x ↔ '\n' ∉ x := by
      intro x
      unfold DigestForm
      constructor
      · exact fun h => h.2.2 hk
      · exact fun h => ⟨fun m hm => absurd (Or.inl (by rw [hm]; rfl)) hk, fun hc => absurd (Or.inr hc) hk, fun _ => h⟩
    simp only [hf]
    rw [digestRegex_unknown hk, Option.getD_none, matchAny_iff]

theorem sameDigest_iff {alg d d' : Str} : SameDigest alg d d' ↔ normalizedDigest d alg = normalizedDigest d' alg := by
  unfold SameDigest
  by_cases h : CaseSensitive alg
  · rw [C05_case_sensitive d alg h, C05_case_sensitive d' alg h]
    exact ⟨fun h' => h'.1 h, fun h' => ⟨fun _ => h', fun hn => absurd h hn⟩⟩
  · rw [C05_identifies d d' alg h]
    exact ⟨fun h' => h'.2 h, fun h' => ⟨fun hc => absurd hc h, fun _ => h'⟩⟩

/-! ## The type -/

theorem matchSpecGroup_supported {s v : Str} (hv : v ∈ supported) :
    Inv.matchSpecGroup s = some v ↔ ∃ rest, s = v ++ c!"/spec/#inventory" ++ rest := by
  have hd1 : isDigit '1' = true := by decide
  have hd0 : isDigit '0' = true := by decide
  have hdot : isDigit '.' = false := by decide
  constructor
  · intro h
    unfold Inv.matchSpecGroup at h
    simp only at h
    have e := List.takeWhile_append_dropWhile (p := isDigit) (l := s)
    split at h
    · rename_i hc
      rw [Option.some.injEq] at h
      have : '.' ∈ s.takeWhile isDigit := by
        rw [h]
        simp only [supported, List.mem_cons, List.not_mem_nil, or_false] at hv
        rcases hv with rfl | rfl <;> simp
      have := List.mem_takeWhile_imp this
      rw [hdot] at this
      cases this
    · split at h
      · rename_i c d rest' hr
        split at h
        · rename_i hc
          rw [Option.some.injEq] at h
          obtain ⟨t, ht⟩ := startsWith_iff.mp hc.2.2.2
          refine ⟨t, ?_⟩
          rw [hr, ht] at e
          rw [← e, ← h]
          simp
        · cases h
      · cases h
  · rintro ⟨rest, rfl⟩
    simp only [supported, List.mem_cons, List.not_mem_nil, or_false] at hv
    rcases hv with rfl | rfl <;>
      simp [Inv.matchSpecGroup, hd1, hd0, hdot, List.takeWhile, List.dropWhile, startsWith, List.isPrefixOf]

theorem matchSpecVersion_supported {t v : Str} (hv : v ∈ supported) :
    Inv.matchSpecVersion t = some v ↔
      ∃ c rest, c ≠ '\n' ∧ t = c!"https://ocfl" ++ [c] ++ c!"io/" ++ v ++ c!"/spec/#inventory" ++ rest := by
  unfold Inv.matchSpecVersion
  constructor
  · intro h
    split at h
    · rename_i hs
      obtain ⟨u, rfl⟩ := startsWith_iff.mp hs
      have hdrop : (c!"https://ocfl" ++ u).drop 12 = u := rfl
      rw [hdrop] at h
      cases u with
      | nil => cases h
      | cons c r =>
        simp only at h
        split at h
        · rename_i hc
          obtain ⟨w, rfl⟩ := startsWith_iff.mp hc.2
          have hdrop : (c!"io/" ++ w).drop 3 = w := rfl
          rw [hdrop] at h
          obtain ⟨rest, rfl⟩ := (matchSpecGroup_supported hv).mp h
          exact ⟨c, rest, hc.1, by simp⟩
        · cases h
    · cases h
  · rintro ⟨c, rest, hc, rfl⟩
    have e : c!"https://ocfl" ++ [c] ++ c!"io/" ++ v ++ c!"/spec/#inventory" ++ rest =
        c!"https://ocfl" ++ (c :: (c!"io/" ++ (v ++ c!"/spec/#inventory" ++ rest))) := by simp
    rw [e, if_pos (startsWith_append _ _)]
    have hdrop : (c!"https://ocfl" ++ (c :: (c!"io/" ++ (v ++ c!"/spec/#inventory" ++ rest)))).drop 12 =
      c :: (c!"io/" ++ (v ++ c!"/spec/#inventory" ++ rest)) := rfl
    rw [hdrop]
    simp only
    rw [if_pos ⟨hc, startsWith_append _ _⟩]
    have hdrop : (c!"io/" ++ (v ++ c!"/spec/#inventory" ++ rest)).drop 3 = v ++ c!"/spec/#inventory" ++ rest := rfl
    rw [hdrop, matchSpecGroup_supported hv]
    exact ⟨rest, rfl⟩

theorem typeRule_iff {force : Option Str} {t : Str} :
    TypeRule force t ↔
      (force.getD [] ≠ [] → t = c!"https://ocfl.io/" ++ force.getD [] ++ c!"/spec/#inventory") ∧
        ∃ v, Inv.matchSpecVersion t = some v ∧ v ∈ specVersionsSupported := by
  unfold TypeRule typeUri
  refine and_congr ?_ ?_
  · cases force with
    | none => simp
    | some f => simp
  · constructor
    · rintro ⟨c, v, rest, hc, hv, ht⟩
      exact ⟨v, (matchSpecVersion_supported hv).mpr ⟨c, rest, hc, ht⟩, hv⟩
    · rintro ⟨v, h, hv⟩
      obtain ⟨c, rest, hc, ht⟩ := (matchSpecVersion_supported hv).mp h
      exact ⟨c, v, rest, hc, hv, ht⟩

end Ocfl
