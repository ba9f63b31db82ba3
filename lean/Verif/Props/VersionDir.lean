import Verif.Proofs.VersionDir

/-!
# C01, C02, C04: version directory names and unused file paths
-/

namespace Ocfl

open Spec

/-- **C01.** Complete description of `next_version_directory`. If `d` spells version `n` with
the digits `ds` then a padded name (first digit zero) goes to version `n+1` at the same
length when the number still fits behind one leading zero and raises otherwise; an unpadded
name goes to the unpadded name of `n+1`. Any other string raises. -/
theorem C01_next_version_directory (d : Str) :
    (∀ ds n, Spells d ds n →
      nextVersionDirectory d =
        if ds.head? = some '0' then
          (if n + 1 < 10 ^ (d.length - 2) then .ok (paddedName (d.length - 1) (n + 1))
           else .error .objectException)
        else .ok (unpaddedName (n + 1))) ∧
    ((¬ ∃ ds n, Spells d ds n) → nextVersionDirectory d = .error .objectException) := by
  constructor
  · intro ds n h
    have hm := spells_match h
    have hv := spells_val h
    subst hv
    unfold nextVersionDirectory
    rw [hm]
    simp only
    by_cases h0 : ds.head? = some '0'
    · rw [if_pos h0, if_pos h0]
      have hlen : 2 ≤ d.length := by
        have hne := h.1
        have h1 : 0 < ds.length := List.length_pos_iff.mpr hne
        rcases h.2.2.2 with rfl | rfl <;> simp <;> omega
      by_cases hk : d.length - 2 = 0
      · rw [hk]
        have hn : (natStr (intOf ds + 1)).length ≠ 0 := by
          have := natStr_ne_nil (intOf ds + 1)
          simpa using this
        have hp : (padStr 0 (intOf ds + 1)).length = (natStr (intOf ds + 1)).length := by
          simp [padStr]
        rw [if_pos, if_neg]
        · simp
        · simp [hp]; omega
      · by_cases hfit : intOf ds + 1 < 10 ^ (d.length - 2)
        · have hle := (natStr_length_le_iff (n := intOf ds + 1) (k := d.length - 2) (by omega)).mpr hfit
          rw [if_neg, if_pos hfit]
          · congr 1
            rw [paddedName_eq]
            unfold padStr
            have : d.length - 1 - (natStr (intOf ds + 1)).length
                = (d.length - 2 - (natStr (intOf ds + 1)).length) + 1 := by omega
            rw [this, List.replicate_succ]
            rfl
          · simp [padStr_length hle]; omega
        · have hgt : ¬ (natStr (intOf ds + 1)).length ≤ d.length - 2 := fun hle =>
            hfit ((natStr_length_le_iff (n := intOf ds + 1) (k := d.length - 2) (by omega)).mp hle)
          have := padStr_length_ge (d.length - 2) (intOf ds + 1)
          rw [if_pos, if_neg hfit]
          simp; omega
    · rw [if_neg h0, if_neg h0]; rfl
  · intro hno
    have : matchVDigits d = none := by
      cases hm : matchVDigits d with
      | none => rfl
      | some ds => exact absurd ⟨ds, _, matchVDigits_spells.mp hm⟩ hno
    unfold nextVersionDirectory
    rw [this]

/-- Non-vacuity: crossing a power of ten, padded and unpadded, and an overflow. -/
example : nextVersionDirectory c!"v0099" = .ok c!"v0100" ∧ nextVersionDirectory c!"v9" = .ok c!"v10" ∧
    nextVersionDirectory c!"v0999" = .error .objectException ∧
    Spells c!"v0099" c!"0099" 99 := by
  refine ⟨by decide, by decide, by decide, ?_⟩
  refine ⟨by decide, ?_, by decide, Or.inl rfl⟩
  intro c hc
  exact ⟨_, digitVal_ascii (by revert c; decide)⟩

/-- **C01** for the unpadded names of every version number. -/
theorem C01_next_unpadded (n : Nat) (h : 0 < n) :
    nextVersionDirectory (unpaddedName n) = .ok (unpaddedName (n + 1)) := by
  rw [(C01_next_version_directory _).1 _ _ (spells_unpadded n), if_neg (natStr_head_ne_zero h)]

example : nextVersionDirectory (unpaddedName 99) = .ok (unpaddedName 100) := C01_next_unpadded 99 (by decide)

/-- **C01** for the padded names of every width and every number that leaves one leading zero. -/
theorem C01_next_padded (w n : Nat) (hw : 2 ≤ w) (h : n < 10 ^ (w - 1)) :
    nextVersionDirectory (paddedName w n) =
      if n + 1 < 10 ^ (w - 1) then .ok (paddedName w (n + 1)) else .error .objectException := by
  have hle : (natStr n).length ≤ w - 1 := (natStr_length_le_iff (by omega)).mpr h
  rw [(C01_next_version_directory _).1 _ _ (spells_padded w n), if_pos,
    paddedName_length (by omega)]
  · rfl
  · unfold padStr
    have : w - (natStr n).length = (w - (natStr n).length - 1) + 1 := by omega
    rw [this, List.replicate_succ]; rfl

example : nextVersionDirectory (paddedName 3 9) = .ok (paddedName 3 10) :=
  C01_next_padded 3 9 (by decide) (by decide)

/-- **C02.** `parse_version_directory` returns `n` exactly for the names that spell the
non-zero number `n` with one to five digits. -/
theorem C02_parse_version_directory (d : Str) (n : Nat) :
    parseVersionDirectory d = .ok n ↔ ∃ ds, Spells d ds n ∧ ds.length ≤ 5 ∧ n ≠ 0 := by
  unfold parseVersionDirectory
  rw [matchVDigits5_eq]
  constructor
  · intro h
    cases hm : matchVDigits d with
    | none => simp [hm] at h
    | some ds =>
      by_cases hl : ds.length ≤ 5
      · simp [hm, hl] at h
        by_cases h0 : intOf ds = 0
        · simp [h0] at h
        · simp [h0] at h
          subst h
          exact ⟨ds, matchVDigits_spells.mp hm, hl, h0⟩
      · simp [hm, hl] at h
  · rintro ⟨ds, hs, hl, h0⟩
    have hm := spells_match hs
    have hv := spells_val hs
    subst hv
    simp [hm, hl, h0]

example : parseVersionDirectory c!"v00012" = .ok 12 ∧ parseVersionDirectory c!"v000012" = .error .objectException ∧
    parseVersionDirectory c!"v00" = .error .objectException := by decide

/-- **C02.** `parse_version_directory` raises `ObjectException` for every other string. -/
theorem C02_parse_version_directory_refuses (d : Str)
    (h : ¬ ∃ ds n, Spells d ds n ∧ ds.length ≤ 5 ∧ n ≠ 0) :
    parseVersionDirectory d = .error .objectException := by
  cases hp : parseVersionDirectory d with
  | ok n => obtain ⟨ds, hs⟩ := (C02_parse_version_directory d n).mp hp; exact absurd ⟨ds, n, hs⟩ h
  | error e =>
    unfold parseVersionDirectory at hp
    split at hp
    · simp at hp; rw [hp]
    · simp only at hp
      split at hp
      · simp at hp; rw [hp]
      · cases hp

example : ¬ ∃ ds n, Spells c!"x1" ds n ∧ ds.length ≤ 5 ∧ n ≠ 0 := by
  rintro ⟨ds, n, ⟨_, _, _, h | h⟩, _⟩ <;> simp at h

/-- **C02.** `first_version_directory`: "v1", or the padded name of 1 for widths 2 to 5; all
other widths raise. -/
theorem C02_first_version_directory (w : Option Nat) :
    firstVersionDirectory w =
      match w with
      | none => .ok (unpaddedName 1)
      | some w => if 2 ≤ w ∧ w ≤ 5 then .ok (paddedName w 1) else .error .objectException := by
  cases w with
  | none => rfl
  | some w =>
    unfold firstVersionDirectory
    simp only
    by_cases h : 2 ≤ w ∧ w ≤ 5
    · rw [if_neg (by omega), if_pos h]
      rfl
    · rw [if_pos (by omega), if_neg h]

/-- **C01/C02.** Parsing the successor gives the successor, for names (without newline) below
the parser's limit. -/
theorem C01_parse_next (d e : Str) (n : Nat) (hp : parseVersionDirectory d = .ok n)
    (hn : nextVersionDirectory d = .ok e) (hnl : '\n' ∉ d) (hlim : n < 99999) :
    parseVersionDirectory e = .ok (n + 1) := by
  obtain ⟨ds, hs, hl, h0⟩ := (C02_parse_version_directory d n).mp hp
  rw [(C01_next_version_directory d).1 ds n hs] at hn
  rw [C02_parse_version_directory]
  split at hn
  · split at hn
    · rename_i hfit
      simp at hn; subst hn
      have hdl : d.length - 1 ≤ 5 := by
        rcases hs.2.2.2 with rfl | rfl
        · simpa using hl
        · simp at hnl
      refine ⟨padStr (d.length - 1) (n + 1), spells_padded _ _, ?_, by omega⟩
      by_cases hpos : d.length - 2 = 0
      · rw [hpos] at hfit; simp at hfit
      · have hle := (natStr_length_le_iff (n := n + 1) (k := d.length - 2) (by omega)).mpr hfit
        rw [padStr_length (by omega)]; omega
    · cases hn
  · simp at hn; subst hn
    refine ⟨natStr (n + 1), spells_unpadded _, ?_, by omega⟩
    exact (natStr_length_le_iff (by decide)).mpr (by omega)

example : parseVersionDirectory c!"v0999" = .ok 999 ∧ parseVersionDirectory c!"v9999" = .ok 9999 ∧
    nextVersionDirectory c!"v9999" = .ok c!"v10000" := by decide

/-- The limit in `C01_parse_next` is real: the successor of `v99999` is a name the parser refuses,
and so is the successor of a five-digit padded name with a trailing newline. -/
theorem C01_parse_next_limit :
    parseVersionDirectory c!"v99999" = .ok 99999 ∧
    nextVersionDirectory c!"v99999" = .ok c!"v100000" ∧
    parseVersionDirectory c!"v100000" = .error .objectException ∧
    parseVersionDirectory c!"v00009\n" = .ok 9 ∧
    nextVersionDirectory c!"v00009\n" = .ok c!"v000010" ∧
    parseVersionDirectory c!"v000010" = .error .objectException := by decide

/-- **C04.** `make_unused_filepath` always returns (the loop terminates), the result is not in
`used`, it is the path itself if that is unused, and otherwise the path with the separator and
the least number from 2 on that gives an unused path. -/
theorem C04_make_unused_filepath (filepath : Str) (used : List Str) (separator : Str) :
    ∃ r, makeUnusedFilepath filepath used separator = some r ∧ r ∉ used ∧
      (filepath ∉ used → r = filepath) ∧
      (filepath ∈ used → ∃ k, 2 ≤ k ∧ r = filepath ++ separator ++ Nat.toDigits 10 k ∧
        ∀ j, 2 ≤ j → j < k → filepath ++ separator ++ Nat.toDigits 10 j ∈ used) := by
  obtain ⟨r, hr⟩ := Option.isSome_iff_exists.mp (makeUnused_isSome filepath separator used)
  refine ⟨r, hr, ?_⟩
  obtain ⟨k, hk, hrk, hu, hj⟩ := unusedLoop_some _ _ _ (by decide) hr
  refine ⟨hu, ?_, ?_⟩
  · intro hnot
    by_cases h1 : k = 1
    · subst h1; exact hrk
    · exact absurd (hj 1 (by omega) (by omega)) hnot
  · intro hin
    have h1 : k ≠ 1 := by
      intro e; subst e; rw [hrk] at hu; exact hu hin
    refine ⟨k, by omega, ?_, ?_⟩
    · rw [hrk]; unfold cand; rw [if_neg (by omega)]; rfl
    · intro j hj2 hjk
      have := hj j (by omega) hjk
      unfold cand at this; rw [if_neg (by omega)] at this; exact this

example : makeUnusedFilepath c!"a" [c!"a", c!"a__2", c!"a__4"] = some c!"a__3" := by decide

end Ocfl
