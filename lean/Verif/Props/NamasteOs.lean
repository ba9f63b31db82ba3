import Verif.Model.NamasteOs
import Verif.Props.Namaste
import Verif.Proofs.BuildDirs

/-!
# C110: Namaste files without a `fsw` file system
-/

namespace Ocfl

open Spec FS Prog

/-- Looking for tags in a directory is the same with and without a `fsw` file system. -/
theorem findOs_eq {s : FS} (h : s.WF) {cwd : Path} {dir : Str} (hne : dir ≠ []) (hd : look s (absComps cwd dir) = some .dir) (d limit : Nat) :
    findNamastesOs s cwd d dir limit = findNamastes s (absComps cwd dir) d [] limit := by
  have hlist := listdirNames_eq h (base := absComps cwd dir) (ws := []) (by simp) (dir := []) (.inl rfl) (by simpa using hd)
  unfold findNamastesOs findNamastes osListdir
  rw [if_neg hne, hd, hlist]
  simp

theorem get_eq {s : FS} (h : s.WF) {cwd : Path} {dir : Str} (hne : dir ≠ []) (hd : look s (absComps cwd dir) = some .dir) (d : Nat) :
    ∃ l : List Str, l.Nodup ∧ (∀ t, t ∈ l ↔ look s (absComps cwd dir ++ [natStr d ++ c!"=" ++ t]) ≠ none) ∧
      getNamaste s cwd d dir = (match l with | [t] => .ok t | _ => .error .namasteException) := by
  obtain ⟨l, h1, _, h2, h3⟩ := C52_find h (base := absComps cwd dir) (ws := []) (by simp) (dir := []) (.inl rfl) (by simpa using hd) d
  refine ⟨l, h1, by simpa using h2, ?_⟩
  unfold getNamaste
  rw [findOs_eq h hne hd, h3]
  rcases l with _ | ⟨a, _ | ⟨b, l⟩⟩ <;> simp

/-- **C110**, finding: `get_namaste` gives the tag of a directory if there is exactly one with that number, and raises a `NamasteException`
otherwise. -/
theorem C110_get {s : FS} (h : s.WF) {cwd : Path} {dir : Str} (hne : dir ≠ []) (hd : look s (absComps cwd dir) = some .dir) (d : Nat) :
    (∀ t, getNamaste s cwd d dir = .ok t ↔ ∀ t', look s (absComps cwd dir ++ [natStr d ++ c!"=" ++ t']) ≠ none ↔ t' = t) ∧
    ∀ e, getNamaste s cwd d dir = .error e → e = .namasteException := by
  obtain ⟨l, h1, h2, h3⟩ := get_eq h hne hd d
  rw [h3]
  constructor
  · intro t
    simp only [← h2]
    rcases l with _ | ⟨a, _ | ⟨b, l⟩⟩
    · constructor
      · intro h; cases h
      · intro h; exact absurd ((h t).mpr rfl) (by simp)
    · constructor
      · intro h; cases h; simp
      · intro h; rw [(h a).mp (by simp)]
    · constructor
      · intro h; cases h
      · intro h
        have e1 := (h a).mp (by simp)
        have e2 := (h b).mp (by simp)
        rw [e1, e2] at h1
        simp at h1
  · intro e he
    split at he
    · cases he
    · exact (Except.error.inj he).symm

/-- **C110**, checking: `content_ok` says whether the tvalue is not empty and the one for the text of the file. It raises only if the file is not
text. -/
theorem C110_check {tr : Str → Str} {s : FS} {cwd : Path} {dir : Str} (d : Nat) {t : Str} (ht : '/' ∉ t) :
    (namasteContentOkOs tr s cwd d t dir = .ok true ↔ t ≠ [] ∧ ∃ b text,
      look s (absComps cwd dir ++ [natStr d ++ c!"=" ++ t]) = some (.file b) ∧ utf8Decode b = some text ∧ tr (univNewlines text) = t) ∧
    ∀ e, namasteContentOkOs tr s cwd d t dir = .error e → e = .unicodeError ∧ t ≠ [] ∧ ∃ b,
      look s (absComps cwd dir ++ [natStr d ++ c!"=" ++ t]) = some (.file b) ∧ utf8Decode b = none := by
  unfold namasteContentOkOs namasteCheckOs namasteFilename readText isfile FS.read
  rw [absComps_osPathJoin cwd dir (safe_filename ht)]
  by_cases h0 : t = []
  · simp [h0]
  · rw [if_neg h0]
    cases hl : look s (absComps cwd dir ++ [natStr d ++ c!"=" ++ t]) with
    | none => simp
    | some n =>
      cases n with
      | dir => simp
      | file b =>
        cases hu : utf8Decode b with
        | none =>
          simp only [hu]
          constructor
          · simp
            intro _ text hu'
            rw [hu] at hu'; cases hu'
          · intro e he
            simp at he
            exact ⟨he.symm, h0, b, rfl, hu⟩
        | some text =>
          simp only [hu]
          by_cases hc : t = tr (univNewlines text)
          · simp [← hc, h0, hu]
          · simp [hc, hu, h0]
            exact fun hh => hc hh.symm

/-- **C110** (partial): a Namaste file that is written into a directory without one of that number is what `get_namaste` finds there, and its
content is accepted. As for C52, contents that are blank and contents with a carriage return before a newline are excluded, and the name of the
directory must be given. -/
theorem C110_partial {isWord : Char → Bool} (hw : WordClass isWord) {s : FS} (h : s.WF) {cwd : Path} {dir : Str} (hne : dir ≠ [])
    (hd : look s (absComps cwd dir) = some .dir) (d : Nat) {content t : Str} (ht : IsTvalue isWord content t)
    (hblank : ∃ c ∈ content, ¬ Blank c) (hcr : ¬ c!"\r\n" <:+: content)
    (hnew : ∀ t', look s (absComps cwd dir ++ [natStr d ++ c!"=" ++ t']) = none) :
    ∃ s', run (namasteWriteOs (contentToTvalue isWord) cwd d content dir) s = (s', .ok ()) ∧
      getNamaste s' cwd d dir = .ok t ∧ namasteContentOkOs (contentToTvalue isWord) s' cwd d t dir = .ok true := by
  obtain ⟨s', h1, hwf, h2, h3, _⟩ := C52_partial hw h (base := absComps cwd dir) (ws := []) (by simp) (dir := []) (.inl rfl) (by simpa using hd) d
    ht hblank hcr (by simpa using hnew t)
  have hsl : '/' ∉ t := by
    intro hc
    rw [← isTvalue_iff.mp ht] at hc
    exact tvalue_chars hw hc rfl
  have hl : ∀ t', look s' (absComps cwd dir ++ [natStr d ++ c!"=" ++ t']) ≠ none ↔ t' = t := by
    intro t'
    rw [h2]
    by_cases e : t' = t
    · simp [e]
    · rw [if_neg (by simpa using e)]
      rw [hnew t']
      simp [e]
  have hd' : look s' (absComps cwd dir) = some .dir := by
    rw [h2, if_neg (by simp)]
    exact hd
  refine ⟨s', ?_, ((C110_get hwf hne hd' d).1 t).mpr hl, (C110_check d hsl).1.mpr ?_⟩
  · rw [← h1]
    unfold namasteWriteOs namasteWrite namasteFilename
    rw [isTvalue_iff.mp ht, absComps_osPathJoin cwd dir (safe_filename hsl),
      resolve_namaste (base := absComps cwd dir) (ws := []) (by simp) (safe_filename hsl) (dir := []) (.inl rfl)]
    simp
  · obtain ⟨h4, b, text, h5, h6, h7⟩ := (C52_check (base := absComps cwd dir) (ws := []) (by simp) (dir := []) (.inl rfl) d hsl).mp h3
    exact ⟨h4, b, text, by simpa using h5, h6, isTvalue_iff.mp h7⟩

/-- **C110** fails for the default of the argument `dir`: the file is written into the working directory, but looking for it there raises an
exception, and not a `NamasteException`. -/
theorem C110_violated_default : ∃ s', run (namasteWriteOs (contentToTvalue wordAscii) [] 0 c!"ocfl_1.1" []) [] = (s', .ok ()) ∧
    look s' [c!"0=ocfl_1.1"] = some (.file (utf8 c!"ocfl_1.1\n")) ∧
    namasteContentOkOs (contentToTvalue wordAscii) s' [] 0 c!"ocfl_1.1" [] = .ok true ∧
    getNamaste s' [] 0 [] = .error .fileNotFound ∧ getNamaste s' [] 0 c!"." = .ok c!"ocfl_1.1" := by
  refine ⟨_, rfl, ?_, ?_, ?_, ?_⟩ <;> decide +kernel

/-- It raises it whatever is in the working directory. -/
example (s : FS) (cwd : Path) (d : Nat) : getNamaste s cwd d [] = .error .fileNotFound := rfl

/-- **C110** in a directory `o` that has a tag with another number. -/
example : ∃ s', run (namasteWriteOs (contentToTvalue wordAscii) [c!"w"] 0 c!"ocfl_object_1.1" c!"o")
      [([c!"w"], .dir), ([c!"w", c!"o"], .dir), ([c!"w", c!"o", c!"1=x"], .file [])] = (s', .ok ()) ∧
    getNamaste s' [c!"w"] 0 c!"o" = .ok c!"ocfl_object_1.1" ∧
    namasteContentOkOs (contentToTvalue wordAscii) s' [c!"w"] 0 c!"ocfl_object_1.1" c!"o" = .ok true := by
  refine C110_partial wordAscii_class ⟨by decide, by decide, by decide, by decide⟩ (by decide) (by decide +kernel) 0
    (isTvalue_iff.mpr (by decide +kernel)) ⟨'o', by decide, by unfold Blank; decide⟩ (by decide +kernel) ?_
  intro t'
  rw [look_ne (by simp), ← Option.not_isSome_iff_eq_none]
  intro hs
  have hm := Dict.mem_keys_of_get? (Option.isSome_iff_exists.mp hs).choose_spec
  have e : absComps [c!"w"] c!"o" = [c!"w", c!"o"] := by decide +kernel
  have e0 : natStr 0 = c!"0" := by decide +kernel
  rw [e, e0] at hm
  simp [Dict.keys] at hm

end Ocfl
