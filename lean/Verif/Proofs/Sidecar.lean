import Verif.Proofs.WriteInv
import Verif.Proofs.Namaste
import Verif.Model.Validator

/-!
# Sidecar files: what is written is read back
-/

namespace Ocfl

open Spec FS Prog Ocfl.Inv

theorem hex_small {c : Char} (h : c ∈ c!"0123456789abcdef") : c.toNat < 128 ∧ c.isAlphanum = true ∧ c ≠ '\n' ∧ c ≠ '\r' := by
  revert c
  decide

theorem hex_word {isWord : Char → Bool} (hw : WordClass isWord) {c : Char} (h : c ∈ c!"0123456789abcdef") : isWord c = true := by
  obtain ⟨h1, h2, _⟩ := hex_small h
  rw [hw c h1, h2]
  rfl

theorem span_at {p : Char → Bool} {a : Str} {x : Char} {b : Str} (ha : ∀ c ∈ a, p c = true) (hx : p x = false) :
    (a ++ x :: b).takeWhile p = a ∧ (a ++ x :: b).dropWhile p = x :: b := by
  induction a with
  | nil => simp [hx]
  | cons c a ih =>
    have h1 := ha c (by simp)
    obtain ⟨h2, h3⟩ := ih (fun c hc => ha c (by simp [hc]))
    simp [h1, h2, h3]

/-- The reader takes the line apart. -/
theorem matchSidecar_line {isWord : Char → Bool} (hw : WordClass isWord) {d : Str} (hd : ∀ c ∈ d, c ∈ c!"0123456789abcdef") (hne : d ≠ []) :
    Validator.matchSidecar isWord (d ++ c!" " ++ inventoryFilename ++ c!"\n") = some (d, inventoryFilename) := by
  have e : d ++ c!" " ++ inventoryFilename ++ c!"\n" = d ++ ' ' :: (inventoryFilename ++ c!"\n") := by simp
  rw [e]
  have hsp : isWord ' ' = false := by rw [hw ' ' (by decide)]; decide
  obtain ⟨h1, h2⟩ := span_at (p := isWord) (x := ' ') (b := inventoryFilename ++ c!"\n") (fun c hc => hex_word hw (hd c hc)) hsp
  unfold Validator.matchSidecar
  rw [h1, h2]
  have k1 : (' ' :: (inventoryFilename ++ c!"\n")).takeWhile isSpace = [' '] := by decide
  have k2 : (' ' :: (inventoryFilename ++ c!"\n")).dropWhile isSpace = inventoryFilename ++ c!"\n" := by decide
  have k3 : (inventoryFilename ++ c!"\n").takeWhile (fun c => !isSpace c) = inventoryFilename := by decide
  have k4 : ((inventoryFilename ++ c!"\n").dropWhile (fun c => !isSpace c)).dropWhile isSpace = [] := by decide
  dsimp only
  rw [k1, k2, k3, k4]
  rw [if_pos ⟨hne, by simp, by decide, rfl⟩]

theorem readline_line {d : Str} (hd : '\n' ∉ d) : Validator.readline (d ++ ['\n']) = d ++ ['\n'] := by
  unfold Validator.readline
  rw [(span_at (p := fun c => decide (c ≠ '\n')) (x := '\n') (b := []) (fun c hc => by simp; rintro rfl; exact hd hc) (by simp)).1,
    if_pos (by simp)]

/-- A sidecar that was written is read back. -/
theorem readSidecar {E : Env} (hw : WordClass E.isWord) {s : FS} {base : Path} {file d : Str}
    (hd : ∀ c ∈ d, c ∈ c!"0123456789abcdef") (hne : d ≠ []) (hl : look s (FS.resolve base file) = some (.file (sidecarLine d))) :
    Validator.readInventoryDigest E s base file = .ok d := by
  have hnl : '\n' ∉ d ++ c!" " ++ inventoryFilename := by
    intro h
    rcases List.mem_append.mp h with h | h
    · rcases List.mem_append.mp h with h | h
      · exact (hex_small (hd _ h)).2.2.1 rfl
      · revert h; decide
    · revert h; decide
  have hcr : '\r' ∉ d ++ c!" " ++ inventoryFilename ++ c!"\n" := by
    intro h
    rcases List.mem_append.mp h with h | h
    · rcases List.mem_append.mp h with h | h
      · rcases List.mem_append.mp h with h | h
        · exact (hex_small (hd _ h)).2.2.2 rfl
        · revert h; decide
      · revert h; decide
    · revert h; decide
  unfold Validator.readInventoryDigest
  have hr : readText s (FS.resolve base file) = .ok (d ++ c!" " ++ inventoryFilename ++ c!"\n") := by
    unfold readText FS.read
    rw [hl]
    unfold sidecarLine
    simp only [utf8Decode_utf8]
    rw [univNewlines_of_noCR hcr]
  rw [hr]
  dsimp only
  have : Validator.readline (d ++ c!" " ++ inventoryFilename ++ c!"\n") = d ++ c!" " ++ inventoryFilename ++ c!"\n" := readline_line hnl
  rw [this, matchSidecar_line hw hd hne]
  simp

theorem chompNL_id {s : Str} (h : s.getLast? ≠ some '\n') : chompNL s = s := by
  fun_induction chompNL s with
  | case1 => rfl
  | case2 => simp at h
  | case3 => rfl
  | case4 c d s ih => rw [ih (by simpa [List.getLast?_cons] using h)]

/-- The name of the algorithm is read off the name of the file. -/
theorem matchExtension_sidecar {isWord : Char → Bool} (hw : WordClass isWord) {dir alg : Str} (hdir : '\n' ∉ dir)
    (halg : ∀ c ∈ alg, c.toNat < 128 ∧ c.isAlphanum = true) (hne : alg ≠ []) :
    Validator.matchExtension isWord (dir ++ '.' :: alg) = some alg := by
  have hchomp : chompNL (dir ++ '.' :: alg) = dir ++ '.' :: alg := by
    refine chompNL_id ?_
    intro h
    have hl : (dir ++ '.' :: alg).getLast? = alg.getLast? := by
      cases alg with
      | nil => exact absurd rfl hne
      | cons a l => simp [List.getLast?_append, List.getLast?_cons]
    rw [hl] at h
    have := halg '\n' (List.mem_of_getLast? h)
    exact absurd this.2 (by decide)
  unfold Validator.matchExtension
  rw [hchomp]
  have e : (dir ++ '.' :: alg).reverse = alg.reverse ++ '.' :: dir.reverse := by simp
  rw [e]
  have hdot : isWord '.' = false := by rw [hw '.' (by decide)]; decide
  obtain ⟨h1, h2⟩ := span_at (p := isWord) (a := alg.reverse) (x := '.') (b := dir.reverse) (fun c hc => by
    obtain ⟨h3, h4⟩ := halg c (List.mem_reverse.mp hc)
    rw [hw c h3, h4]; rfl) hdot
  dsimp only
  rw [h1, h2]
  simp [hne, hdir]

/-- With a hyphen in the name of the algorithm, it is not. -/
theorem matchExtension_hyphen {isWord : Char → Bool} (hw : WordClass isWord) {dir pre post : Str}
    (hpost : ∀ c ∈ post, c.toNat < 128 ∧ c.isAlphanum = true) (hne : post ≠ []) :
    Validator.matchExtension isWord (dir ++ '.' :: (pre ++ '-' :: post)) = none := by
  have hre : dir ++ '.' :: (pre ++ '-' :: post) = (dir ++ '.' :: pre) ++ '-' :: post := by simp
  rw [hre]
  generalize dir ++ '.' :: pre = d
  have hchomp : chompNL (d ++ '-' :: post) = d ++ '-' :: post := by
    refine chompNL_id ?_
    intro h
    have hl : (d ++ '-' :: post).getLast? = post.getLast? := by
      cases post with
      | nil => exact absurd rfl hne
      | cons a l => simp [List.getLast?_append, List.getLast?_cons]
    rw [hl] at h
    have := hpost '\n' (List.mem_of_getLast? h)
    exact absurd this.2 (by decide)
  unfold Validator.matchExtension
  rw [hchomp]
  have e : (d ++ '-' :: post).reverse = post.reverse ++ '-' :: d.reverse := by simp
  rw [e]
  have hdot : isWord '-' = false := by rw [hw '-' (by decide)]; decide
  obtain ⟨h1, h2⟩ := span_at (p := isWord) (a := post.reverse) (x := '-') (b := d.reverse) (fun c hc => by
    obtain ⟨h3, h4⟩ := hpost c (List.mem_reverse.mp hc)
    rw [hw c h3, h4]; rfl) hdot
  dsimp only
  rw [h2]
  rfl

end Ocfl
