import Verif.Proofs.StoreListing
import Verif.Props.ExampleStore

/-!
# C53: listing the objects of a storage root
-/

namespace Ocfl

open Spec FS Prog Store

/-- No directory that a traversal comes to has a declaration that goes on after a supported version. -/
def NoOverlong (s : FS) (root : Path) : Prop :=
  ∀ ws, Reached s root ws → ∀ v ∈ supported, ∀ c rest b, isDigit c = false →
    look s (root ++ ws ++ [c!"0=ocfl_object_" ++ v ++ c :: rest]) ≠ some (.file b)

theorem looseObjectDir_of {s : FS} {p : Path} (h : ObjectDir s p) : LooseObjectDir s p := by
  obtain ⟨v, hv, hb, hall⟩ := h
  exact ⟨v, hv, [], by simp, by simpa using hb, by simpa using hall⟩

theorem objectDir_of {s : FS} {root : Path} (hno : NoOverlong s root) {ws : List Str} (hr : Reached s root ws)
    (h : LooseObjectDir s (root ++ ws)) : ObjectDir s (root ++ ws) := by
  obtain ⟨v, hv, rest, hrest, ⟨b, hb⟩, hall⟩ := h
  cases rest with
  | nil => exact ⟨v, hv, ⟨b, by simpa using hb⟩, by simpa using hall⟩
  | cons c l => exact absurd hb (hno ws hr v hv c l b (hrest c rfl))

/-- What `object_paths` gives in every storage root: the directories that are reached and have one
declaration, whose name begins with that of an object of a supported version. -/
theorem C53_exact (E : Env) {s : FS} (hw : s.WF) {root : Path} (hd : look s root = some .dir) {log : Bool}
    (hr : log = true ∨ ∀ w, look s (root ++ [c!"extensions", w]) = some .dir → w ∈ registeredExtensions) :
    ∃ l, objectPaths E log s root = .ok l ∧ l.paths.Nodup ∧ l.errors.Nodup ∧
      (∀ p, p ∈ l.paths ↔ ∃ ws, p = joinWith '/' ws ∧ Reached s root ws ∧ LooseObjectDir s (root ++ ws)) ∧
      (∀ p, p ∈ l.errors ↔ ∃ ws, p = joinWith '/' ws ∧ Reached s root ws ∧ ¬ LooseObjectDir s (root ++ ws) ∧
        (FileBearing s (root ++ ws) ∨ EmptyDir s (root ++ ws))) ∧
      (l.extensionErrors = 0 ↔ ∀ w b, look s (root ++ [c!"extensions", w]) ≠ some (.file b)) := by
  refine ⟨_, objectPaths_eq hw hd hr, ?_, ?_, ?_, ?_, ?_⟩
  · exact nodup_paths hw hd _
  · exact nodup_paths hw hd _
  · intro p
    dsimp only
    simp only [List.mem_map, List.mem_filter, mem_traversal' hw hd, decide_eq_true_eq, classify_object hw]
    constructor
    · rintro ⟨q, h, rfl⟩; exact ⟨q, rfl, h⟩
    · rintro ⟨q, rfl, h⟩; exact ⟨q, h, rfl⟩
  · intro p
    dsimp only
    simp only [List.mem_map, List.mem_filter, mem_traversal' hw hd, decide_eq_true_eq, classify_error hw]
    constructor
    · rintro ⟨q, h, rfl⟩; exact ⟨q, rfl, h⟩
    · rintro ⟨q, rfl, h⟩; exact ⟨q, h, rfl⟩
  · dsimp only
    have e : ∀ w, root ++ [c!"extensions", w] = root ++ [c!"extensions"] ++ [w] := by simp
    split_ifs with hx
    · unfold extensionFiles
      rw [List.length_eq_zero_iff, List.eq_nil_iff_forall_not_mem]
      constructor
      · intro h w b hb
        rw [e] at hb
        exact h w ((mem_fileNames hw).mpr ⟨b, hb⟩)
      · intro h w hm
        obtain ⟨b, hb⟩ := (mem_fileNames hw).mp hm
        exact h w b (by rw [e]; exact hb)
    · refine ⟨fun _ w b hb => hx ?_, fun _ => rfl⟩
      rw [e] at hb
      exact FS.look_above hw [w] (by simp) hb

/-- **C53** (partial): listing a storage root gives exactly the directories that hold one declaration, of an object
of a supported version, and have no file-bearing directory above, each once; and an error for every other
directory reached that has files or is empty. Missing: the declaration may have a longer name, see
`C53_violated`; and, without a log, every extension directory has to be a registered one, see
`C53_violated_extension`. -/
theorem C53_partial (E : Env) {s : FS} (hw : s.WF) {root : Path} (hd : look s root = some .dir) (hno : NoOverlong s root)
    {log : Bool} (hr : log = true ∨ ∀ w, look s (root ++ [c!"extensions", w]) = some .dir → w ∈ registeredExtensions) :
    ∃ l, objectPaths E log s root = .ok l ∧ l.paths.Nodup ∧ l.errors.Nodup ∧
      (∀ p, p ∈ l.paths ↔ ∃ ws, p = joinWith '/' ws ∧ Reached s root ws ∧ ObjectDir s (root ++ ws)) ∧
      (∀ p, p ∈ l.errors ↔ ∃ ws, p = joinWith '/' ws ∧ Reached s root ws ∧ ¬ ObjectDir s (root ++ ws) ∧
        (FileBearing s (root ++ ws) ∨ EmptyDir s (root ++ ws))) ∧
      (l.extensionErrors = 0 ↔ ∀ w b, look s (root ++ [c!"extensions", w]) ≠ some (.file b)) := by
  obtain ⟨l, h1, h2, h3, h4, h5, h6⟩ := C53_exact E hw hd hr
  have hiff : ∀ ws, Reached s root ws → (LooseObjectDir s (root ++ ws) ↔ ObjectDir s (root ++ ws)) :=
    fun ws hws => ⟨objectDir_of hno hws, looseObjectDir_of⟩
  refine ⟨l, h1, h2, h3, fun p => ?_, fun p => ?_, h6⟩
  · rw [h4]
    exact exists_congr fun ws => and_congr_right fun _ => and_congr_right fun hws => hiff ws hws
  · rw [h5]
    exact exists_congr fun ws => and_congr_right fun _ => and_congr_right fun hws => and_congr_left fun _ => not_congr (hiff ws hws)

/-- Nothing inside an object is listed. -/
theorem C53_no_nesting (E : Env) {s : FS} (hw : s.WF) {root : Path} (hd : look s root = some .dir) {log : Bool} {l : Listing}
    (h : objectPaths E log s root = .ok l)
    (hr : log = true ∨ ∀ w, look s (root ++ [c!"extensions", w]) = some .dir → w ∈ registeredExtensions)
    {a b : List Str} (ha : ∀ w ∈ a, SafeName w) (hb : ∀ w ∈ b, SafeName w) (hb0 : b ≠ [])
    (h1 : joinWith '/' a ∈ l.paths) : joinWith '/' (a ++ b) ∉ l.paths := by
  obtain ⟨l', h', _, _, hp, _⟩ := C53_exact E hw hd hr
  rw [h] at h'
  cases h'
  intro h2
  obtain ⟨q, e, hq, v, hv, rest, hrest, ⟨bs, hbs⟩, _⟩ := (hp _).mp h1
  have hqs : ∀ w ∈ q, SafeName w := fun w hm => look_names hw hq.dir w (by simp [hm])
  have e := joinWith_inj' ha hqs e
  subst e
  obtain ⟨q', e, hq', _⟩ := (hp _).mp h2
  have hqs' : ∀ w ∈ q', SafeName w := fun w hm => look_names hw hq'.dir w (by simp [hm])
  have e := joinWith_inj' (by intro w hm; rcases List.mem_append.mp hm with h | h; exacts [ha w h, hb w h]) hqs' e
  subst e
  exact hq'.noFiles a b rfl hq.below hb0 ⟨_, bs, hbs⟩

/-! ## Examples -/

/-- A check of all entries: none is a file whose name goes on after a supported version. -/
def noOverlongIn (s : FS) : Bool :=
  s.all (fun e => match e.1.getLast?, e.2 with
    | some w, .file _ => supported.all (fun v => match startsWith w (c!"0=ocfl_object_" ++ v), w.drop (14 + v.length) with
      | true, c :: _ => isDigit c
      | _, _ => true)
    | _, _ => true)

theorem noOverlongIn_spec {s : FS} (h : noOverlongIn s = true) (root : Path) : NoOverlong s root := by
  intro ws _ v hv c rest b hc hb
  rw [look_ne (by simp)] at hb
  have h1 := List.all_eq_true.mp h _ (Dict.mem_of_get? hb)
  simp only [List.getLast?_append, List.getLast?_singleton, Option.some_or] at h1
  have h2 := List.all_eq_true.mp h1 v hv
  have e1 : startsWith (c!"0=ocfl_object_" ++ v ++ c :: rest) (c!"0=ocfl_object_" ++ v) = true := by
    rw [startsWith_iff]; exact ⟨_, rfl⟩
  have e2 : (c!"0=ocfl_object_" ++ v ++ c :: rest).drop (14 + v.length) = c :: rest := by
    rw [show 14 + v.length = (c!"0=ocfl_object_" ++ v).length by simp; omega]
    exact List.drop_left
  rw [e1, e2] at h2
  dsimp only at h2
  rw [hc] at h2
  cases h2

/-- In a root with an object there are only declarations as they should be. -/
example : ∃ l, objectPaths demoEnv false storeAdded [c!"w", c!"root"] = .ok l ∧ c!"info:x" ∈ l.paths := by
  obtain ⟨l, h, _⟩ := C53_partial demoEnv storeAdded_wf (root := [c!"w", c!"root"]) (by decide +kernel)
    (noOverlongIn_spec (by decide +kernel) _) (log := false) (.inr (by
      intro w hw
      have : look storeAdded [c!"w", c!"root", c!"extensions"] = some .dir :=
        FS.look_above storeAdded_wf [w] (by simp) hw
      exact absurd this (by decide +kernel)))
  have h' : (match objectPaths demoEnv false storeAdded [c!"w", c!"root"] with
    | .ok l => decide (c!"info:x" ∈ l.paths) | .error _ => false) = true := by decide +kernel
  rw [h] at h'
  exact ⟨l, h, by simpa using h'⟩

/-- The same, stated for what is reached. -/
example : ObjectDir storeAdded [c!"w", c!"root", c!"info:x"] := by
  refine ⟨c!"1.1", by decide, ⟨utf8 c!"ocfl_object_1.1\n", by decide +kernel⟩, fun t b hb => ?_⟩
  rw [look_ne (by simp)] at hb
  have h : storeAdded.all (fun e => match e.1 with
      | [_, _, x, n] => !(decide (x = c!"info:x") && startsWith n c!"0=") || decide (n = c!"0=ocfl_object_1.1")
      | _ => true) = true := by decide +kernel
  have h1 := List.all_eq_true.mp h _ (Dict.mem_of_get? hb)
  have e1 : startsWith (c!"0=" ++ t) c!"0=" = true := by rw [startsWith_iff]; exact ⟨_, rfl⟩
  simp only [List.cons_append, List.nil_append, decide_true, Bool.true_and] at h1
  rw [show startsWith ('0' :: '=' :: t) c!"0=" = true from e1] at h1
  simpa using h1

/-! ## Where the code does not do it -/

/-- A directory with one file. -/
def draftFS : FS := [([c!"w"], .dir), ([c!"w", c!"root"], .dir), ([c!"w", c!"root", c!"x"], .dir),
  ([c!"w", c!"root", c!"x", c!"0=ocfl_object_1.0-draft"], .file [])]

theorem draftFS_wf : draftFS.WF where
  nk := by decide
  noRoot := by decide
  parent := by decide
  names := by decide

/-- **C53** fails if the name of a declaration goes on after the version: the expression that it is compared with
is not anchored at the end. -/
theorem C53_violated : objectPaths demoEnv true draftFS [c!"w", c!"root"] = .ok ⟨[c!"x"], [], 0⟩ ∧
    ¬ ObjectDir draftFS [c!"w", c!"root", c!"x"] := by
  refine ⟨by decide +kernel, ?_⟩
  rintro ⟨v, hv, ⟨b, hb⟩, _⟩
  have : ∀ v ∈ supported, look draftFS ([c!"w", c!"root", c!"x"] ++ [c!"0=ocfl_object_" ++ v]) = none := by decide
  rw [this v hv] at hb
  cases hb

/-- **C53** fails for a storage root that the library itself has made, with the layout for UUIDs: it has a
directory for an extension that is not registered, the warning about this needs a log, and `list_objects` has
none. -/
theorem C53_violated_extension :
    (∃ r, run (initializeRoot demoEnv defaultRegistry quadStore none none) demoFS = (quadFS, .ok r)) ∧
    (listObjects demoEnv defaultRegistry quadFS anyStore).2 = .error .attributeError := by
  refine ⟨?_, by decide +kernel⟩
  obtain ⟨r, h⟩ := succeeded_ok (r := run (initializeRoot demoEnv defaultRegistry quadStore none none) demoFS) (by decide +kernel)
  exact ⟨r, h⟩

end Ocfl
