import Verif.Model.StorageRoot
import Verif.Props.Fsw
import Verif.Spec.StorageRoot
import Verif.Proofs.ValidatorContent
import Verif.Proofs.ValidatorIff

/-!
# Traversal of a storage root
-/

namespace Ocfl
namespace Store

open Spec FS

variable {E : Env} {s : FS} {base : Path}

theorem matchObjectDeclaration_iff {f v : Str} (hv : v ∈ supported) :
    matchObjectDeclaration f = some v ↔ ∃ rest, (∀ c ∈ rest.head?, isDigit c = false) ∧ f = c!"0=ocfl_object_" ++ v ++ rest := by
  obtain ⟨x, y, rfl, hx, hy⟩ : ∃ x y, v = [x, '.', y] ∧ isDigit x = true ∧ isDigit y = true := by
    rcases List.mem_cons.mp hv with rfl | hv
    · exact ⟨'1', '0', rfl, by decide, by decide⟩
    · rw [List.mem_singleton] at hv
      subst hv
      exact ⟨'1', '1', rfl, by decide, by decide⟩
  have hdot : isDigit '.' = false := by decide
  unfold matchObjectDeclaration
  constructor
  · intro h
    split_ifs at h with hst
    obtain ⟨t, rfl⟩ := startsWith_iff.mp hst
    dsimp only at h
    have hdrop : (c!"0=ocfl_object_" ++ t).drop 14 = t := rfl
    rw [hdrop] at h
    split at h
    · rename_i r hr
      split_ifs at h with hne
      have h := Option.some.inj h
      have e1 : t = t.takeWhile isDigit ++ '.' :: r := by
        conv_lhs => rw [← List.takeWhile_append_dropWhile (p := isDigit) (l := t), hr]
      refine ⟨r.dropWhile isDigit, ?_, ?_⟩
      · intro c hc
        by_contra hcon
        have hcon : isDigit c = true := by simpa using hcon
        cases hd : r.dropWhile isDigit with
        | nil => rw [hd] at hc; cases hc
        | cons a l =>
          rw [hd] at hc
          have ha := List.head_dropWhile_not isDigit (l := r) (by rw [hd]; simp)
          simp only [hd, List.head_cons] at ha
          simp only [List.head?_cons, Option.mem_def, Option.some.injEq] at hc
          rw [← hc, ha] at hcon
          cases hcon
      · have e2 : t = (t.takeWhile isDigit ++ '.' :: r.takeWhile isDigit) ++ r.dropWhile isDigit := by
          rw [List.append_assoc, List.cons_append, List.takeWhile_append_dropWhile]
          exact e1
        rw [h] at e2
        rw [List.append_assoc, ← e2]
    · cases h
  · rintro ⟨rest, hrest, rfl⟩
    rw [if_pos (startsWith_iff.mpr ⟨[x, '.', y] ++ rest, by simp⟩)]
    have hdrop : (c!"0=ocfl_object_" ++ [x, '.', y] ++ rest).drop 14 = x :: '.' :: y :: rest := rfl
    rw [hdrop]
    have h1 : List.takeWhile isDigit rest = [] := by
      cases rest with
      | nil => rfl
      | cons c l => rw [List.takeWhile_cons_of_neg]; simpa using hrest c rfl
    have h2 : List.takeWhile isDigit (x :: '.' :: y :: rest) = [x] := by
      rw [List.takeWhile_cons_of_pos hx, List.takeWhile_cons_of_neg (by simp [hdot])]
    have h3 : List.dropWhile isDigit (x :: '.' :: y :: rest) = '.' :: y :: rest := by
      rw [List.dropWhile_cons_of_pos hx, List.dropWhile_cons_of_neg (by simp [hdot])]
    have h4 : List.takeWhile isDigit (y :: rest) = [y] := by
      rw [List.takeWhile_cons_of_pos hy, h1]
    simp only []
    rw [h3, h2]
    simp only []
    rw [h4]
    simp

theorem filter_singleton_iff {α : Type} {p : α → Bool} {l : List α} (hn : l.Nodup) {a : α} :
    l.filter p = [a] ↔ (a ∈ l ∧ p a = true) ∧ ∀ b ∈ l, p b = true → b = a := by
  constructor
  · intro h
    have ha : a ∈ l.filter p := by rw [h]; simp
    refine ⟨List.mem_filter.mp ha, fun b hb hp => ?_⟩
    have : b ∈ l.filter p := List.mem_filter.mpr ⟨hb, hp⟩
    rw [h] at this
    simpa using this
  · rintro ⟨ha, hall⟩
    have h1 : (l.filter p).Nodup := hn.filter _
    have h2 : ∀ b, b ∈ l.filter p ↔ b = a := fun b =>
      ⟨fun hb => hall b (List.mem_filter.mp hb).1 (List.mem_filter.mp hb).2, fun e => e ▸ List.mem_filter.mpr ha⟩
    exact nodup_singleton_iff h1 |>.mpr h2

theorem visitOf_mk (s : FS) (base : Path) (ws : List Str) :
    visitOf s base ws = ⟨dstr ws, dirNames s (base ++ ws), fileNames s (base ++ ws)⟩ := rfl

theorem classify_mk (d : Str) (dirs files : List Str) : classify ⟨d, dirs, files⟩ =
    if dirs.length + files.length = 0 then .error
    else if files.length = 0 then .intermediate
    else
      match files.filter (fun f => startsWith f c!"0=") with
      | [declaration] =>
        match matchObjectDeclaration declaration with
        | some v => if v ∈ specVersionsSupported then .object else .error
        | none => .error
      | _ => .error := rfl

theorem pruneDirs_mk (d : Str) (dirs files : List Str) : pruneDirs ⟨d, dirs, files⟩ =
    if d = c!"/" then dirs.erase c!"extensions" else if files.length > 0 then [] else dirs := rfl

theorem classify_object (hw : s.WF) (ws : List Str) : classify (visitOf s base ws) = .object ↔ LooseObjectDir s (base ++ ws) := by
  have hnd := fileNames_nodup hw (base ++ ws)
  rw [visitOf_mk, classify_mk]
  constructor
  · intro h
    split_ifs at h with h1 h2
    split at h
    · rename_i d hd
      rw [filter_singleton_iff hnd] at hd
      obtain ⟨⟨hd, _⟩, hall⟩ := hd
      split at h
      · rename_i v hm
        split_ifs at h with hv
        have hv : v ∈ supported := hv
        obtain ⟨rest, hrest, rfl⟩ := (matchObjectDeclaration_iff hv).mp hm
        refine ⟨v, hv, rest, hrest, (mem_fileNames hw).mp hd, fun t b hb => ?_⟩
        have := hall (c!"0=" ++ t) ((mem_fileNames hw).mpr ⟨b, hb⟩) (startsWith_iff.mpr ⟨t, rfl⟩)
        have e : c!"0=ocfl_object_" = c!"0=" ++ c!"ocfl_object_" := rfl
        rw [e, List.append_assoc, List.append_assoc] at this
        rw [List.append_assoc]
        exact List.append_cancel_left this
      · cases h
    · cases h
  · rintro ⟨v, hv, rest, hrest, ⟨b, hb⟩, hall⟩
    have hm := (mem_fileNames hw).mpr ⟨b, hb⟩
    have hlen : (fileNames s (base ++ ws)).length ≠ 0 := by
      intro h0
      rw [List.length_eq_zero_iff.mp h0] at hm
      cases hm
    rw [if_neg (by omega), if_neg hlen]
    have hf : (fileNames s (base ++ ws)).filter (fun f => startsWith f c!"0=") = [c!"0=ocfl_object_" ++ v ++ rest] := by
      rw [filter_singleton_iff hnd]
      refine ⟨⟨hm, startsWith_iff.mpr ⟨c!"ocfl_object_" ++ v ++ rest, by simp⟩⟩, fun f hfm hst => ?_⟩
      obtain ⟨t, rfl⟩ := startsWith_iff.mp hst
      obtain ⟨b', hb'⟩ := (mem_fileNames hw).mp hfm
      rw [hall t b' hb']
      simp
    rw [hf]
    dsimp only
    rw [(matchObjectDeclaration_iff hv).mpr ⟨rest, hrest, rfl⟩]
    dsimp only
    rw [if_pos (show v ∈ specVersionsSupported from hv)]

theorem fileBearing_iff (hw : s.WF) (p : Path) : FileBearing s p ↔ fileNames s p ≠ [] := by
  constructor
  · rintro ⟨w, b, h⟩ h0
    have := (mem_fileNames hw).mpr ⟨b, h⟩
    rw [h0] at this
    cases this
  · intro h
    obtain ⟨w, hm⟩ := List.exists_mem_of_ne_nil _ h
    obtain ⟨b, hb⟩ := (mem_fileNames hw).mp hm
    exact ⟨w, b, hb⟩

theorem emptyDir_iff (hw : s.WF) (p : Path) : EmptyDir s p ↔ dirNames s p = [] ∧ fileNames s p = [] := by
  constructor
  · intro h
    constructor
    · refine List.eq_nil_iff_forall_not_mem.mpr fun w hm => ?_
      rw [mem_dirNames hw, h w] at hm
      cases hm
    · refine List.eq_nil_iff_forall_not_mem.mpr fun w hm => ?_
      obtain ⟨b, hb⟩ := (mem_fileNames hw).mp hm
      rw [h w] at hb
      cases hb
  · rintro ⟨h1, h2⟩ w
    cases hl : look s (p ++ [w]) with
    | none => rfl
    | some nd =>
      exfalso
      cases nd with
      | dir =>
        have := (mem_dirNames hw).mpr hl
        rw [h1] at this
        cases this
      | file b =>
        have := (mem_fileNames hw).mpr ⟨b, hl⟩
        rw [h2] at this
        cases this

theorem classify_error (hw : s.WF) (ws : List Str) : classify (visitOf s base ws) = .error ↔
    ¬ LooseObjectDir s (base ++ ws) ∧ (FileBearing s (base ++ ws) ∨ EmptyDir s (base ++ ws)) := by
  rw [← classify_object hw, fileBearing_iff hw, emptyDir_iff hw]
  rw [visitOf_mk, classify_mk]
  by_cases h1 : fileNames s (base ++ ws) = []
  · by_cases h2 : dirNames s (base ++ ws) = []
    · simp [h1, h2]
    · simp [h1, h2]
  · have hlen : (fileNames s (base ++ ws)).length ≠ 0 := fun h => h1 (List.length_eq_zero_iff.mp h)
    rw [if_neg (by omega), if_neg hlen]
    simp only [h1, ne_eq, not_false_eq_true, true_or, and_true]
    split
    · split
      · split_ifs <;> simp
      · simp
    · simp

theorem dirpath_root (ws : List Str) (hs : ∀ w ∈ ws, SafeName w) : dstr ws = c!"/" ↔ ws = [] := by
  constructor
  · intro h
    exact dstr_inj hs (q := []) (by simp) h
  · rintro rfl; rfl

/-- The names that the traversal follows. -/
def nextOf (s : FS) (base : Path) (ws : List Str) : List Str := pruneDirs (visitOf s base ws)

theorem mem_nextOf (hw : s.WF) {ws : List Str} (hs : ∀ w ∈ ws, SafeName w) {n : Str} : n ∈ nextOf s base ws ↔
    n ∈ dirNames s (base ++ ws) ∧ (ws = [] → n ≠ c!"extensions") ∧ (ws ≠ [] → ¬ FileBearing s (base ++ ws)) := by
  unfold nextOf
  rw [visitOf_mk, pruneDirs_mk]
  by_cases h : ws = []
  · subst h
    rw [if_pos (show dstr [] = c!"/" from rfl), (dirNames_nodup hw _).mem_erase_iff]
    simp [and_comm]
  · rw [if_neg (fun e => h ((dirpath_root ws hs).mp e)), fileBearing_iff hw]
    by_cases hf : fileNames s (base ++ ws) = []
    · simp [h, hf]
    · rw [if_pos (Nat.pos_of_ne_zero fun h0 => hf (List.length_eq_zero_iff.mp h0))]
      simp [h, hf]

theorem nextOf_sub (s : FS) (base : Path) : ∀ ws, ∀ n ∈ nextOf s base ws, n ∈ dirNames s (base ++ ws) := by
  intro ws n hn
  unfold nextOf at hn
  rw [visitOf_mk, pruneDirs_mk] at hn
  split_ifs at hn
  · exact List.mem_of_mem_erase hn
  · cases hn
  · exact hn

theorem nextOf_nodup (hw : s.WF) (ws : List Str) : (nextOf s base ws).Nodup := by
  unfold nextOf
  rw [visitOf_mk, pruneDirs_mk]
  split_ifs
  · exact (dirNames_nodup hw _).erase _
  · exact List.nodup_nil
  · exact dirNames_nodup hw _

theorem mem_traversal (hw : s.WF) (hd : look s base = some .dir) {q : List Str} :
    q ∈ treeWalk (nextOf s base) (FS.depth s) [] ↔ q = [] ∨ Reached s base q := by
  constructor
  · intro hq
    by_cases h0 : q = []
    · exact .inl h0
    right
    have hl := treeWalk_look hw (nextOf_sub s base) (by simpa using hd) hq
    have hsafe : ∀ w ∈ q, SafeName w := fun w hm => look_names hw hl w (by simp [hm])
    obtain ⟨r, e, _, hall⟩ := mem_treeWalk.mp hq
    rw [List.nil_append] at e
    subst e
    refine ⟨h0, hl, ?_, ?_⟩
    · cases q with
      | nil => exact absurd rfl h0
      | cons x xs =>
        have := (mem_nextOf hw (by simp)).mp (hall [] x xs rfl)
        simpa using this.2.1 rfl
    · intro a b e ha hb
      subst e
      cases b with
      | nil => exact absurd rfl hb
      | cons x xs =>
        have := (mem_nextOf hw (fun w hm => hsafe w (by
          rw [List.nil_append] at hm
          rw [List.mem_append]; exact .inl hm))).mp (hall a x xs rfl)
        simpa using this.2.2 (by simpa using ha)
  · rintro (rfl | h)
    · rw [mem_treeWalk]
      exact ⟨[], rfl, by unfold FS.depth; simp, by simp⟩
    · rw [mem_treeWalk]
      have hsafe : ∀ w ∈ q, SafeName w := fun w hm => look_names hw h.dir w (by simp [hm])
      refine ⟨q, rfl, ?_, ?_⟩
      · have := depth_look h.dir
        simp at this
        omega
      · intro a w b e
        rw [List.nil_append]
        subst e
        rw [mem_nextOf hw (fun w hm => hsafe w (by simp [hm]))]
        refine ⟨?_, ?_, fun ha => h.noFiles a (w :: b) rfl ha (by simp)⟩
        · rw [mem_dirNames hw]
          by_cases hb : b = []
          · subst hb; simpa using h.dir
          · apply FS.look_above hw b hb (n := .dir)
            simpa using h.dir
        · rintro rfl
          simpa using h.notExtension

/-! ## Extensions -/

/-- The names of the files in the extensions directory. -/
def extensionFiles (s : FS) (base : Path) : List Str := fileNames s (base ++ [c!"extensions"])

theorem extensionEntries_eq (E : Env) (log : Bool) : ∀ (l : List (Str × Node)), (∀ e ∈ l, SafeName e.1) →
    (log = true ∨ ∀ e ∈ l, e.2 = .dir → e.1 ∈ registeredExtensions) →
    extensionEntries E log (l.map (fun e => (c!"extensions" ++ '/' :: e.1, decide (e.2 = Node.dir)))) =
      .ok (l.filter (fun e => e.2 ≠ .dir)).length
  | [], _, _ => rfl
  | (w, nd) :: l, hs, hr => by
    have ih := extensionEntries_eq E log l (fun e he => hs e (by simp [he])) (hr.imp_right fun h e he => h e (by simp [he]))
    rw [List.map_cons]
    cases nd with
    | dir =>
      simp only [decide_true]
      unfold extensionEntries
      rw [relpath_entry E.cwd (by decide) (hs (w, .dir) (by simp))]
      dsimp only
      rw [if_neg, ih]
      · simp
      · rintro ⟨h1, h2⟩
        rcases hr with h | h
        · rw [h] at h2; cases h2
        · exact h1 (h (w, .dir) (by simp) rfl)
    | file b =>
      have : decide (Node.file b = Node.dir) = false := by simp
      rw [this]
      unfold extensionEntries
      rw [ih]
      simp

theorem extensionEntries_raises (E : Env) : ∀ (l : List (Str × Node)), (∀ e ∈ l, SafeName e.1) →
    (∃ e ∈ l, e.2 = .dir ∧ e.1 ∉ registeredExtensions) →
    extensionEntries E false (l.map (fun e => (c!"extensions" ++ '/' :: e.1, decide (e.2 = Node.dir)))) = .error .attributeError
  | [], _, h => by obtain ⟨e, he, _⟩ := h; cases he
  | (w, nd) :: l, hs, h => by
    rw [List.map_cons]
    have ih := fun h => extensionEntries_raises E l (fun e he => hs e (by simp [he])) h
    cases nd with
    | dir =>
      simp only [decide_true]
      unfold extensionEntries
      rw [relpath_entry E.cwd (by decide) (hs (w, .dir) (by simp))]
      dsimp only
      by_cases hreg : w ∈ registeredExtensions
      · rw [if_neg (by simp [hreg])]
        apply ih
        obtain ⟨e, he, h1, h2⟩ := h
        rcases List.mem_cons.mp he with rfl | he
        · exact absurd hreg h2
        · exact ⟨e, he, h1, h2⟩
      · rw [if_pos ⟨hreg, rfl⟩]
    | file b =>
      have : decide (Node.file b = Node.dir) = false := by simp
      rw [this]
      unfold extensionEntries
      rw [ih]
      obtain ⟨e, he, h1, h2⟩ := h
      rcases List.mem_cons.mp he with rfl | he
      · cases h1
      · exact ⟨e, he, h1, h2⟩

theorem validateExtensions_eq (hw : s.WF) {log : Bool} (hd : look s (base ++ [c!"extensions"]) = some .dir)
    (hr : log = true ∨ ∀ w, look s (base ++ [c!"extensions", w]) = some .dir → w ∈ registeredExtensions) :
    validateExtensions E log s base = .ok (extensionFiles s base).length := by
  unfold validateExtensions
  rw [listdir_name (by decide) hd]
  dsimp only
  rw [extensionEntries_eq]
  · unfold extensionFiles fileNames
    rw [List.length_map]
  · exact fun e he => children_safe hw he
  · refine hr.imp_right fun h e he hn => ?_
    obtain ⟨w, nd⟩ := e
    rw [mem_children hw] at he
    dsimp only at hn
    subst hn
    exact h w (by simpa using he)

theorem validateExtensions_raises (hw : s.WF) (hd : look s (base ++ [c!"extensions"]) = some .dir)
    (hr : ∃ w, look s (base ++ [c!"extensions", w]) = some .dir ∧ w ∉ registeredExtensions) :
    validateExtensions E false s base = .error .attributeError := by
  unfold validateExtensions
  rw [listdir_name (by decide) hd]
  dsimp only
  obtain ⟨w, h1, h2⟩ := hr
  exact extensionEntries_raises E _ (fun e he => children_safe hw he)
    ⟨(w, .dir), (mem_children hw).mpr (by simpa using h1), rfl, h2⟩

/-! ## The listing -/

/-- The directories the traversal comes to, without the root. -/
def traversal (s : FS) (base : Path) : List (List Str) := (treeWalk (nextOf s base) (FS.depth s) []).filter (· ≠ [])

theorem mem_traversal' (hw : s.WF) (hd : look s base = some .dir) {q : List Str} : q ∈ traversal s base ↔ Reached s base q := by
  unfold traversal
  rw [List.mem_filter, mem_traversal hw hd]
  constructor
  · rintro ⟨h | h, hne⟩
    · simp [h] at hne
    · exact h
  · intro h
    exact ⟨.inr h, by simpa using h.below⟩

theorem objectPaths_eq (hw : s.WF) (hd : look s base = some .dir) {log : Bool}
    (hr : log = true ∨ ∀ w, look s (base ++ [c!"extensions", w]) = some .dir → w ∈ registeredExtensions) :
    objectPaths E log s base = .ok
      { paths := ((traversal s base).filter (fun q => decide (classify (visitOf s base q) = .object))).map (joinWith '/'),
        errors := ((traversal s base).filter (fun q => decide (classify (visitOf s base q) = .error))).map (joinWith '/'),
        extensionErrors := if look s (base ++ [c!"extensions"]) = some .dir then (extensionFiles s base).length else 0 } := by
  have hwalk : fswWalkPruned s base pruneDirs c!"/" = .ok ((treeWalk (nextOf s base) (FS.depth s) []).map (visitOf s base)) :=
    walkPruned_eq hw (fun _ => rfl) (nextOf_sub s base) (nextOf_nodup hw) (by simp) (by simpa using hd) (.inr rfl)
  have hsafe : ∀ q ∈ treeWalk (nextOf s base) (FS.depth s) [], ∀ w ∈ q, SafeName w := by
    intro q hq w hm
    have hl := treeWalk_look hw (nextOf_sub s base) (by simpa using hd) hq
    exact look_names hw hl w (by simp [hm])
  have hbelow : ((treeWalk (nextOf s base) (FS.depth s) []).map (visitOf s base)).filter (fun v => decide (v.dirpath ≠ c!"/")) =
      (traversal s base).map (visitOf s base) := by
    unfold traversal
    rw [List.filter_map]
    congr 1
    apply List.filter_congr
    intro q hq
    have := dirpath_root q (hsafe q hq)
    show decide (dstr q ≠ c!"/") = decide (q ≠ [])
    exact decide_eq_decide.mpr (not_congr this)
  have hmap : ∀ p : Visit → Bool, ((((traversal s base).map (visitOf s base)).filter p).map (fun v => lstripSlash v.dirpath)) =
      ((traversal s base).filter (fun q => p (visitOf s base q))).map (joinWith '/') := by
    intro p
    rw [List.filter_map, List.map_map]
    apply List.map_congr_left
    intro q hq
    have hq := (List.mem_filter.mp (List.mem_filter.mp hq).1).1
    show lstripSlash (dstr q) = _
    exact lstripSlash_slash (isComp_list (hsafe q hq))
  have hany : (((treeWalk (nextOf s base) (FS.depth s) []).map (visitOf s base)).any
      (fun v => decide (v.dirpath = c!"/" ∧ c!"extensions" ∈ v.dirs))) = true ↔ look s (base ++ [c!"extensions"]) = some .dir := by
    rw [List.any_eq_true]
    constructor
    · rintro ⟨v, hv, h⟩
      obtain ⟨q, hq, rfl⟩ := List.mem_map.mp hv
      have h := of_decide_eq_true h
      have := (dirpath_root q (hsafe q hq)).mp h.1
      subst this
      have := (mem_dirNames hw).mp h.2
      simpa using this
    · intro h
      refine ⟨visitOf s base [], List.mem_map.mpr ⟨[], (mem_traversal hw hd).mpr (.inl rfl), rfl⟩, decide_eq_true ⟨rfl, ?_⟩⟩
      refine (mem_dirNames hw).mpr ?_
      simpa using h
  unfold objectPaths
  rw [hwalk]
  dsimp only
  rw [hbelow, hmap, hmap]
  by_cases hx : look s (base ++ [c!"extensions"]) = some .dir
  · rw [if_pos (hany.mpr hx), validateExtensions_eq hw hx hr, if_pos hx]
  · rw [if_neg (fun h => hx (hany.mp h)), if_neg hx]

theorem nodup_paths (hw : s.WF) (hd : look s base = some .dir) (p : List Str → Bool) :
    (((traversal s base).filter p).map (joinWith '/')).Nodup := by
  have hn : (treeWalk (nextOf s base) (FS.depth s) []).Nodup := treeWalk_nodup (nextOf_nodup hw) _ _
  have hsafe : ∀ q ∈ (traversal s base).filter p, ∀ w ∈ q, SafeName w := by
    intro q hq w hm
    have h := (mem_traversal' hw hd).mp (List.mem_filter.mp hq).1
    exact look_names hw h.dir w (by simp [hm])
  refine List.Nodup.map_on (fun a ha b hb e => joinWith_inj' (hsafe a ha) (hsafe b hb) e) ?_
  exact (hn.filter _).filter _

end Store
end Ocfl
