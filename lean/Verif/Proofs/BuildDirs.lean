import Verif.Proofs.ObjPaths
import Verif.Proofs.StartVersion
import Verif.Spec.History
import Verif.Props.VersionDir
import Verif.Props.Inventory

/-!
# The directories that `build` takes for versions
-/

namespace Ocfl

open Spec FS Prog

/-- A name joined to a path. -/
theorem absComps_osPathJoin (cwd : Path) (p : Str) {w : Str} (hw : SafeName w) : absComps cwd (osPathJoin p w) = absComps cwd p ++ [w] := by
  have hs : '/' ∉ w := hw.2.2.2
  have hstep : ∀ acc : List Str, [w].foldl normStep acc = acc ++ [w] := by
    intro acc
    show normStep acc w = _
    unfold normStep
    rw [if_neg (by rintro (h | h); exact hw.1 h; exact hw.2.1 h), if_neg hw.2.2.1]
  have e0 : osPathJoin p w = if p = [] ∨ endsWith p c!"/" then p ++ w else p ++ c!"/" ++ w := by
    unfold osPathJoin
    split
    · exact absurd (List.mem_cons_self) hs
    · rfl
  rw [e0]
  by_cases hp : p = []
  · subst hp
    rw [if_pos (Or.inl rfl), List.nil_append]
    unfold absComps
    rw [startsWith_slash_no hs, splitOn_of_no_sep hs, hstep]
    rfl
  · by_cases he : endsWith p c!"/" = true
    · rw [if_pos (Or.inr he)]
      obtain ⟨q, hq⟩ := endsWith_iff.mp he
      have h1 := namesOf_append q 1 w (by decide) hs
      have h2 := namesOf_append q 1 [] (by decide) (by simp)
      rw [if_neg hw.1] at h1
      rw [if_pos rfl] at h2
      simp only [List.replicate_one, List.append_nil] at h1 h2
      unfold absComps
      rw [foldl_namesOf', foldl_namesOf', startsWith_slash_append hp]
      have e1 : p = q ++ ['/'] := hq
      rw [e1, h1, h2, List.foldl_append, hstep]
    · rw [if_neg (by rintro (h | h); exact hp h; exact he h)]
      have h1 := namesOf_append p 1 w (by decide) hs
      rw [if_neg hw.1] at h1
      simp only [List.replicate_one] at h1
      unfold absComps
      rw [foldl_namesOf', foldl_namesOf', List.append_assoc, startsWith_slash_append hp, ← List.append_assoc,
        show (c!"/" : Str) = ['/'] from rfl, h1, List.foldl_append, hstep]

/-! ## The numbers of the directories -/

theorem versionNo_iff {w : Str} {m : Nat} : VersionNo w m ↔ parseVersionDirectory w = .ok m := (C02_parse_version_directory w m).symm

/-- The numbers and directories found. -/
structure VersionsFound (entries : List (Str × Bool)) (vs : Dict Nat Str) : Prop where
  keys : Dict.NK vs
  sound : ∀ m w, (m, w) ∈ vs → (w, true) ∈ entries ∧ VersionNo w m
  complete : ∀ m w, (w, true) ∈ entries → VersionNo w m → m ∈ Dict.keys vs

theorem versionsIn_found (entries : List (Str × Bool)) : VersionsFound entries (versionsIn entries) := by
  have key : ∀ (rest seen : List (Str × Bool)) (vs : Dict Nat Str), VersionsFound seen vs →
      VersionsFound (seen ++ rest) (rest.foldl (fun vs e =>
        if e.2 then
          match parseVersionDirectory e.1 with
          | .ok n => Dict.set vs n e.1
          | .error _ => vs
        else vs) vs) := by
    intro rest
    induction rest with
    | nil => intro seen vs h; simpa using h
    | cons e rest ih =>
      intro seen vs h
      rw [List.foldl_cons, show seen ++ e :: rest = (seen ++ [e]) ++ rest by simp]
      refine ih _ _ ?_
      obtain ⟨w, b⟩ := e
      cases b with
      | false =>
        refine ⟨h.keys, fun m w' hm => ?_, fun m w' hm hv => ?_⟩
        · obtain ⟨h1, h2⟩ := h.sound m w' hm
          exact ⟨List.mem_append_left _ h1, h2⟩
        · rcases List.mem_append.mp hm with hm | hm
          · exact h.complete m w' hm hv
          · simp at hm
      | true =>
        rw [if_pos rfl]
        cases hp : parseVersionDirectory w with
        | error e =>
          refine ⟨h.keys, fun m w' hm => ?_, fun m w' hm hv => ?_⟩
          · obtain ⟨h1, h2⟩ := h.sound m w' hm
            exact ⟨List.mem_append_left _ h1, h2⟩
          · rcases List.mem_append.mp hm with hm | hm
            · exact h.complete m w' hm hv
            · simp only [List.mem_singleton, Prod.mk.injEq, and_true] at hm
              subst hm
              rw [versionNo_iff, hp] at hv
              cases hv
        | ok n =>
          refine ⟨Dict.NK_set h.keys _ _, fun m w' hm => ?_, fun m w' hm hv => ?_⟩
          · rcases (Dict.mem_set h.keys).mp hm with hm | ⟨_, hm⟩
            · simp only [Prod.mk.injEq] at hm
              obtain ⟨rfl, rfl⟩ := hm
              exact ⟨by simp, versionNo_iff.mpr hp⟩
            · obtain ⟨h1, h2⟩ := h.sound m w' hm
              exact ⟨List.mem_append_left _ h1, h2⟩
          · rw [Dict.mem_keys_set]
            rcases List.mem_append.mp hm with hm | hm
            · exact Or.inr (h.complete m w' hm hv)
            · simp only [List.mem_singleton, Prod.mk.injEq, and_true] at hm
              subst hm
              rw [versionNo_iff, hp] at hv
              cases hv
              exact Or.inl rfl
  have := key entries [] [] ⟨by simp [Dict.NK], by simp, by simp⟩
  rw [List.nil_append] at this
  exact this

/-- What is found in a directory. -/
theorem versionDirs_found {s : FS} (hw : s.WF) {src : Path} (hd : look s src = some .dir) :
    ∃ vs : List (Nat × Str), (vs.map Prod.fst).Pairwise (· < ·) ∧ (∀ m w, (m, w) ∈ vs → VersionSource s src w m) ∧
      (∀ w m, VersionSource s src w m → m ∈ vs.map Prod.fst) ∧
      versionDirs s src = if vs.map Prod.fst = (List.range vs.length).map (· + 1) then .ok vs else .error .objectException := by
  have hl : listdir s src c!"/" = .ok ((children s src).map (fun e => (e.1, decide (e.2 = .dir)))) := by
    unfold listdir
    dsimp only
    rw [show resolve src c!"/" = src from rfl, hd]
    rfl
  have hmem : ∀ w, (w, true) ∈ (children s src).map (fun e => (e.1, decide (e.2 = .dir))) ↔ look s (src ++ [w]) = some .dir := by
    intro w
    rw [← mem_children hw]
    constructor
    · intro h
      obtain ⟨⟨w', nd⟩, h1, h2⟩ := List.mem_map.mp h
      simp only [Prod.mk.injEq, decide_eq_true_eq] at h2
      obtain ⟨rfl, rfl⟩ := h2
      exact h1
    · intro h
      exact List.mem_map.mpr ⟨_, h, by simp⟩
  have hf := versionsIn_found ((children s src).map (fun e => (e.1, decide (e.2 = .dir))))
  have hperm := List.perm_insertionSort (fun a b : Nat × Str => a.1 ≤ b.1) (versionsIn ((children s src).map (fun e => (e.1, decide (e.2 = .dir)))))
  have hsort := List.pairwise_insertionSort (fun a b : Nat × Str => a.1 ≤ b.1) (versionsIn ((children s src).map (fun e => (e.1, decide (e.2 = .dir)))))
  refine ⟨_, ?_, ?_, ?_, by unfold versionDirs; rw [hl]⟩
  · have hnd : ((List.insertionSort (fun a b : Nat × Str => a.1 ≤ b.1) (versionsIn ((children s src).map (fun e => (e.1, decide (e.2 = .dir)))))).map Prod.fst).Nodup :=
      (hperm.map Prod.fst).nodup_iff.mpr hf.keys
    have h2 := (List.pairwise_map (R := (· ≤ ·)) (f := Prod.fst)).mpr hsort
    exact (h2.and hnd).imp (fun h => Nat.lt_of_le_of_ne h.1 h.2)
  · intro m w hm
    obtain ⟨h1, h2⟩ := hf.sound m w (hperm.mem_iff.mp hm)
    exact ⟨(hmem w).mp h1, h2⟩
  · intro w m h
    have := hf.complete m w ((hmem w).mpr h.1) h.2
    exact (hperm.map Prod.fst).mem_iff.mpr this

/-- An increasing list of the numbers up to `n`. -/
theorem increasing_range {l : List Nat} {n : Nat} (hl : l.Pairwise (· < ·)) (h : ∀ m, m ∈ l ↔ ∃ k < n, m = k + 1) :
    l = (List.range n).map (· + 1) := by
  have hr : ((List.range n).map (· + 1)).Pairwise (· < ·) := by
    rw [List.pairwise_map]
    exact List.pairwise_lt_range.imp (fun h => by omega)
  refine List.Perm.eq_of_pairwise (le := (· < ·)) (fun a b _ _ h1 h2 => by omega) hl hr ?_
  rw [List.perm_ext_iff_of_nodup (hl.imp (fun h => by omega)) (hr.imp (fun h => by omega))]
  intro m
  rw [h]
  simp [eq_comm]

theorem unpaddedName_inj {m n : Nat} (h : unpaddedName m = unpaddedName n) : m = n := styleName_inj (w := none) h

/-- The name `v<m>` belongs to the number `m`. -/
theorem versionNo_unpadded {m m' : Nat} (h : VersionNo (unpaddedName m) m') : m' = m := by
  obtain ⟨ds, h1, _, _⟩ := h
  have h2 := spells_unpadded m
  have e := (spells_match h1).symm.trans (spells_match h2)
  rw [spells_val h1, spells_val h2, Option.some.inj e]

theorem Spec.VersionSources.number {s : FS} {src : Path} {n : Nat} (h : VersionSources s src n) {w : Str} {m : Nat} (hs : VersionSource s src w m) :
    w = unpaddedName m ∧ 1 ≤ m ∧ m ≤ n := by
  obtain ⟨k, hk, rfl⟩ := (h w).mp ⟨m, hs⟩
  have := versionNo_unpadded hs.2
  subst this
  exact ⟨rfl, by omega, by omega⟩

theorem Spec.VersionSources.dir {s : FS} {src : Path} {n : Nat} (h : VersionSources s src n) {k : Nat} (hk : k < n) :
    VersionSource s src (unpaddedName (k + 1)) (k + 1) := by
  obtain ⟨m, hm⟩ := (h _).mpr ⟨k, hk, rfl⟩
  have := versionNo_unpadded hm.2
  subst this
  exact hm

/-- There are not more than 99999 versions. -/
theorem Spec.VersionSources.limit {s : FS} {src : Path} {n : Nat} (h : VersionSources s src n) : n ≤ 99999 := by
  cases n with
  | zero => omega
  | succ k =>
    obtain ⟨_, ds, h1, h2, _⟩ := h.dir (Nat.lt_succ_self k)
    have e := (spells_match h1).symm.trans (spells_match (spells_unpadded (k + 1)))
    rw [Option.some.inj e] at h2
    have := (natStr_length_le_iff (by decide : 0 < 5)).mp h2
    omega

/-- The versions are found in order. -/
theorem versionDirs_sources {s : FS} (hw : s.WF) {src : Path} (hd : look s src = some .dir) {n : Nat} (h : VersionSources s src n) :
    versionDirs s src = .ok ((List.range n).map (fun k => (k + 1, unpaddedName (k + 1)))) := by
  obtain ⟨vs, h1, h2, h3, h4⟩ := versionDirs_found hw hd
  have hr := increasing_range (n := n) h1 (by
    intro m
    constructor
    · intro hm
      obtain ⟨⟨m', w⟩, hmem, rfl⟩ := List.mem_map.mp hm
      obtain ⟨_, k1, k2⟩ := h.number (h2 _ _ hmem)
      exact ⟨m' - 1, by omega, by dsimp only; omega⟩
    · rintro ⟨k, hk, rfl⟩
      exact h3 _ _ (h.dir hk))
  have hlen : vs.length = n := by simpa using congrArg List.length hr
  rw [h4, hlen, if_pos hr]
  have : vs = vs.map (fun e => (e.1, unpaddedName e.1)) := by
    conv_lhs => rw [← List.map_id vs]
    refine List.map_congr_left (fun e he => ?_)
    have := (h.number (h2 e.1 e.2 he)).1
    exact Prod.ext rfl this
  rw [this]
  have e2 : vs.map (fun e => (e.1, unpaddedName e.1)) = (vs.map Prod.fst).map (fun m => (m, unpaddedName m)) := by
    rw [List.map_map]; rfl
  rw [e2, hr, List.map_map]
  rfl

/-- When the names have no leading zeros, success means that no number is missing. -/
theorem sources_of_versionDirs {s : FS} (hw : s.WF) {src : Path} (hd : look s src = some .dir)
    (hplain : ∀ w m, VersionSource s src w m → w = unpaddedName m) {vs : List (Nat × Str)} (h : versionDirs s src = .ok vs) :
    ∃ n, VersionSources s src n := by
  obtain ⟨vs', h1, h2, h3, h4⟩ := versionDirs_found hw hd
  rw [h4] at h
  split at h
  · rename_i hr
    refine ⟨vs'.length, fun w => ⟨?_, ?_⟩⟩
    · rintro ⟨m, hm⟩
      have := h3 w m hm
      rw [hr] at this
      obtain ⟨k, hk, rfl⟩ := List.mem_map.mp this
      exact ⟨k, List.mem_range.mp hk, hplain w _ hm⟩
    · rintro ⟨k, hk, rfl⟩
      have : k + 1 ∈ vs'.map Prod.fst := by rw [hr]; exact List.mem_map.mpr ⟨k, List.mem_range.mpr hk, rfl⟩
      obtain ⟨⟨m, w⟩, hmem, he⟩ := List.mem_map.mp this
      dsimp only at he
      subst he
      have hv := h2 _ _ hmem
      rw [← hplain _ _ hv]
      exact ⟨_, hv⟩
  · cases h

/-- A missing number is noticed. -/
theorem versionDirs_gap {s : FS} (hw : s.WF) {src : Path} (hd : look s src = some .dir) {w : Str} {m j : Nat} (h : VersionSource s src w m)
    (h1 : 1 ≤ j) (hj : j < m) (hno : ∀ w', ¬ VersionSource s src w' j) : versionDirs s src = .error .objectException := by
  obtain ⟨vs, k1, k2, k3, k4⟩ := versionDirs_found hw hd
  rw [k4, if_neg]
  intro hr
  have hm := k3 w m h
  rw [hr] at hm
  obtain ⟨k, hk, rfl⟩ := List.mem_map.mp hm
  have : j ∈ vs.map Prod.fst := by
    rw [hr]
    exact List.mem_map.mpr ⟨j - 1, by rw [List.mem_range] at hk ⊢; omega, by omega⟩
  obtain ⟨⟨j', w'⟩, hmem, rfl⟩ := List.mem_map.mp this
  exact hno w' (k2 _ _ hmem)

end Ocfl
