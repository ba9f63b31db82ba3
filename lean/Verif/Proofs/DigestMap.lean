import Verif.Py.DictLemmas
import Verif.Py.StrLemmas
import Verif.Model.Inventory
import Verif.Spec.State

/-! # Lemmas about digest-to-paths maps -/

namespace Ocfl

open Spec

namespace Inv

theorem flatMap_eq_listed (m : DigestMap) : m.flatMap Prod.snd = listed m := by
  simp [listed, List.flatMap]

theorem mem_listed {m : DigestMap} {p : Str} : p ∈ listed m ↔ ∃ d, Lists m d p := by
  unfold listed Lists
  simp only [List.mem_flatten, List.mem_map, Prod.exists, exists_eq_right]
  constructor
  · rintro ⟨l, ⟨a, ha⟩, hp⟩; exact ⟨a, l, ha, hp⟩
  · rintro ⟨a, l, ha, hp⟩; exact ⟨l, ⟨a, ha⟩, hp⟩

theorem listed_nil : listed [] = [] := rfl

theorem listed_cons (d : Str) (ps : List Str) (m : DigestMap) : listed ((d, ps) :: m) = ps ++ listed m := by
  simp [listed]

theorem Lists_nil (d p : Str) : ¬ Lists [] d p := by rintro ⟨ps, h, _⟩; simp at h

theorem Lists_cons {d' : Str} {ps : List Str} {m : DigestMap} {d p : Str} :
    Lists ((d', ps) :: m) d p ↔ (d = d' ∧ p ∈ ps) ∨ Lists m d p := by
  unfold Lists
  constructor
  · rintro ⟨qs, h, hp⟩
    rcases List.mem_cons.mp h with h | h
    · cases h; exact Or.inl ⟨rfl, hp⟩
    · exact Or.inr ⟨qs, h, hp⟩
  · rintro (⟨rfl, hp⟩ | ⟨qs, h, hp⟩)
    · exact ⟨ps, by simp, hp⟩
    · exact ⟨qs, by simp [h], hp⟩

theorem Lists_iff_get? {m : DigestMap} (hm : Dict.NK m) {d p : Str} :
    Lists m d p ↔ p ∈ (Dict.get? m d).getD [] := by
  unfold Lists
  constructor
  · rintro ⟨ps, h, hp⟩; rw [Dict.get?_of_mem hm h]; exact hp
  · intro h
    cases hg : Dict.get? m d with
    | none => simp [hg] at h
    | some ps => exact ⟨ps, Dict.mem_of_get? hg, by simpa [hg] using h⟩

theorem Lists_of_get? {m : DigestMap} {d p : Str} {ps : List Str} (h : Dict.get? m d = some ps)
    (hp : p ∈ ps) : Lists m d p := ⟨ps, Dict.mem_of_get? h, hp⟩

/-- With unique paths the digest of a path is determined. -/
theorem Lists_unique {m : DigestMap} (hu : PathsUnique m) {d d' p : Str} (h : Lists m d p)
    (h' : Lists m d' p) : d = d' := by
  induction m with
  | nil => exact absurd h (Lists_nil _ _)
  | cons x m ih =>
    obtain ⟨a, ps⟩ := x
    unfold PathsUnique at hu
    rw [listed_cons, List.nodup_append] at hu
    rw [Lists_cons] at h h'
    rcases h with ⟨rfl, hp⟩ | h <;> rcases h' with ⟨rfl, hp'⟩ | h'
    · rfl
    · exact absurd rfl (hu.2.2 p hp p (mem_listed.mpr ⟨_, h'⟩))
    · exact absurd rfl (hu.2.2 p hp' p (mem_listed.mpr ⟨_, h⟩))
    · exact ih hu.2.1 h h'

theorem digestFor_some {m : DigestMap} {p d : Str} (h : digestFor m p = some d) : Lists m d p := by
  induction m with
  | nil => simp [digestFor] at h
  | cons x m ih =>
    obtain ⟨a, ps⟩ := x
    unfold digestFor at h
    rw [Lists_cons]
    split at h
    · rename_i hp; simp at h; exact Or.inl ⟨h.symm, hp⟩
    · exact Or.inr (ih h)

theorem digestFor_none {m : DigestMap} {p : Str} : digestFor m p = none ↔ p ∉ listed m := by
  induction m with
  | nil => simp [digestFor, listed_nil]
  | cons x m ih =>
    obtain ⟨a, ps⟩ := x
    unfold digestFor
    rw [listed_cons]
    by_cases hp : p ∈ ps
    · simp [hp]
    · simp [hp, ih]

theorem digestFor_iff {m : DigestMap} (hu : PathsUnique m) {p d : Str} :
    digestFor m p = some d ↔ Lists m d p := by
  constructor
  · exact digestFor_some
  · intro h
    cases hd : digestFor m p with
    | none => exact absurd (mem_listed.mpr ⟨d, h⟩) (digestFor_none.mp hd)
    | some d' => rw [Lists_unique hu (digestFor_some hd) h]

/-! ## appending -/

theorem set_append_perm {m : DigestMap} {d : Str} {ps : List Str} (h : Dict.get? m d = some ps)
    (p : Str) : (listed (Dict.set m d (ps ++ [p]))).Perm (p :: listed m) := by
  induction m with
  | nil => simp at h
  | cons x m ih =>
    obtain ⟨a, qs⟩ := x
    by_cases ha : a = d
    · subst ha
      simp [Dict.get?] at h
      subst h
      simp only [Dict.set, if_true, listed_cons, List.append_assoc]
      simp
    · simp [Dict.get?, ha] at h
      simp only [Dict.set, ha, if_false, listed_cons]
      exact ((ih h).append_left qs).trans List.perm_middle

theorem set_new_perm {m : DigestMap} {d : Str} (h : Dict.get? m d = none) (p : Str) :
    (listed (Dict.set m d [p])).Perm (p :: listed m) := by
  rw [Dict.get?_eq_none_iff] at h
  rw [Dict.set_of_not_mem _ h]
  simp only [listed, List.map_append, List.flatten_append, List.map_cons, List.map_nil,
    List.flatten_cons, List.flatten_nil, List.append_nil]
  exact List.perm_append_comm

theorem stateAppend_perm (st : DigestMap) (d p : Str) :
    (listed (stateAppend st d p)).Perm (p :: listed st) := by
  unfold stateAppend
  cases h : Dict.get? st d with
  | some ps => exact set_append_perm h p
  | none => exact set_new_perm h p

theorem NK_stateAppend {st : DigestMap} (h : Dict.NK st) (d p : Str) : Dict.NK (stateAppend st d p) := by
  unfold stateAppend
  split <;> exact Dict.NK_set h _ _

theorem Lists_set {m : DigestMap} (hm : Dict.NK m) {d : Str} {ps : List Str} {d' p' : Str} :
    Lists (Dict.set m d ps) d' p' ↔ (d' = d ∧ p' ∈ ps) ∨ (d' ≠ d ∧ Lists m d' p') := by
  rw [Lists_iff_get? (Dict.NK_set hm _ _), Lists_iff_get? hm, Dict.get?_set]
  by_cases h : d = d'
  · subst h; simp
  · simp [h, Ne.symm h]

theorem Lists_stateAppend {st : DigestMap} (h : Dict.NK st) {d p d' p' : Str} :
    Lists (stateAppend st d p) d' p' ↔ Lists st d' p' ∨ (d' = d ∧ p' = p) := by
  unfold stateAppend
  cases hg : Dict.get? st d with
  | some ps =>
    simp only
    rw [Lists_set h]
    by_cases hd : d' = d
    · subst hd
      rw [Lists_iff_get? h, hg]
      simp
    · simp [hd]
  | none =>
    simp only
    rw [Lists_set h]
    by_cases hd : d' = d
    · subst hd
      rw [Lists_iff_get? h, hg]
      simp
    · simp [hd]

/-! ## deleting from a state -/

theorem deleteFromState_none {st : DigestMap} {p : Str} :
    deleteFromState st p = none ↔ p ∉ listed st := by
  induction st with
  | nil => simp [deleteFromState, listed_nil]
  | cons x st ih =>
    obtain ⟨a, ps⟩ := x
    unfold deleteFromState
    rw [listed_cons]
    by_cases hp : p ∈ ps
    · simp only [hp, if_true]; split <;> simp [hp]
    · simp only [hp, if_false]
      cases hr : deleteFromState st p with
      | none => simp [hp, ih.mp hr]
      | some r =>
        have : p ∈ listed st := by
          apply Classical.byContradiction; intro hn
          rw [ih.mpr hn] at hr; cases hr
        obtain ⟨a, b, c⟩ := r
        simp [this]

theorem deleteFromState_perm {st st' : DigestMap} {p d : Str} {last : Bool}
    (h : deleteFromState st p = some (st', d, last)) : (listed st).Perm (p :: listed st') := by
  induction st generalizing st' with
  | nil => simp [deleteFromState] at h
  | cons x st ih =>
    obtain ⟨a, ps⟩ := x
    unfold deleteFromState at h
    split at h
    · rename_i hp
      split at h
      · simp at h
        obtain ⟨rfl, rfl, rfl⟩ := h
        rw [listed_cons, listed_cons]
        exact (List.perm_cons_erase hp).append_right _
      · rename_i hl
        simp at h
        obtain ⟨rfl, rfl, rfl⟩ := h
        rw [listed_cons]
        have : ps = [p] := by
          match ps, hp, hl with
          | [q], hp, _ => simp at hp; rw [hp]
          | q :: r :: qs, _, hl => simp at hl
        rw [this]; simp
    · split at h
      · cases h
      · rename_i rest' d' last' hr
        simp at h
        obtain ⟨rfl, rfl, rfl⟩ := h
        rw [listed_cons, listed_cons]
        exact ((ih hr).append_left ps).trans List.perm_middle

theorem deleteFromState_get {st st' : DigestMap} {p d : Str} {last : Bool} (hst : Dict.NK st)
    (h : deleteFromState st p = some (st', d, last)) :
    Dict.NK st' ∧ (∀ x, x ∈ Dict.keys st' → x ∈ Dict.keys st) ∧
    ∃ ps, Dict.get? st d = some ps ∧ p ∈ ps ∧ (∀ x, x ≠ d → Dict.get? st' x = Dict.get? st x) ∧
      (last = true → ps = [p] ∧ Dict.get? st' d = none) ∧
      (last = false → 1 < ps.length ∧ Dict.get? st' d = some (ps.erase p)) := by
  induction st generalizing st' with
  | nil => simp [deleteFromState] at h
  | cons x st ih =>
    obtain ⟨a, ps⟩ := x
    rw [Dict.NK_cons] at hst
    unfold deleteFromState at h
    split at h
    · rename_i hp
      split at h
      · rename_i hl
        simp at h
        obtain ⟨rfl, rfl, rfl⟩ := h
        refine ⟨Dict.NK_cons.mpr ⟨hst.1, hst.2⟩, by simp [Dict.keys], ps, by simp [Dict.get?], hp, ?_,
          by simp, fun _ => ⟨hl, by simp [Dict.get?]⟩⟩
        intro x hx
        simp [Dict.get?, Ne.symm hx]
      · rename_i hl
        simp at h
        obtain ⟨rfl, rfl, rfl⟩ := h
        have hps : ps = [p] := by
          match ps, hp, hl with
          | [q], hp, _ => simp at hp; rw [hp]
          | q :: r :: qs, _, hl => simp at hl
        refine ⟨hst.2, ?_, ps, by simp [Dict.get?], hp, ?_, ?_, by simp⟩
        · intro x hx; simp only [Dict.keys, List.map_cons, List.mem_cons]; exact Or.inr hx
        · intro x hx
          simp [Dict.get?, Ne.symm hx]
        · intro _
          refine ⟨hps, ?_⟩
          rw [Dict.get?_eq_none_iff]; exact hst.1
    · split at h
      · cases h
      · rename_i rest' d' last' hr
        simp at h
        obtain ⟨rfl, rfl, rfl⟩ := h
        obtain ⟨hnk, hk, qs, hg, hpq, hne, hlt, hlf⟩ := ih hst.2 hr
        have had : a ≠ d' := by
          intro e; subst e
          exact hst.1 (Dict.mem_keys_of_get? hg)
        refine ⟨Dict.NK_cons.mpr ⟨fun hc => hst.1 (hk a hc), hnk⟩, ?_, qs, by simp [Dict.get?, had, hg],
          hpq, ?_, ?_, ?_⟩
        · intro x hx
          simp only [Dict.keys, List.map_cons, List.mem_cons] at hx ⊢
          rcases hx with hx | hx
          · exact Or.inl hx
          · exact Or.inr (hk x hx)
        · intro x hx
          by_cases hax : a = x
          · simp [Dict.get?, hax]
          · simp [Dict.get?, hax, hne x hx]
        · intro hl
          simp [Dict.get?, had, hlt hl]
        · intro hl
          simp [Dict.get?, had, hlf hl]

theorem PathsUnique_of_delete {st st' : DigestMap} {p d : Str} {last : Bool}
    (h : deleteFromState st p = some (st', d, last)) (hu : PathsUnique st) :
    PathsUnique st' ∧ p ∉ listed st' := by
  have := (deleteFromState_perm h).nodup_iff.mp hu
  rw [List.nodup_cons] at this
  exact ⟨this.2, this.1⟩

theorem Lists_delete {st st' : DigestMap} {p d : Str} {last : Bool} (hst : Dict.NK st)
    (hu : PathsUnique st) (h : deleteFromState st p = some (st', d, last)) {d' p' : Str} :
    Lists st' d' p' ↔ Lists st d' p' ∧ p' ≠ p := by
  obtain ⟨hnk, hk, ps, hg, hp, hne, hlt, hlf⟩ := deleteFromState_get hst h
  obtain ⟨hu', hnot⟩ := PathsUnique_of_delete h hu
  rw [Lists_iff_get? hnk, Lists_iff_get? hst]
  by_cases hd : d' = d
  · subst hd
    rw [hg]
    cases last with
    | true =>
      obtain ⟨rfl, hn⟩ := hlt rfl
      rw [hn]; simp
    | false =>
      obtain ⟨_, hn⟩ := hlf rfl
      rw [hn]
      simp only [Option.getD_some]
      constructor
      · intro h'
        refine ⟨List.mem_of_mem_erase h', ?_⟩
        rintro rfl
        exact hnot (mem_listed.mpr ⟨d', Lists_of_get? hn h'⟩)
      · rintro ⟨h1, h2⟩
        exact (List.mem_erase_of_ne h2).mpr h1
  · rw [hne d' hd]
    constructor
    · intro h'
      refine ⟨h', ?_⟩
      rintro rfl
      apply hd
      apply Lists_unique hu (p := p')
      · rw [Lists_iff_get? hst]; exact h'
      · rw [Lists_iff_get? hst, hg]; exact hp
    · exact fun h' => h'.1

theorem delete_digest {st st' : DigestMap} {p d : Str} {last : Bool} (hst : Dict.NK st)
    (h : deleteFromState st p = some (st', d, last)) : Lists st d p := by
  obtain ⟨_, _, ps, hg, hp, _⟩ := deleteFromState_get hst h
  exact Lists_of_get? hg hp

/-! ## dropping content paths of one version -/

theorem NK_dropVersionPaths {m : DigestMap} (hm : Dict.NK m) (v d : Str) : Dict.NK (dropVersionPaths m v d) := by
  unfold dropVersionPaths
  split
  · exact hm
  · exact Dict.NK_set hm _ _

theorem Lists_dropVersionPaths {m : DigestMap} (hm : Dict.NK m) {v d d' p' : Str} :
    Lists (dropVersionPaths m v d) d' p' ↔
      Lists m d' p' ∧ (d' = d → startsWith p' (v ++ c!"/") = false) := by
  unfold dropVersionPaths
  cases hg : Dict.get? m d with
  | none =>
    simp only
    constructor
    · intro h
      refine ⟨h, ?_⟩
      rintro rfl
      rw [Lists_iff_get? hm, hg] at h; simp at h
    · exact fun h => h.1
  | some ps =>
    simp only
    rw [Lists_set hm]
    by_cases hd : d' = d
    · subst hd
      rw [Lists_iff_get? hm, hg]
      simp
    · simp [hd]

theorem listed_set_sublist {m : DigestMap} {d : Str} {ps qs : List Str} (h : Dict.get? m d = some ps)
    (hs : qs.Sublist ps) : (listed (Dict.set m d qs)).Sublist (listed m) := by
  induction m with
  | nil => simp at h
  | cons x m ih =>
    obtain ⟨a, rs⟩ := x
    by_cases ha : a = d
    · subst ha
      simp [Dict.get?] at h
      subst h
      simp only [Dict.set, if_true, listed_cons]
      exact hs.append (List.Sublist.refl _)
    · simp [Dict.get?, ha] at h
      simp only [Dict.set, ha, if_false, listed_cons]
      exact (List.Sublist.refl _).append (ih h)

theorem dropVersionPaths_sublist (m : DigestMap) (v d : Str) :
    (listed (dropVersionPaths m v d)).Sublist (listed m) := by
  unfold dropVersionPaths
  cases hg : Dict.get? m d with
  | none => exact List.Sublist.refl _
  | some ps => exact listed_set_sublist hg List.filter_sublist

end Inv
end Ocfl
