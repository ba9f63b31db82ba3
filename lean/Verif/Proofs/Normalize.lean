import Verif.Proofs.Inventory

/-! # Lemmas on re-keying digest maps -/

namespace Ocfl
open Spec Ocfl.Inv

/-- New key of `d`. -/
def renameBy (L : List (Str × Str)) (d : Str) : Str := (Dict.get? L d).getD d

/-- Re-keying: distinct old keys, new keys distinct and not in use. -/
theorem applyFromTo_spec (L : List (Str × Str)) : ∀ (m : DigestMap), Dict.NK m →
    (L.map Prod.fst).Nodup → (L.map Prod.snd).Nodup → (∀ x ∈ L, x.1 ∈ Dict.keys m) →
    (∀ x ∈ L, x.2 ∉ Dict.keys m) →
    Dict.NK (applyFromTo L m) ∧
    (∀ d ∈ Dict.keys m, Dict.get? (applyFromTo L m) (renameBy L d) = Dict.get? m d) ∧
    (∀ k ∈ Dict.keys (applyFromTo L m), ∃ d ∈ Dict.keys m, k = renameBy L d) := by
  induction L with
  | nil =>
    intro m hm _ _ _ _
    refine ⟨hm, ?_, ?_⟩
    · intro d _; rfl
    · intro k hk; exact ⟨k, hk, rfl⟩
  | cons x L ih =>
    obtain ⟨o, n⟩ := x
    intro m hm h1 h2 h3 h4
    simp only [List.map_cons, List.nodup_cons] at h1 h2
    obtain ⟨v, hv⟩ := Dict.exists_of_mem_keys (h3 (o, n) (by simp))
    unfold applyFromTo
    rw [hv]
    simp only
    have hno : n ∉ Dict.keys m := h4 (o, n) (by simp)
    have hon : o ≠ n := by
      rintro rfl; exact hno (Dict.mem_keys_of_get? hv)
    have hm1 : Dict.NK (Dict.set (Dict.erase m o) n v) := Dict.NK_set (Dict.NK_erase hm _) _ _
    have hkeys : ∀ k, k ∈ Dict.keys (Dict.set (Dict.erase m o) n v) ↔ k = n ∨ (k ≠ o ∧ k ∈ Dict.keys m) := by
      intro k; rw [Dict.mem_keys_set, Dict.mem_keys_erase hm]
    obtain ⟨i1, i2, i3⟩ := ih _ hm1 h1.2 h2.2
      (by
        intro x hx
        rw [hkeys]
        right
        refine ⟨?_, h3 x (List.mem_cons_of_mem _ hx)⟩
        intro e; exact h1.1 (List.mem_map.mpr ⟨x, hx, e⟩))
      (by
        intro x hx
        rw [hkeys]
        rintro (e | ⟨_, e⟩)
        · exact h2.1 (List.mem_map.mpr ⟨x, hx, e⟩)
        · exact h4 x (List.mem_cons_of_mem _ hx) e)
    have hLn : Dict.get? L n = none := by
      rw [Dict.get?_eq_none_iff]
      intro hmem
      obtain ⟨y, hy, he⟩ := List.mem_map.mp hmem
      have := h3 y (List.mem_cons_of_mem _ hy)
      rw [he] at this
      exact hno this
    have hren : ∀ d, renameBy ((o, n) :: L) d = if o = d then n else renameBy L d := by
      intro d
      unfold renameBy
      rw [Dict.get?_cons]
      split <;> rfl
    refine ⟨i1, ?_, ?_⟩
    · intro d hd
      rw [hren]
      by_cases ho : o = d
      · subst ho
        have := i2 n (by rw [hkeys]; exact Or.inl rfl)
        have hr : renameBy L n = n := by unfold renameBy; rw [hLn]; rfl
        rw [hr] at this
        rw [if_pos rfl, this, Dict.get?_set_self, hv]
      · rw [if_neg ho]
        have hdn : d ≠ n := by rintro rfl; exact hno hd
        rw [i2 d (by rw [hkeys]; exact Or.inr ⟨Ne.symm ho, hd⟩), Dict.get?_set, if_neg (Ne.symm hdn),
          Dict.get?_erase hm, if_neg ho]
    · intro k hk
      obtain ⟨d, hd, rfl⟩ := i3 k hk
      rw [hkeys] at hd
      rcases hd with rfl | ⟨hdo, hd⟩
      · refine ⟨o, Dict.mem_keys_of_get? hv, ?_⟩
        rw [hren, if_pos rfl]
        unfold renameBy; rw [hLn]; rfl
      · refine ⟨d, hd, ?_⟩
        rw [hren, if_neg (Ne.symm hdo)]

theorem mem_fromTo {alg : Str} {ks : List Str} {x : Str × Str} :
    x ∈ fromTo alg ks ↔ x.1 ∈ ks ∧ x.2 = normalizedDigest x.1 alg ∧ x.1 ≠ x.2 := by
  obtain ⟨a, b⟩ := x
  unfold fromTo
  rw [List.mem_filterMap]
  constructor
  · rintro ⟨d, hd, h⟩
    simp only at h
    split at h
    · simp at h; obtain ⟨rfl, rfl⟩ := h; exact ⟨hd, rfl, by assumption⟩
    · cases h
  · rintro ⟨h1, h2, h3⟩
    simp only at h1 h2 h3
    refine ⟨a, h1, ?_⟩
    subst h2
    simp [h3]

theorem fromTo_fst_sublist (alg : Str) (ks : List Str) : ((fromTo alg ks).map Prod.fst).Sublist ks := by
  induction ks with
  | nil => simp [fromTo]
  | cons k ks ih =>
    unfold fromTo at ih ⊢
    rw [List.filterMap_cons]
    simp only
    split
    · rename_i h
      exact ih.trans (List.sublist_cons_self _ _)
    · rename_i y h
      split at h
      · simp at h; subst h
        simp only [List.map_cons]
        exact ih.cons_cons k
      · cases h

/-- No two keys have the same normal form. -/
def DistinctUpToCase (alg : Str) (m : DigestMap) : Prop :=
  ∀ k ∈ Dict.keys m, ∀ k' ∈ Dict.keys m, normalizedDigest k alg = normalizedDigest k' alg → k = k'

theorem normalizeMap_spec {alg : Str} {m : DigestMap} (hm : Dict.NK m) (hd : DistinctUpToCase alg m) :
    Dict.NK (normalizeMap alg m) ∧
    (∀ d ∈ Dict.keys m, Dict.get? (normalizeMap alg m) (normalizedDigest d alg) = Dict.get? m d) ∧
    (∀ k ∈ Dict.keys (normalizeMap alg m), ∃ d ∈ Dict.keys m, k = normalizedDigest d alg) := by
  have hfst : ((fromTo alg (Dict.keys m)).map Prod.fst).Nodup := (fromTo_fst_sublist _ _).nodup hm
  have hsnd : ((fromTo alg (Dict.keys m)).map Prod.snd).Nodup := by
    unfold List.Nodup at hfst ⊢
    rw [List.pairwise_map] at hfst ⊢
    refine List.Pairwise.imp_of_mem ?_ hfst
    intro a b ha hb hab he
    obtain ⟨a1, a2, _⟩ := mem_fromTo.mp ha
    obtain ⟨b1, b2, _⟩ := mem_fromTo.mp hb
    exact hab (hd _ a1 _ b1 (by rw [← a2, ← b2, he]))
  obtain ⟨h1, h2, h3⟩ := applyFromTo_spec (fromTo alg (Dict.keys m)) m hm hfst hsnd
    (fun x hx => (mem_fromTo.mp hx).1)
    (by
      intro x hx hmem
      obtain ⟨a1, a2, a3⟩ := mem_fromTo.mp hx
      apply a3
      apply hd _ a1 _ hmem
      rw [a2, C05_idempotent])
  have hren : ∀ d ∈ Dict.keys m, renameBy (fromTo alg (Dict.keys m)) d = normalizedDigest d alg := by
    intro d hdm
    unfold renameBy
    cases hg : Dict.get? (fromTo alg (Dict.keys m)) d with
    | some n =>
      have := (mem_fromTo.mp (Dict.mem_of_get? hg)).2.1
      simpa using this
    | none =>
      rw [Dict.get?_eq_none_iff] at hg
      simp only [Option.getD_none]
      by_contra hne
      apply hg
      exact List.mem_map.mpr ⟨(d, normalizedDigest d alg), mem_fromTo.mpr ⟨hdm, rfl, hne⟩, rfl⟩
  refine ⟨h1, ?_, ?_⟩
  · intro d hdm
    have := h2 d hdm
    rw [hren d hdm] at this
    exact this
  · intro k hk
    obtain ⟨d, hdm, rfl⟩ := h3 k hk
    exact ⟨d, hdm, hren d hdm⟩

theorem Lists_normalizeMap {alg : Str} {m : DigestMap} (hm : Dict.NK m) (hd : DistinctUpToCase alg m) {k p : Str} :
    Lists (normalizeMap alg m) k p ↔ ∃ d, Lists m d p ∧ k = normalizedDigest d alg := by
  obtain ⟨h1, h2, h3⟩ := normalizeMap_spec hm hd
  constructor
  · rintro ⟨ps, hps, hp⟩
    obtain ⟨d, hdm, rfl⟩ := h3 k (Dict.mem_keys_of_mem hps)
    have hg := Dict.get?_of_mem h1 hps
    rw [h2 d hdm] at hg
    exact ⟨d, Lists_of_get? hg hp, rfl⟩
  · rintro ⟨d, ⟨ps, hps, hp⟩, rfl⟩
    have hg := h2 d (Dict.mem_keys_of_mem hps)
    rw [Dict.get?_of_mem hm hps] at hg
    exact Lists_of_get? hg hp

theorem normalizeMap_normal {alg : Str} {m : DigestMap} (hm : Dict.NK m) (hd : DistinctUpToCase alg m) :
    ∀ k ∈ Dict.keys (normalizeMap alg m), normalizedDigest k alg = k := by
  intro k hk
  obtain ⟨d, _, rfl⟩ := (normalizeMap_spec hm hd).2.2 k hk
  exact C05_idempotent d alg

theorem normalizeMap_of_normal {alg : Str} {m : DigestMap} (h : ∀ k ∈ Dict.keys m, normalizedDigest k alg = k) :
    normalizeMap alg m = m := by
  have : fromTo alg (Dict.keys m) = [] := by
    rw [List.eq_nil_iff_forall_not_mem]
    intro x hx
    obtain ⟨h1, h2, h3⟩ := mem_fromTo.mp hx
    exact h3 (by rw [h2, h _ h1])
  unfold normalizeMap
  rw [this]
  rfl

end Ocfl
