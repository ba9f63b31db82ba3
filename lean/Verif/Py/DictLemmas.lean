import Verif.Py.Basic

/-! # Lemmas about dictionaries -/

set_option linter.unusedSectionVars false

namespace Ocfl
namespace Dict

variable {α β γ : Type} [DecidableEq α]

@[simp] theorem get?_nil (k : α) : get? ([] : Dict α β) k = none := rfl

theorem get?_cons (a : α) (b : β) (d : Dict α β) (k : α) :
    get? ((a, b) :: d) k = if a = k then some b else get? d k := rfl

theorem get?_set_self (d : Dict α β) (k : α) (v : β) : get? (set d k v) k = some v := by
  induction d with
  | nil => simp [set, get?]
  | cons p d ih =>
    obtain ⟨a, b⟩ := p
    by_cases h : a = k
    · simp [set, get?, h]
    · simp [set, get?, h, ih]

theorem get?_set_ne (d : Dict α β) {k k' : α} (v : β) (h : k ≠ k') :
    get? (set d k v) k' = get? d k' := by
  induction d with
  | nil => simp [set, get?, h]
  | cons p d ih =>
    obtain ⟨a, b⟩ := p
    by_cases h1 : a = k
    · have h2 : a ≠ k' := fun e => h (h1.symm.trans e)
      simp [set, get?, h1, h]
    · by_cases h2 : a = k'
      · simp [set, get?, h2, Ne.symm h]
      · simp [set, get?, h1, h2, ih]

theorem get?_set (d : Dict α β) (k k' : α) (v : β) :
    get? (set d k v) k' = if k = k' then some v else get? d k' := by
  by_cases h : k = k'
  · subst h; simp [get?_set_self]
  · simp [h, get?_set_ne d v h]

theorem get?_erase_ne (d : Dict α β) {k k' : α} (h : k ≠ k') :
    get? (erase d k) k' = get? d k' := by
  induction d with
  | nil => rfl
  | cons p d ih =>
    obtain ⟨a, b⟩ := p
    by_cases h1 : a = k
    · subst h1; simp [erase, get?, h]
    · by_cases h2 : a = k'
      · simp [erase, get?, h2, Ne.symm h]
      · simp [erase, get?, h1, h2, ih]

theorem get?_eq_none_iff (d : Dict α β) (k : α) : get? d k = none ↔ k ∉ keys d := by
  induction d with
  | nil => simp [keys]
  | cons p d ih =>
    obtain ⟨a, b⟩ := p
    by_cases h : a = k
    · simp [get?, keys, h]
    · have : k ≠ a := Ne.symm h
      simp [get?, keys, h, this] at *
      exact ih

theorem has_iff (d : Dict α β) (k : α) : has d k = true ↔ k ∈ keys d := by
  unfold has
  have := get?_eq_none_iff d k
  cases hg : get? d k with
  | none => simp [this.mp hg]
  | some v =>
    simp
    exact Classical.byContradiction (fun h => by rw [this.mpr h] at hg; cases hg)

theorem has_false_iff (d : Dict α β) (k : α) : has d k = false ↔ k ∉ keys d := by
  rw [← has_iff]; simp

theorem has_eq_false_iff_get (d : Dict α β) (k : α) : has d k = false ↔ get? d k = none := by
  simp [has]

theorem mem_of_get? {d : Dict α β} {k : α} {v : β} (h : get? d k = some v) : (k, v) ∈ d := by
  induction d with
  | nil => simp at h
  | cons p d ih =>
    obtain ⟨a, b⟩ := p
    by_cases h1 : a = k
    · simp [get?, h1] at h; simp [h1, h]
    · simp [get?, h1] at h; exact List.mem_cons_of_mem _ (ih h)

theorem mem_keys_of_get? {d : Dict α β} {k : α} {v : β} (h : get? d k = some v) : k ∈ keys d := by
  exact List.mem_map.mpr ⟨(k, v), mem_of_get? h, rfl⟩

theorem mem_keys_of_mem {d : Dict α β} {k : α} {v : β} (h : (k, v) ∈ d) : k ∈ keys d :=
  List.mem_map.mpr ⟨(k, v), h, rfl⟩

theorem exists_of_mem_keys {d : Dict α β} {k : α} (h : k ∈ keys d) : ∃ v, get? d k = some v := by
  cases hg : get? d k with
  | none => exact absurd h ((get?_eq_none_iff d k).mp hg)
  | some v => exact ⟨v, rfl⟩

theorem NK_nil : NK ([] : Dict α β) := List.nodup_nil

theorem NK_cons {a : α} {b : β} {d : Dict α β} : NK ((a, b) :: d) ↔ a ∉ keys d ∧ NK d := by
  unfold NK keys; simp

theorem get?_of_mem {d : Dict α β} (hd : NK d) {k : α} {v : β} (h : (k, v) ∈ d) :
    get? d k = some v := by
  induction d with
  | nil => simp at h
  | cons p d ih =>
    obtain ⟨a, b⟩ := p
    rw [NK_cons] at hd
    rcases List.mem_cons.mp h with h | h
    · cases h; simp [get?]
    · have : a ≠ k := by
        intro e; subst e; exact hd.1 (mem_keys_of_mem h)
      simp [get?, this]; exact ih hd.2 h

theorem mem_iff_get? {d : Dict α β} (hd : NK d) {k : α} {v : β} : (k, v) ∈ d ↔ get? d k = some v :=
  ⟨get?_of_mem hd, mem_of_get?⟩

theorem keys_set_of_mem {d : Dict α β} {k : α} (v : β) (h : k ∈ keys d) : keys (set d k v) = keys d := by
  induction d with
  | nil => simp [keys] at h
  | cons p d ih =>
    obtain ⟨a, b⟩ := p
    by_cases h1 : a = k
    · simp [set, keys, h1]
    · have h2 : k ∈ keys d := by
        simp [keys, Ne.symm h1] at h ⊢; exact h
      have h3 := ih h2
      simp only [set, h1, if_false]
      simp only [keys, List.map_cons] at *
      rw [h3]

theorem set_of_not_mem {d : Dict α β} {k : α} (v : β) (h : k ∉ keys d) : set d k v = d ++ [(k, v)] := by
  induction d with
  | nil => rfl
  | cons p d ih =>
    obtain ⟨a, b⟩ := p
    have h1 : a ≠ k := by
      intro e; apply h; simp [keys, e]
    have h2 : k ∉ keys d := by
      intro e; apply h; simp [keys] at *; exact Or.inr e
    simp [set, h1, ih h2]

theorem mem_keys_set {d : Dict α β} {k k' : α} {v : β} :
    k' ∈ keys (set d k v) ↔ k' = k ∨ k' ∈ keys d := by
  by_cases h : k ∈ keys d
  · rw [keys_set_of_mem v h]
    constructor
    · exact Or.inr
    · rintro (rfl | h') <;> assumption
  · rw [set_of_not_mem v h]
    simp [keys, or_comm, eq_comm]

theorem NK_set {d : Dict α β} (hd : NK d) (k : α) (v : β) : NK (set d k v) := by
  by_cases h : k ∈ keys d
  · have := keys_set_of_mem v h
    unfold NK; unfold keys at this; rw [this]; exact hd
  · rw [set_of_not_mem v h]
    unfold NK
    rw [List.map_append, List.nodup_append]
    refine ⟨hd, by simp, ?_⟩
    intro a ha b hb
    simp at hb; subst hb
    intro e; subst e
    exact h ha

theorem keys_erase {d : Dict α β} {k : α} : keys (erase d k) = (keys d).erase k := by
  induction d with
  | nil => rfl
  | cons p d ih =>
    obtain ⟨a, b⟩ := p
    by_cases h : a = k
    · simp [erase, keys, h]
    · have : (a == k) = false := by simpa using h
      simp [erase, keys, h, this] at *
      exact ih

theorem NK_erase {d : Dict α β} (hd : NK d) (k : α) : NK (erase d k) := by
  have := keys_erase (d := d) (k := k)
  unfold NK; unfold keys at this; rw [this]; exact List.Nodup.erase _ hd

theorem mem_keys_erase {d : Dict α β} (hd : NK d) {k k' : α} :
    k' ∈ keys (erase d k) ↔ k' ≠ k ∧ k' ∈ keys d := by
  rw [keys_erase]; exact List.Nodup.mem_erase_iff hd

theorem get?_erase_self {d : Dict α β} (hd : NK d) (k : α) : get? (erase d k) k = none := by
  rw [get?_eq_none_iff, mem_keys_erase hd]; simp

theorem get?_erase {d : Dict α β} (hd : NK d) (k k' : α) :
    get? (erase d k) k' = if k = k' then none else get? d k' := by
  by_cases h : k = k'
  · subst h; simp [get?_erase_self hd]
  · simp [h, get?_erase_ne d h]

theorem mem_erase {d : Dict α β} (hd : NK d) {k : α} {p : α × β} :
    p ∈ erase d k ↔ p.1 ≠ k ∧ p ∈ d := by
  obtain ⟨a, b⟩ := p
  rw [mem_iff_get? (NK_erase hd k), get?_erase hd, mem_iff_get? hd]
  by_cases h : k = a
  · simp [h]
  · simp [h, Ne.symm h]

theorem mem_set {d : Dict α β} (hd : NK d) {k : α} {v : β} {p : α × β} :
    p ∈ set d k v ↔ p = (k, v) ∨ (p.1 ≠ k ∧ p ∈ d) := by
  obtain ⟨a, b⟩ := p
  rw [mem_iff_get? (NK_set hd k v), get?_set, mem_iff_get? hd]
  by_cases h : k = a
  · subst h; simp [eq_comm]
  · simp [h, Ne.symm h]

theorem get?_append (d e : Dict α β) (k : α) : get? (d ++ e) k = (get? d k).or (get? e k) := by
  induction d with
  | nil => simp
  | cons p d ih =>
    obtain ⟨a, b⟩ := p
    by_cases h : a = k
    · simp [get?, h]
    · simp [get?, h, ih]

theorem get?_map_val (d : Dict α β) (f : β → γ) (k : α) :
    get? (d.map (fun p => (p.1, f p.2))) k = (get? d k).map f := by
  induction d with
  | nil => rfl
  | cons p d ih =>
    obtain ⟨a, b⟩ := p
    by_cases h : a = k
    · simp [get?, h]
    · simp [get?, h]; simpa using ih

theorem keys_map_val (d : Dict α β) (f : α × β → γ) :
    keys (d.map (fun p => (p.1, f p))) = keys d := by
  simp [keys, Function.comp_def]

theorem NK_map_val {d : Dict α β} (hd : NK d) (f : α × β → γ) : NK (d.map (fun p => (p.1, f p))) := by
  have := keys_map_val d f
  unfold NK; unfold keys at this; rw [this]; exact hd

theorem get?_perm {d e : Dict α β} (h : d.Perm e) (hd : NK d) (k : α) : get? d k = get? e k := by
  have he : NK e := (h.map Prod.fst).nodup_iff.mp hd
  cases hg : get? e k with
  | none =>
    rw [get?_eq_none_iff] at *
    intro hk; exact hg ((h.map Prod.fst).mem_iff.mp hk)
  | some v => exact get?_of_mem hd (h.mem_iff.mpr (mem_of_get? hg))

theorem has_set (d : Dict α β) (k k' : α) (v : β) : has (set d k v) k' = (decide (k = k') || has d k') := by
  unfold has; rw [get?_set]; by_cases h : k = k' <;> simp [h]

theorem set_set (d : Dict α β) (k : α) (v w : β) : set (set d k v) k w = set d k w := by
  induction d with
  | nil => simp [set]
  | cons p d ih =>
    obtain ⟨a, b⟩ := p
    by_cases h : a = k
    · simp [set, h]
    · simp [set, h, ih]

theorem mem_set_imp {d : Dict α β} {k : α} {v : β} {x : α × β} (h : x ∈ set d k v) : x ∈ d ∨ x = (k, v) := by
  induction d with
  | nil => simp [set] at h; exact Or.inr h
  | cons a d ih =>
    obtain ⟨a, b⟩ := a
    unfold set at h
    split at h
    · rename_i e
      rcases List.mem_cons.mp h with h | h
      · subst e; exact Or.inr h
      · exact Or.inl (List.mem_cons_of_mem _ h)
    · rcases List.mem_cons.mp h with h | h
      · exact Or.inl (by rw [h]; exact List.mem_cons_self ..)
      · rcases ih h with h | h
        · exact Or.inl (List.mem_cons_of_mem _ h)
        · exact Or.inr h

end Dict
end Ocfl
