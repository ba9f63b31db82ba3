import Verif.Proofs.StartVersion

/-!
# The change of the digest algorithm
-/

namespace Ocfl

open Spec FS Prog Ocfl.Inv

theorem newDigest_check {E : Env} {s : FS} {base : Path} {alg d d' : Str} : ∀ {fs : List Str},
    newDigest.check E s base alg d fs = .ok d' ↔ d' = d ∧ ∀ f ∈ fs, digestAt E s (FS.resolve base f) alg = .ok d
  | [] => by
    unfold newDigest.check
    simp [eq_comm]
  | g :: gs => by
    unfold newDigest.check
    split
    · rename_i e he
      constructor
      · intro h; cases h
      · rintro ⟨_, h⟩
        have := h g (by simp)
        rw [he] at this; cases this
    · rename_i dg hg
      split
      · rename_i hne
        constructor
        · intro h; cases h
        · rintro ⟨_, h⟩
          have := h g (by simp)
          rw [hg] at this
          exact absurd (Except.ok.inj this) hne
      · rename_i heq
        have heq : dg = d := by simpa using heq
        subst heq
        rw [newDigest_check (fs := gs)]
        constructor
        · rintro ⟨h1, h2⟩
          refine ⟨h1, ?_⟩
          intro f hf
          rcases List.mem_cons.mp hf with rfl | hf
          · exact hg
          · exact h2 f hf
        · rintro ⟨h1, h2⟩
          exact ⟨h1, fun f hf => h2 f (by simp [hf])⟩

/-- The new digest of a list of files is that of all of them. -/
theorem newDigest_ok {E : Env} {s : FS} {base : Path} {alg d : Str} {fs : List Str} :
    newDigest E s base alg fs = .ok d ↔ fs ≠ [] ∧ ∀ f ∈ fs, digestAt E s (FS.resolve base f) alg = .ok d := by
  unfold newDigest
  cases fs with
  | nil => simp
  | cons f rest =>
    dsimp only
    split
    · rename_i e he
      constructor
      · intro h; cases h
      · rintro ⟨_, h⟩
        have := h f (by simp)
        rw [he] at this; cases this
    · rename_i d' hd'
      rw [newDigest_check]
      constructor
      · rintro ⟨rfl, h⟩
        refine ⟨by simp, ?_⟩
        intro g hg
        rcases List.mem_cons.mp hg with rfl | hg
        · exact hd'
        · exact h g hg
      · rintro ⟨_, h⟩
        have := h f (by simp)
        rw [hd'] at this
        cases this
        exact ⟨rfl, fun g hg => h g (by simp [hg])⟩

/-- Every file of the manifest has a new digest, the same for files listed together. -/
def Renames (E : Env) (s : FS) (base : Path) (alg : Str) (m : DigestMap) (f : Str → Str) : Prop :=
  ∀ e ∈ m, newDigest E s base alg e.2 = .ok (f e.1)

theorem rehash_fold {E : Env} {s : FS} {base : Path} {alg : Str} : ∀ {m : DigestMap} {o2n o2n' : Dict Str Str} {acc acc' : DigestMap},
    Dict.NK m → rehash E s base alg m o2n acc = .ok (o2n', acc') →
    ∃ f, Renames E s base alg m f ∧ o2n' = m.foldl (fun o e => Dict.set o e.1 (f e.1)) o2n ∧
      acc' = m.foldl (fun a e => Dict.set a (f e.1) e.2) acc
  | [], o2n, o2n', acc, acc', _, h => by
    cases h
    exact ⟨_root_.id, (by intro e he; cases he), rfl, rfl⟩
  | (old, files) :: rest, o2n, o2n', acc, acc', hnk, h => by
    unfold rehash at h
    split at h
    · cases h
    · rename_i d hd
      obtain ⟨hn1, hn2⟩ := Dict.NK_cons.mp hnk
      obtain ⟨f, h1, h2, h3⟩ := rehash_fold hn2 h
      have hne : ∀ e ∈ rest, e.1 ≠ old := by
        intro e he heq
        exact hn1 (by rw [← heq]; exact Dict.mem_keys_of_mem he)
      refine ⟨fun k => if k = old then d else f k, ?_, ?_, ?_⟩
      · intro e he
        rcases List.mem_cons.mp he with rfl | he
        · simp [hd]
        · dsimp only; rw [if_neg (hne e he)]; exact h1 e he
      · rw [h2, List.foldl_cons]
        simp only [if_true]
        refine List.foldl_ext _ _ _ (fun a e he => ?_)
        rw [if_neg (hne e he)]
      · rw [h3, List.foldl_cons]
        simp only [if_true]
        refine List.foldl_ext _ _ _ (fun a e he => ?_)
        rw [if_neg (hne e he)]

theorem foldl_set_fresh {α β γ : Type} [DecidableEq α] {g : γ → α} {v : γ → β} : ∀ {l : List γ} {d : Dict α β},
    (l.map g).Nodup → (∀ e ∈ l, g e ∉ Dict.keys d) → l.foldl (fun a e => Dict.set a (g e) (v e)) d = d ++ l.map (fun e => (g e, v e))
  | [], d, _, _ => by simp
  | x :: l, d, hnd, hfr => by
    rw [List.map_cons, List.nodup_cons] at hnd
    rw [List.foldl_cons, foldl_set_fresh hnd.2, Dict.set_of_not_mem _ (hfr x (by simp))]
    · simp
    · intro e he hk
      rw [Dict.mem_keys_set] at hk
      rcases hk with hk | hk
      · exact hnd.1 (by rw [← hk]; exact List.mem_map_of_mem he)
      · exact hfr e (by simp [he]) hk

theorem listed_foldl_set {g : Str → Str} : ∀ {l : DigestMap} {d : DigestMap} {p : Str},
    p ∈ listed (l.foldl (fun a e => Dict.set a (g e.1) e.2) d) → p ∈ listed d ∨ p ∈ listed l
  | [], d, p, h => Or.inl h
  | x :: l, d, p, h => by
    rw [List.foldl_cons] at h
    rcases listed_foldl_set h with h | h
    · rw [mem_listed] at h
      obtain ⟨k, ps, hm, hp⟩ := h
      rcases Dict.mem_set_imp hm with hm | hm
      · exact Or.inl (mem_listed.mpr ⟨k, ps, hm, hp⟩)
      · right
        cases hm
        exact mem_listed.mpr ⟨x.1, x.2, by simp, hp⟩
    · right
      rw [mem_listed] at h ⊢
      obtain ⟨k, ps, hm, hp⟩ := h
      exact ⟨k, ps, by simp [hm], hp⟩

/-- A change of algorithm that succeeds, for distinct new digests. -/
theorem rehash_ok {E : Env} {s : FS} {base : Path} {alg : Str} {m m' : DigestMap} {o2n : Dict Str Str} (hnk : Dict.NK m)
    (h : rehash E s base alg m [] [] = .ok (o2n, m')) :
    ∃ f, Renames E s base alg m f ∧ (∀ d ∈ Dict.keys m, Dict.get? o2n d = some (f d)) ∧
      ((m.map (fun e => f e.1)).Nodup → m' = m.map (fun e => (f e.1, e.2))) ∧ Dict.NK m' ∧
      (∀ p ∈ listed m', p ∈ listed m) := by
  obtain ⟨f, h1, h2, h3⟩ := rehash_fold hnk h
  refine ⟨f, h1, ?_, ?_, ?_, ?_⟩
  · have hnd : (m.map Prod.fst).Nodup := hnk
    have e := foldl_set_fresh (g := fun e : Str × List Str => e.1) (v := fun e => f e.1) (l := m) (d := []) hnd
      (by intro e _ h; cases h)
    rw [h2, e, List.nil_append]
    intro d hd
    obtain ⟨ps, hps⟩ := Dict.exists_of_mem_keys hd
    refine Dict.get?_of_mem ?_ (List.mem_map.mpr ⟨(d, ps), Dict.mem_of_get? hps, rfl⟩)
    unfold Dict.NK
    rw [List.map_map]
    exact hnd
  · intro hnd
    have e := foldl_set_fresh (g := fun e : Str × List Str => f e.1) (v := fun e => e.2) (l := m) (d := []) hnd
      (by intro e _ h; cases h)
    rw [h3, e, List.nil_append]
  · rw [h3]
    have : ∀ (l d : DigestMap), Dict.NK d → Dict.NK (l.foldl (fun a e => Dict.set a (f e.1) e.2) d) := by
      intro l
      induction l with
      | nil => intro d hd; exact hd
      | cons x l ih => intro d hd; exact ih _ (Dict.NK_set hd _ _)
    exact this m [] List.nodup_nil
  · rw [h3]
    intro p hp
    rcases listed_foldl_set hp with h | h
    · cases h
    · exact h

theorem rehashState_ok {o2n : Dict Str Str} {f : Str → Str} : ∀ {st acc st' : DigestMap},
    (∀ d ∈ Dict.keys st, Dict.get? o2n d = some (f d)) → (st.map (fun e => f e.1)).Nodup → (∀ e ∈ st, f e.1 ∉ Dict.keys acc) →
    rehashState o2n st acc = .ok st' → st' = acc ++ st.map (fun e => (f e.1, e.2))
  | [], acc, st', _, _, _, h => by cases h; simp
  | (old, files) :: rest, acc, st', h1, h2, h3, h => by
    unfold rehashState at h
    rw [h1 old (by simp [Dict.keys])] at h
    dsimp only at h
    rw [List.map_cons, List.nodup_cons] at h2
    have := rehashState_ok (f := f) (fun d hd => h1 d (by
      have : d ∈ Dict.keys rest := hd
      simp only [Dict.keys, List.map_cons, List.mem_cons] at this ⊢
      exact Or.inr this)) h2.2 (by
        intro e he hk
        rw [Dict.mem_keys_set] at hk
        rcases hk with hk | hk
        · exact h2.1 (by rw [← hk]; exact List.mem_map_of_mem (f := fun e : Str × List Str => f e.1) he)
        · exact h3 e (by simp [he]) hk) h
    rw [this, Dict.set_of_not_mem _ (h3 (old, files) (by simp))]
    simp

/-- The states that a change of algorithm gives. -/
theorem rehashVersions_ok {o2n : Dict Str Str} {f : Str → Str} : ∀ {vs vs' : Dict Str VBlock},
    (∀ v b, (v, b) ∈ vs → (∀ d ∈ Dict.keys (b.state.getD []), Dict.get? o2n d = some (f d)) ∧
      ((b.state.getD []).map (fun e => f e.1)).Nodup) →
    rehashVersions o2n vs = .ok vs' →
    vs' = vs.map (fun e => (e.1, { e.2 with state := some ((e.2.state.getD []).map (fun x => (f x.1, x.2))) }))
  | [], vs', _, h => by cases h; rfl
  | (v, b) :: rest, vs', h1, h => by
    unfold rehashVersions at h
    split at h
    · cases h
    · rename_i st hst
      split at h
      · cases h
      · rename_i rest' hr
        cases h
        have e1 := rehashState_ok (h1 v b (by simp)).1 (h1 v b (by simp)).2 (by intro e _ h; cases h) hst
        have e2 := rehashVersions_ok (fun v' b' hm => h1 v' b' (by simp [hm])) hr
        rw [e1, e2]
        simp

end Ocfl
