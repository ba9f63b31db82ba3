import Verif.Proofs.Sound

/-!
# What an inventory says about a version
-/

namespace Ocfl

open Spec FS Prog Ocfl.Inv

/-- The metadata of a version. -/
def metaAt (inv : Inv) (v : Str) : Option VBlock := (Dict.get? inv.versionsD v).map (fun b => { b with state := none })

theorem get?_map_snd {α β γ : Type} [DecidableEq α] (f : β → γ) : ∀ (d : Dict α β) (k : α),
    Dict.get? (d.map (fun e => (e.1, f e.2))) k = (Dict.get? d k).map f
  | [], _ => rfl
  | (a, b) :: d, k => by
    have ih := get?_map_snd f d k
    by_cases h : a = k
    · subst h
      simp [Dict.get?]
    · simp only [List.map_cons, Dict.get?]
      rw [if_neg h, if_neg h]
      exact ih

theorem metaAt_sorted {inv : Inv} {alg : Str} {m : DigestMap} {vs : Dict Str VBlock} {style : Option Nat} {n : Nat}
    (h : Parsed inv alg m vs style n) (v : Str) : metaAt inv.sorted v = metaAt inv v := by
  unfold metaAt
  rw [h.sorted.good.versionsD, h.good.versionsD, Dict.get?_sorted, get?_map_snd (fun b : VBlock => b.sorted)]
  · cases Dict.get? vs v <;> rfl
  · have := h.good.versionKeys
    unfold Dict.NK at this ⊢
    rw [List.map_map]
    exact this

theorem rehashVersions_meta {o2n : Dict Str Str} : ∀ {vs vs' : Dict Str VBlock}, rehashVersions o2n vs = .ok vs' → ∀ v,
    (Dict.get? vs' v).map (fun b => { b with state := none }) = (Dict.get? vs v).map (fun b => { b with state := none })
  | [], vs', h, _ => by cases h; rfl
  | (w, b) :: rest, vs', h, v => by
    unfold rehashVersions at h
    split at h
    · cases h
    · split at h
      · cases h
      · rename_i st _ rest' hr
        cases h
        have ih := rehashVersions_meta hr v
        by_cases hw : w = v
        · subst hw
          simp [Dict.get?]
        · simp only [Dict.get?]
          rw [if_neg hw, if_neg hw]
          exact ih

theorem metaAt_changeFixity (inv : Inv) (a b : Str) (fx : Option (List Str)) (v : Str) : metaAt (changeFixity inv a b fx) v = metaAt inv v := by
  unfold changeFixity
  split
  · split
    · rfl
    · rfl
  · rfl

theorem metaAt_changeDigest {E : Env} {s : FS} {base : Path} {old new : Str} {inv inv' : Inv}
    (h : changeDigest E s base old new inv = .ok inv') (v : Str) : metaAt inv' v = metaAt inv v := by
  obtain ⟨_, _, _, h1, h2⟩ := changeDigest_ok h
  by_cases he : new = old
  · have := (h1 he).2
    unfold metaAt Inv.versionsD
    rw [this]
  · obtain ⟨o2n, _, h3⟩ := h2 he
    exact rehashVersions_meta h3 v

theorem metaAt_added {EN : NVEnv} {nv0 nv : NV} {head : Str} {done : List Str} (h : NV.Added EN nv0 head done nv) (v : Str) :
    metaAt nv.inv v = metaAt nv0.inv v := by
  by_cases hd : done = []
  · rw [h.none_done hd]
  · have e := h.inv hd
    have e2 : metaAt nv.inv v = metaAt (nv0.inv.setState head (nv.inv.stateOf head)) v := by
      conv_lhs => rw [e]
      rfl
    rw [e2]
    unfold Inv.setState
    split
    · rfl
    · rename_i b hb
      unfold metaAt
      show Option.map _ (Dict.get? (Dict.set nv0.inv.versionsD head _) v) = _
      rw [Dict.get?_set]
      split
      · rename_i hv
        subst hv
        have : Dict.get? nv0.inv.versionsD head = some b := hb
        rw [this]
        rfl
      · rfl

theorem id_added {EN : NVEnv} {nv0 nv : NV} {head : Str} {done : List Str} (h : NV.Added EN nv0 head done nv) : nv.inv.id = nv0.inv.id := by
  by_cases hd : done = []
  · rw [h.none_done hd]
  · rw [h.inv hd]
    show (nv0.inv.setState head (nv.inv.stateOf head)).id = _
    unfold Inv.setState
    split <;> rfl

/-- The metadata of a new object. -/
theorem create_meta {E : Env} {o : Obj} (ho : GoodSettings o) {srcdir objdir : Str} {block : VBlock} (hmeta : GoodMeta (some block)) {s s' : FS}
    (hw : s.WF) {inv : Inv} (hr : run (create E o srcdir (some block) (some objdir)) s = (s', .ok inv)) :
    inv.id = o.id ∧ ∀ v, metaAt inv v = if v = styleName none 1 then some block else none := by
  obtain ⟨src, nv, hp, rfl, _, _⟩ := create_inv hr
  obtain ⟨nv0, srcs, hff⟩ := prepareFirst_ok hw ho hmeta hp
  refine ⟨(id_added hff.added).trans hff.id, fun v => ?_⟩
  rw [metaAt_added hff.added]
  unfold metaAt Inv.versionsD
  rw [hff.ground.versions]
  show Option.map _ (Dict.get? (Dict.set [] (styleName none (0 + 1)) block) v) = _
  rw [Dict.get?_set]
  have hb : ({ block with state := none } : VBlock) = block := by
    have := hmeta.noState block rfl
    cases block
    simp_all
  by_cases hv : v = styleName none 1
  · subst hv
    simp [hb]
  · rw [if_neg (fun h => hv h.symm), if_neg hv]
    rfl

end Ocfl
