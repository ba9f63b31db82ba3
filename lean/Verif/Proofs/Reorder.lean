import Verif.Spec.Reorder
import Verif.Proofs.InventoryIff
import Mathlib.Data.List.Forall2

/-!
# The rules for inventories do not depend on the order of members
-/

namespace Ocfl
open IV V Spec

theorem Spec.Reorder.symm {a b : Json} (h : Reorder a b) : Reorder b a := by
  induction h with
  | refl => exact .refl
  | trans _ _ i1 i2 => exact i2.trans i1
  | members h => exact .members h.symm
  | value _ ih => exact .value ih
  | element _ ih => exact .element ih

/-- The members of two reordered objects correspond. -/
def SameMembers (d d' : List (Str × Json)) : Prop :=
  ∃ e, d.Perm e ∧ List.Forall₂ (fun a b => a.1 = b.1 ∧ Reorder a.2 b.2) e d'

theorem sameMembers_refl (d : List (Str × Json)) : SameMembers d d :=
  ⟨d, .refl d, List.forall₂_same.mpr fun _ _ => ⟨rfl, .refl⟩⟩

theorem sameMembers_trans {a b c : List (Str × Json)} (h1 : SameMembers a b) (h2 : SameMembers b c) : SameMembers a c := by
  obtain ⟨e1, p1, f1⟩ := h1
  obtain ⟨e2, p2, f2⟩ := h2
  have hc : Relation.Comp (List.Forall₂ (fun (a b : Str × Json) => a.1 = b.1 ∧ Reorder a.2 b.2)) List.Perm e1 e2 :=
    ⟨b, f1, p2⟩
  rw [List.forall₂_comp_perm_eq_perm_comp_forall₂] at hc
  obtain ⟨e4, p4, f4⟩ := hc
  refine ⟨e4, p1.trans p4, ?_⟩
  clear p4 p1 p2 f1
  induction f4 generalizing c with
  | nil => cases f2; exact .nil
  | cons h _ ih =>
    cases f2 with
    | cons h' f => exact .cons ⟨h.1.trans h'.1, h.2.trans h'.2⟩ (ih f)

theorem reorder_obj {d : List (Str × Json)} {x : Json} (h : Reorder (.obj d) x) : ∃ d', x = .obj d' ∧ SameMembers d d' := by
  generalize hj : Json.obj d = j at h
  induction h generalizing d with
  | refl => subst hj; exact ⟨d, rfl, sameMembers_refl d⟩
  | trans _ _ i1 i2 =>
    obtain ⟨d1, rfl, h1⟩ := i1 hj
    obtain ⟨d2, rfl, h2⟩ := i2 rfl
    exact ⟨d2, rfl, sameMembers_trans h1 h2⟩
  | members h =>
    cases hj
    exact ⟨_, rfl, _, h, List.forall₂_same.mpr fun _ _ => ⟨rfl, .refl⟩⟩
  | value h _ =>
    cases hj
    refine ⟨_, rfl, _, .refl _, ?_⟩
    exact List.rel_append (List.forall₂_same.mpr fun _ _ => ⟨rfl, .refl⟩)
      (.cons ⟨rfl, h⟩ (List.forall₂_same.mpr fun _ _ => ⟨rfl, .refl⟩))
  | element _ _ => cases hj

theorem sameMembers_mem {d d' : List (Str × Json)} (h : SameMembers d d') {k : Str} {v : Json} (hm : (k, v) ∈ d) :
    ∃ v', (k, v') ∈ d' ∧ Reorder v v' := by
  obtain ⟨e, p, f⟩ := h
  have hm := p.mem_iff.mp hm
  clear p
  induction f with
  | nil => simp at hm
  | @cons a b _ _ hab _ ih =>
    rcases List.mem_cons.mp hm with hm | hm
    · subst hm
      obtain ⟨rfl, hr⟩ := hab
      exact ⟨b.2, by simp, hr⟩
    · obtain ⟨v', h1, h2⟩ := ih hm
      exact ⟨v', List.mem_cons_of_mem _ h1, h2⟩

theorem sameMembers_keys {d d' : List (Str × Json)} (h : SameMembers d d') : (d.map Prod.fst).Perm (d'.map Prod.fst) := by
  obtain ⟨e, p, f⟩ := h
  refine (p.map _).trans (List.Perm.of_eq ?_)
  clear p
  induction f with
  | nil => rfl
  | cons hab _ ih => simp [hab.1, ih]

theorem reorder_atom {j x : Json} (ha : ∀ l, j ≠ .arr l) (ho : ∀ d, j ≠ .obj d) (h : Reorder j x) : x = j := by
  induction h with
  | refl => rfl
  | trans _ _ i1 i2 =>
    have := i1 ha ho
    subst this
    exact i2 ha ho
  | members _ => exact absurd rfl (ho _)
  | value _ _ => exact absurd rfl (ho _)
  | element _ _ => exact absurd rfl (ha _)

theorem reorder_str {s : Str} {x : Json} (h : Reorder (.str s) x) : x = .str s :=
  reorder_atom (by simp) (by simp) h

theorem reorder_strs {ps : List Str} {x : Json} (h : Reorder (.arr (ps.map .str)) x) : x = .arr (ps.map .str) := by
  generalize hj : Json.arr (ps.map .str) = j at h
  induction h with
  | refl => rfl
  | trans _ _ i1 i2 =>
    have := i1 hj
    subst this
    exact i2 hj
  | members _ => cases hj
  | value _ _ => cases hj
  | @element a v v' b h _ =>
    simp only [Json.arr.injEq] at hj
    obtain ⟨s, _, rfl⟩ : ∃ s ∈ ps, Json.str s = v := List.mem_map.mp (by rw [hj]; simp)
    rw [reorder_str h]

theorem reorder_digestMap {m : List (Str × List Str)} {x : Json} (h : Reorder (ofDigestMap m) x) :
    ∃ m', x = ofDigestMap m' ∧ m.Perm m' := by
  generalize hj : ofDigestMap m = j at h
  induction h generalizing m with
  | refl => exact ⟨m, hj.symm, .refl m⟩
  | trans _ _ i1 i2 =>
    obtain ⟨m1, e1, p1⟩ := i1 hj
    obtain ⟨m2, e2, p2⟩ := i2 e1.symm
    exact ⟨m2, e2, p1.trans p2⟩
  | @members d d' h =>
    rw [ofDigestMap_eq, Json.obj.injEq] at hj
    subst hj
    have hd : d' = encMap (decMap (.obj d')) := by
      have hall : ∀ x ∈ d', ∃ e : Str × List Str, x = (e.1, .arr (e.2.map .str)) := by
        intro x hx
        obtain ⟨e, _, he⟩ := List.mem_map.mp (h.mem_iff.mpr hx)
        exact ⟨e, he.symm⟩
      obtain ⟨m', hm'⟩ : ∃ m', d' = encMap m' := by
        clear h
        induction d' with
        | nil => exact ⟨[], rfl⟩
        | cons x d' ih =>
          obtain ⟨e, rfl⟩ := hall x (by simp)
          obtain ⟨m', rfl⟩ := ih (fun y hy => hall y (by simp [hy]))
          exact ⟨e :: m', rfl⟩
      rw [hm', ← ofDigestMap_eq, decMap_of]
    refine ⟨decMap (.obj d'), by rw [ofDigestMap_eq, ← hd], ?_⟩
    rw [hd] at h
    have := h.map (fun e => (e.1, match e.2 with
      | .arr l => l.filterMap Json.str?
      | _ => []))
    unfold encMap at this
    simp only [List.map_map] at this
    have hf : ∀ l : List Str, (l.map Json.str).filterMap Json.str? = l := by
      intro l
      induction l with
      | nil => rfl
      | cons a l ih => show a :: List.filterMap Json.str? (l.map Json.str) = _; rw [ih]
    have hid : ∀ M : List (Str × List Str), List.map ((fun e : Str × Json => (e.1, match e.2 with
      | .arr l => l.filterMap Json.str?
      | _ => [])) ∘ fun e : Str × List Str => (e.1, Json.arr (List.map Json.str e.2))) M = M := by
      intro M
      induction M with
      | nil => rfl
      | cons a M ih => simp only [List.map_cons, ih, Function.comp, hf]
    rwa [hid, hid] at this
  | @value a k v v' b h _ =>
    rw [ofDigestMap_eq, Json.obj.injEq] at hj
    obtain ⟨e, _, he⟩ : ∃ e ∈ m, (e.1, Json.arr (e.2.map .str)) = (k, v) := List.mem_map.mp (by
      show (k, v) ∈ encMap m
      rw [hj]; simp)
    simp only [Prod.mk.injEq] at he
    obtain ⟨_, rfl⟩ := he
    rw [reorder_strs h]
    exact ⟨m, by rw [ofDigestMap_eq, hj], .refl m⟩
  | element _ _ => cases hj

theorem wf_reorder {a b : Json} (h : Reorder a b) : a.WF → b.WF := by
  induction h with
  | refl => exact id
  | trans _ _ i1 i2 => exact fun h => i2 (i1 h)
  | members h =>
    intro hw
    cases hw with
    | obj h1 h2 =>
      exact .obj ((h.map Prod.fst).nodup_iff.mp h1) (fun p hp => h2 p (h.mem_iff.mpr hp))
  | @value a k v v' b h ih =>
    intro hw
    cases hw with
    | obj h1 h2 =>
      refine .obj ?_ ?_
      · unfold Dict.NK at h1 ⊢
        simpa using h1
      · intro p hp
        rcases List.mem_append.mp hp with hp | hp
        · exact h2 p (List.mem_append_left _ hp)
        · rcases List.mem_cons.mp hp with rfl | hp
          · exact ih (h2 (k, v) (by simp))
          · exact h2 p (by simp [hp])
  | @element a v v' b h ih =>
    intro hw
    cases hw with
    | arr h1 =>
      refine .arr ?_
      intro p hp
      rcases List.mem_append.mp hp with hp | hp
      · exact h1 p (List.mem_append_left _ hp)
      · rcases List.mem_cons.mp hp with rfl | hp
        · exact ih (h1 v (by simp))
        · exact h1 p (by simp [hp])

theorem member_reorder {j j' : Json} (h : Reorder j j') {k : Str} {v : Json} (hm : Member j k v) :
    ∃ v', Member j' k v' ∧ Reorder v v' := by
  obtain ⟨d, rfl, hm⟩ := hm
  obtain ⟨d', rfl, hs⟩ := reorder_obj h
  obtain ⟨v', h1, h2⟩ := sameMembers_mem hs hm
  exact ⟨v', ⟨d', rfl, h1⟩, h2⟩

theorem member_reorder_str {j j' : Json} (h : Reorder j j') {k s : Str} (hm : Member j k (.str s)) : Member j' k (.str s) := by
  obtain ⟨v', h1, h2⟩ := member_reorder h hm
  rwa [reorder_str h2] at h1

theorem member_reorder_map {j j' : Json} (h : Reorder j j') {k : Str} {m : List (Str × List Str)}
    (hm : Member j k (ofDigestMap m)) : ∃ m', Member j' k (ofDigestMap m') ∧ m.Perm m' := by
  obtain ⟨v', h1, h2⟩ := member_reorder h hm
  obtain ⟨m', rfl, hp⟩ := reorder_digestMap h2
  exact ⟨m', h1, hp⟩

theorem listed_perm {m m' : List (Str × List Str)} (h : m.Perm m') : (listed m).Perm (listed m') :=
  (h.map Prod.snd).flatten

theorem sameDigest_symm {alg a b : Str} (h : SameDigest alg a b) : SameDigest alg b a := by
  rw [sameDigest_iff] at h ⊢; exact h.symm

theorem manifestRules_perm {alg cd : Str} {vs vs' : List Str} (hv : vs.Perm vs') {m m' : List (Str × List Str)} (h : m.Perm m')
    (hr : ManifestRules alg cd vs m) : ManifestRules alg cd vs' m' := by
  have hl := listed_perm h
  obtain ⟨h1, h2, h3, h4, h5⟩ := hr
  refine ⟨fun e he => h1 e (h.mem_iff.mpr he), ?_, ?_, hl.nodup_iff.mp h4, ?_⟩
  · refine (h.pairwise_iff ?_).mp h2
    exact fun hn hs => hn (sameDigest_symm hs)
  · intro p hp
    obtain ⟨v, hvm, hx⟩ := h3 p (hl.mem_iff.mpr hp)
    exact ⟨v, hv.mem_iff.mp hvm, hx⟩
  · intro p hp v hvm segs hc
    rw [← hl.mem_iff]
    exact h5 p (hl.mem_iff.mpr hp) v (hv.mem_iff.mpr hvm) segs hc

theorem versionRules_reorder {m m' : List (Str × List Str)} (hm : m.Perm m') {b b' : Json} (hb : Reorder b b')
    {st st' : List (Str × List Str)} (hst' : Member b' c!"state" (ofDigestMap st')) (hs : st.Perm st')
    (hr : VersionRules m b st) : VersionRules m' b' st' := by
  have hl := listed_perm hs
  obtain ⟨⟨t, ht, htt⟩, _, h3, h4, h5, h6, h7, h8⟩ := hr
  refine ⟨⟨t, member_reorder_str hb ht, htt⟩, hst', ?_, ?_, ?_, fun p hp => h6 p (hl.mem_iff.mpr hp), hl.nodup_iff.mp h7, ?_⟩
  · intro x hx
    obtain ⟨x', h1, h2⟩ := member_reorder hb.symm hx
    obtain ⟨s, rfl⟩ := h3 x' h1
    exact ⟨s, reorder_str h2.symm⟩
  · intro x hx
    obtain ⟨x', h1, h2⟩ := member_reorder hb.symm hx
    obtain ⟨⟨n, hn⟩, ha⟩ := h4 x' h1
    refine ⟨⟨n, member_reorder_str h2.symm hn⟩, ?_⟩
    intro a hma
    obtain ⟨a', k1, k2⟩ := member_reorder h2 hma
    obtain ⟨s, rfl⟩ := ha a' k1
    exact ⟨s, reorder_str k2.symm⟩
  · intro e he
    obtain ⟨ps, h1, h2⟩ := h5 e (hs.mem_iff.mpr he)
    exact ⟨ps, h1, hm.mem_iff.mp h2⟩
  · intro p hp segs hseg
    rw [← hl.mem_iff]
    exact h8 p (hl.mem_iff.mpr hp) segs hseg

theorem fixityRules_reorder {lax : Bool} {ps ps' : List Str} (hp : ∀ p, p ∈ ps → p ∈ ps') {fx fx' : Json}
    (h : Reorder fx fx') (hr : FixityRules lax ps fx) : FixityRules lax ps' fx' := by
  obtain ⟨⟨d, rfl⟩, hb⟩ := hr
  obtain ⟨d', rfl, _⟩ := reorder_obj h
  refine ⟨⟨d', rfl⟩, ?_⟩
  intro alg b hm
  obtain ⟨b', h1, h2⟩ := member_reorder h.symm hm
  obtain ⟨hk, m, rfl, h3, h4, h5⟩ := hb alg b' h1
  obtain ⟨m', rfl, hperm⟩ := reorder_digestMap h2.symm
  refine ⟨hk, m', rfl, fun e he => h3 e (hperm.mem_iff.mpr he), ?_, ?_⟩
  · intro hka
    refine (hperm.pairwise_iff ?_).mp (h4 hka)
    exact fun hn hs => hn (sameDigest_symm hs)
  · intro p hpm
    exact hp p (h5 p ((listed_perm hperm).mem_iff.mpr hpm))

/-- The rules do not depend on the order of members. -/
theorem rulesWith_reorder {lax : Bool} {force : Option Str} {j j' : Json} (hwf : j.WF) (h : Reorder j j') {alg : Json} {cd : Str}
    {m : List (Str × List Str)} {vs : List (Str × Json)} {states : Str → List (Str × List Str)} {style : Option Nat} {n : Nat}
    (hr : RulesWith lax force j alg cd m vs states style n) :
    ∃ m' vs' states', m.Perm m' ∧ (vs.map Prod.fst).Perm (vs'.map Prod.fst) ∧ RulesWith lax force j' alg cd m' vs' states' style n := by
  have hwf' := wf_reorder h hwf
  obtain ⟨m', hm', hperm⟩ := member_reorder_map h hr.manifest
  obtain ⟨vj, hvm, hvr⟩ := member_reorder h hr.versions
  obtain ⟨vs', rfl, hsame⟩ := reorder_obj hvr
  have hkeys := sameMembers_keys hsame
  -- well-formedness of the parts
  obtain ⟨d', rfl, hvmem⟩ := id hvm
  obtain ⟨hk', hw'⟩ := wf_obj hwf'
  have hvget := (Dict.mem_iff_get? hk').mp hvmem
  obtain ⟨hvk, hvw⟩ := wf_obj (hw' _ _ hvget)
  have hsame' : SameMembers vs' vs := by
    obtain ⟨x, hx, hs⟩ := reorder_obj hvr.symm
    cases hx
    exact hs
  have hblock : ∀ v b', (v, b') ∈ vs' → ∃ b, (v, b) ∈ vs ∧ (states v).Perm (stateOf vs' v) ∧
      VersionRules m' b' (stateOf vs' v) := by
    intro v b' hvb
    obtain ⟨b, hb, hbr⟩ := sameMembers_mem hsame' hvb
    have hrules := hr.versionRules v b hb
    obtain ⟨st', hst', hsp⟩ := member_reorder_map hbr.symm hrules.state
    have hget := (Dict.mem_iff_get? hvk).mp hvb
    obtain ⟨bd, rfl, hbm⟩ := id hst'
    have hst : stateOf vs' v = st' := stateOf_eq hget ((Dict.mem_iff_get? (wf_obj (hvw _ _ hget)).1).mp hbm)
    rw [hst]
    exact ⟨b, hb, hsp, versionRules_reorder hperm hbr.symm hst' hsp hrules⟩
  refine ⟨m', vs', stateOf vs', hperm, hkeys, ?_⟩
  obtain ⟨ids, hid, hidm⟩ := hr.id
  obtain ⟨t, htm, htr⟩ := hr.type
  obtain ⟨ham, har⟩ := hr.digestAlgorithm
  refine ⟨⟨ids, hid, member_reorder_str h hidm⟩, ⟨t, member_reorder_str h htm, htr⟩, ⟨?_, har⟩, ?_, hm',
    manifestRules_perm hkeys hperm hr.manifestRules, hvm, ?_, member_reorder_str h hr.head, ?_, ?_, ?_⟩
  · obtain ⟨a', h1, h2⟩ := member_reorder h ham
    have : a' = alg := by
      refine reorder_atom ?_ ?_ h2
      · intro l
        unfold AlgRule at har
        split at har
        · exact har.1 l
        · rcases har with rfl | rfl <;> simp
      · intro l
        unfold AlgRule at har
        split at har
        · exact har.2 l
        · rcases har with rfl | rfl <;> simp
    rwa [this] at h1
  · rcases hr.contentDirectory with ⟨h1, h2⟩ | ⟨h1, rfl⟩
    · exact Or.inl ⟨member_reorder_str h h1, h2⟩
    · refine Or.inr ⟨?_, rfl⟩
      intro x hx
      obtain ⟨x', hx', _⟩ := member_reorder h.symm hx
      exact h1 x' hx'
  · obtain ⟨n1, n2, n3, n4⟩ := hr.names
    refine ⟨n1, n2, n3, ?_⟩
    intro v
    rw [← hkeys.mem_iff]
    exact n4 v
  · intro v b hvb
    obtain ⟨_, _, _, hx⟩ := hblock v b hvb
    exact hx
  · intro dg ps hdp hne
    obtain ⟨v, hvn, ps', hps⟩ := hr.used dg ps (hperm.mem_iff.mpr hdp) hne
    have hvn' := hkeys.mem_iff.mp hvn
    obtain ⟨⟨v', b'⟩, hvb, rfl⟩ := List.mem_map.mp hvn'
    obtain ⟨_, _, hsp, _⟩ := hblock v' b' hvb
    exact ⟨v', hvn', ps', hsp.mem_iff.mp hps⟩
  · intro fx hfx
    obtain ⟨fx', h1, h2⟩ := member_reorder h.symm hfx
    exact fixityRules_reorder (fun p hp => (listed_perm hperm).mem_iff.mp hp) h2.symm (hr.fixity fx' h1)

theorem validInventory_reorder {lax : Bool} {force : Option Str} {j j' : Json} (hwf : j.WF) (h : Reorder j j')
    (hv : ValidInventory lax force j) : ValidInventory lax force j' := by
  obtain ⟨alg, cd, m, vs, states, style, n, hr⟩ := hv
  obtain ⟨m', vs', states', _, _, hr'⟩ := rulesWith_reorder hwf h hr
  exact ⟨_, _, _, _, _, _, _, hr'⟩

end Ocfl
