import Verif.Proofs.Recover
import Verif.Props.NewInventory

/-!
# Stored inventories are accepted, and continue earlier ones
-/

namespace Ocfl

open Spec FS Prog Ocfl.Inv

theorem member_sortKeys {j : Json} {k : Str} {v : Json} (h : Member j k v) : Member j.sortKeys k v.sortKeys := by
  obtain ⟨d, rfl, h1⟩ := h
  exact ⟨_, Json.sortKeys_obj d, (Dict.sorted_perm _).mem_iff.mpr (List.mem_map.mpr ⟨_, h1, rfl⟩)⟩

/-- What an inventory looks like to a reader after it was written. -/
theorem Good.writtenView {inv : Inv} {alg : Str} {m : DigestMap} {vs : Dict Str VBlock} {style : Option Nat} {n : Nat}
    (h : Good inv alg m vs style n) :
    View inv.toJson.sortKeys (Dict.sorted m) (Dict.sorted (vs.map (fun e => (e.1, e.2.toJson.sortKeys))))
      (fun v => Dict.sorted (Ocfl.stateIn vs v)) := by
  refine ⟨?_, ?_, ?_⟩
  · rw [show ofDigestMap (Dict.sorted m) = (ofDigestMap m).sortKeys from (DigestMap.sortKeys_toJson m).symm]
    apply member_sortKeys
    rw [member_toJson]
    simp [Inv.fields, h.manifest]
    rfl
  · have : Member inv.toJson c!"versions" (.obj (vs.map (fun e => (e.1, e.2.toJson)))) := by
      rw [member_toJson]
      simp [Inv.fields, h.versions]
      rfl
    have := member_sortKeys this
    rw [Json.sortKeys_obj, List.map_map] at this
    exact this
  · intro v b hb
    have hb := (Dict.sorted_perm _).mem_iff.mp hb
    obtain ⟨⟨v', b'⟩, hm, he⟩ := List.mem_map.mp hb
    obtain ⟨e1, e2⟩ := Prod.mk.inj he
    subst e1 e2
    obtain ⟨st, hg⟩ := h.blocks v' b' hm
    have hs : Ocfl.stateIn vs v' = st := by
      unfold Ocfl.stateIn
      rw [(Dict.mem_iff_get? h.versionKeys).mp hm]
      simp [hg.state]
    rw [hs, show ofDigestMap (Dict.sorted st) = (ofDigestMap st).sortKeys from (DigestMap.sortKeys_toJson st).symm]
    apply member_sortKeys
    rw [member_block]
    simp [VBlock.fields, hg.state]
    rfl

theorem Good.writtenAlg {inv : Inv} {alg : Str} {m : DigestMap} {vs : Dict Str VBlock} {style : Option Nat} {n : Nat}
    (h : Good inv alg m vs style n) : Member inv.toJson.sortKeys c!"digestAlgorithm" (.str alg) := by
  have : Member inv.toJson c!"digestAlgorithm" (.str alg) := by
    rw [member_toJson]; simp [Inv.fields, h.algorithm]
  have := member_sortKeys this
  rwa [Json.sortKeys_str] at this

theorem member_str_unique {j : Json} (hwf : j.WF) {k a b : Str} (h : Member j k (.str a)) (h' : Member j k (.str b)) : a = b := by
  obtain ⟨d, rfl, h1⟩ := h
  have h' : Member (.obj d) k (.str b) := h'
  have h1' : Member (.obj d) k (.str a) := ⟨d, rfl, h1⟩
  rw [member_iff (wf_obj hwf).1] at h' h1'
  rw [h1'] at h'
  cases h'
  rfl

/-- A written inventory that tells the same of the versions of another one and has more versions. -/
theorem continues_written {inv inv' : Inv} {alg alg' : Str} {m m' : DigestMap} {vs vs' : Dict Str VBlock} {style style' : Option Nat} {n n' : Nat}
    (h : Good inv alg m vs style n) (h' : Good inv' alg' m' vs' style' n')
    (hsub : ∀ v ∈ Dict.keys vs, v ∈ Dict.keys vs') (hmore : ∃ v ∈ Dict.keys vs', v ∉ Dict.keys vs)
    (hpaths : ∀ v ∈ Dict.keys vs, ∀ p, p ∈ listed (stateIn vs v) ↔ p ∈ listed (stateIn vs' v))
    (hres : ∀ v ∈ Dict.keys vs, ∀ p c, Resolves m (stateIn vs v) p c → Resolves m' (stateIn vs' v) p c)
    (hdig : alg = alg' → ∀ v ∈ Dict.keys vs, ∀ d, d ∈ Dict.keys (stateIn vs v) ↔ d ∈ Dict.keys (stateIn vs' v)) :
    Continues inv'.toJson.sortKeys inv.toJson.sortKeys := by
  have hkeys : ∀ (w : Dict Str VBlock) v, v ∈ (Dict.sorted (w.map (fun e => (e.1, e.2.toJson.sortKeys)))).map Prod.fst ↔ v ∈ Dict.keys w := by
    intro w v
    rw [((Dict.sorted_perm (w.map (fun e => (e.1, e.2.toJson.sortKeys)))).map Prod.fst).mem_iff, List.map_map]
    rfl
  have hst : ∀ (st : DigestMap) d, d ∈ (Dict.sorted st).map Prod.fst ↔ d ∈ Dict.keys st :=
    fun st d => ((Dict.sorted_perm st).map Prod.fst).mem_iff
  have hl : ∀ (st : DigestMap) p, p ∈ listed (Dict.sorted st) ↔ p ∈ listed st := by
    intro st p
    rw [mem_listed, mem_listed]
    exact exists_congr (fun d => lists_sorted)
  have hr : ∀ (a st : DigestMap) p c, Resolves (Dict.sorted a) (Dict.sorted st) p c ↔ Resolves a st p c := by
    intro a st p c
    unfold Resolves
    exact exists_congr (fun d => and_congr lists_sorted lists_sorted)
  refine ⟨_, _, _, _, _, _, h.writtenView, h'.writtenView, ?_, ?_, ?_⟩
  · intro v hv
    rw [hkeys] at hv ⊢
    exact hsub v hv
  · obtain ⟨v, h1, h2⟩ := hmore
    exact ⟨v, (hkeys _ v).mpr h1, fun hc => h2 ((hkeys _ v).mp hc)⟩
  · intro v hv
    rw [hkeys] at hv
    refine ⟨?_, ?_, ?_⟩
    · intro p
      rw [hl, hl]
      exact hpaths v hv p
    · intro p c
      rw [hr, hr]
      exact hres v hv p c
    · intro a ha ha' d
      rw [hst, hst]
      refine hdig ?_ v hv d
      have e1 := member_str_unique (Inv.writable_toJson h.keys).sortKeys.wf ha h.writtenAlg
      have e2 := member_str_unique (Inv.writable_toJson h'.keys).sortKeys.wf ha' h'.writtenAlg
      exact e1.symm.trans e2

/-- An inventory that was written is what is stored. -/
theorem stored_written {E : Env} (hlib : E.lib.Lawful) {s : FS} {dir : Path} {inv : Inv} {alg : Str} {m : DigestMap}
    {vs : Dict Str VBlock} {style : Option Nat} {n : Nat} (h : Good inv alg m vs style n)
    (hlook : look s (dir ++ [inventoryFilename]) = some (.file (utf8 (inventoryText E inv)))) :
    StoredJson E.lib s (dir ++ [inventoryFilename]) inv.toJson.sortKeys := by
  have hw := Inv.writable_toJson h.keys
  refine ⟨_, _, hlook, utf8Decode_utf8 _, ?_⟩
  rw [univNewlines_of_noCR (s := inventoryText E inv) (hlib.noCR _ hw.sortKeys)]
  exact hlib.loads _ hw.sortKeys

theorem accepts_written {inv : Inv} {alg : Str} {m : DigestMap} {vs : Dict Str VBlock} {style : Option Nat} {n : Nat}
    (h : Good inv alg m vs style n) (isWord : Char → Bool) (ds : Str) : Accepts isWord false ds none inv.toJson.sortKeys := by
  have hw := Inv.writable_toJson h.keys
  exact (C37 hw.sortKeys.wf).mpr (validInventory_reorder hw.wf (Json.reorder_sortKeys hw.wf) h.valid)

/-- An earlier inventory of an object and a later one. -/
theorem Sound.continues {E : Env} {s : FS} {base : Path} {dv : Str} {trees : List Tree} {recs : List Rec}
    (h : Sound E s base dv trees recs) (hno : NoCollision E.raw (InTrees trees)) {i k : Nat} {a b : Rec} (hik : i < k)
    (ha : recs[i]? = some a) (hb : recs[k]? = some b) : Continues b.inv.toJson.sortKeys a.inv.toJson.sortKeys := by
  have hi := h.versions i a ha
  have hk := h.versions k b hb
  have hlt : k < trees.length := by
    rw [← h.length]
    by_contra hc
    rw [List.getElem?_eq_none (by omega)] at hb
    cases hb
  have hlen : ∀ j, j < trees.length → (trees.take (j + 1)).length = j + 1 := by
    intro j hj; rw [List.length_take]; omega
  have hni := hi.describes.parsed.good.names.2.2.2
  have hnk := hk.describes.parsed.good.names.2.2.2
  rw [hlen i (by omega)] at hni
  rw [hlen k hlt] at hnk
  have hstate : ∀ x (hx : x ≤ i), ∃ t, trees[x]? = some t ∧
      ((∀ e ∈ stateIn a.vs (styleName none (x + 1)), e.2 ≠ []) ∧
        ∀ d p, Lists (stateIn a.vs (styleName none (x + 1))) d p ↔ ∃ r y, t r y ∧ p = pathOf r ∧ fileDigest E.raw a.alg y = some d) ∧
      ((∀ e ∈ stateIn b.vs (styleName none (x + 1)), e.2 ≠ []) ∧
        ∀ d p, Lists (stateIn b.vs (styleName none (x + 1))) d p ↔ ∃ r y, t r y ∧ p = pathOf r ∧ fileDigest E.raw b.alg y = some d) := by
    intro x hx
    obtain ⟨t, ht⟩ : ∃ t, trees[x]? = some t := ⟨_, List.getElem?_eq_getElem (by omega)⟩
    refine ⟨t, ht, hi.describes.states x t ?_, hk.describes.states x t ?_⟩
    · rw [List.getElem?_take, if_pos (by omega)]; exact ht
    · rw [List.getElem?_take, if_pos (by omega)]; exact ht
  have hidx : ∀ v ∈ Dict.keys a.vs, ∃ x, x ≤ i ∧ v = styleName none (x + 1) := by
    intro v hv
    obtain ⟨y, h1, h2, h3⟩ := (hni v).mp hv
    exact ⟨y - 1, by omega, by rw [h3, Nat.sub_add_cancel h1]⟩
  have hin : ∀ j (c : Bytes), InTrees (trees.take j) c → InTrees trees c := by
    rintro j c ⟨t, h1, h2⟩
    exact ⟨t, List.mem_of_mem_take h1, h2⟩
  refine continues_written hi.describes.parsed.good hk.describes.parsed.good ?_ ?_ ?_ ?_ ?_
  · intro v hv
    obtain ⟨x, h1, h2⟩ := hidx v hv
    exact (hnk v).mpr ⟨x + 1, by omega, by omega, h2⟩
  · refine ⟨styleName none (k + 1), (hnk _).mpr ⟨k + 1, by omega, by omega, rfl⟩, ?_⟩
    intro hv
    obtain ⟨x, h1, h2⟩ := hidx _ hv
    have := styleName_inj h2
    omega
  · intro v hv p
    obtain ⟨x, h1, rfl⟩ := hidx v hv
    obtain ⟨t, ht, e1, e2⟩ := hstate x h1
    rw [mem_listed, mem_listed]
    constructor
    · rintro ⟨d, hd⟩
      obtain ⟨r, y, k1, k2, _⟩ := (e1.2 d p).mp hd
      exact ⟨_, (e2.2 _ p).mpr ⟨r, y, k1, k2, fileDigest_known E.raw hk.describes.parsed.good.algName y⟩⟩
    · rintro ⟨d, hd⟩
      obtain ⟨r, y, k1, k2, _⟩ := (e2.2 d p).mp hd
      exact ⟨_, (e1.2 _ p).mpr ⟨r, y, k1, k2, fileDigest_known E.raw hi.describes.parsed.good.algName y⟩⟩
  · rintro v hv p c ⟨d, hd1, hd2⟩
    obtain ⟨x, h1, rfl⟩ := hidx v hv
    obtain ⟨t, ht, e1, e2⟩ := hstate x h1
    obtain ⟨r, y, k1, k2, k3⟩ := (e1.2 d p).mp hd1
    obtain ⟨_, _, z, _, _, _, _, _, l1, l2, l3⟩ := hi.describes.segs hd2
    have hyz : y = z := noCollision_digest hno hi.describes.parsed.good.algName ⟨t, List.mem_of_getElem? ht, r, k1⟩ (hin _ _ l3) (by rw [k3, l2])
    subst hyz
    have hmono : ∀ c ∈ listed a.m, c ∈ listed b.m := by
      obtain ⟨hi', rfl⟩ := List.getElem?_eq_some_iff.mp ha
      obtain ⟨hk', rfl⟩ := List.getElem?_eq_some_iff.mp hb
      exact (List.pairwise_iff_getElem.mp h.mono) i k hi' hk' hik
    obtain ⟨d', hd'⟩ := mem_listed.mp (hmono c (mem_listed.mpr ⟨d, hd2⟩))
    obtain ⟨_, _, z', _, _, _, _, _, l1', l2', _⟩ := hk.describes.segs hd'
    rw [l1] at l1'
    cases l1'
    exact ⟨d', (e2.2 d' p).mpr ⟨r, y, k1, k2, l2'⟩, hd'⟩
  · intro halg v hv d
    obtain ⟨x, h1, rfl⟩ := hidx v hv
    obtain ⟨t, ht, e1, e2⟩ := hstate x h1
    rw [halg] at e1
    have key : ∀ (st st' : DigestMap), (∀ e ∈ st, e.2 ≠ []) → (∀ d p, Lists st d p → Lists st' d p) → d ∈ Dict.keys st → d ∈ Dict.keys st' := by
      intro st st' h1 h2 h3
      obtain ⟨e, h4, rfl⟩ := List.mem_map.mp h3
      obtain ⟨p, hp⟩ := List.exists_mem_of_ne_nil _ (h1 e h4)
      exact Lists_mem_keys (h2 e.1 p ⟨e.2, h4, hp⟩)
    exact ⟨key _ _ e1.1 (fun d p hl => (e2.2 d p).mpr ((e1.2 d p).mp hl)), key _ _ e2.1 (fun d p hl => (e1.2 d p).mpr ((e2.2 d p).mp hl))⟩

end Ocfl
