import Verif.Proofs.InventoryJson
import Verif.Proofs.Normalize
import Verif.Props.InventoryValidator

/-!
# Valid inventories as records
-/

namespace Ocfl
open Spec

/-- The rules for a version block. -/
structure GoodBlock (m : DigestMap) (b : VBlock) (st : DigestMap) : Prop where
  created : ∃ t, b.created = some t ∧ Timestamp t
  state : b.state = some st
  keys : Dict.NK st
  user : ∀ u, b.user = some u → ∃ n, u.name = some n
  digests : ∀ e ∈ st, ∃ ps, ps ≠ [] ∧ (e.1, ps) ∈ m
  paths : ∀ p ∈ listed st, ∃ segs, LogicalPath segs p
  unique : PathsUnique st
  noConflict : ∀ p ∈ listed st, ∀ segs, LogicalPath segs p → pathOf segs.dropLast ∉ listed st

/-- The rules for an inventory with the algorithm `alg`, manifest `m`, versions `vs` named in
`style`, `n` of them. -/
structure Good (inv : Inv) (alg : Str) (m : DigestMap) (vs : Dict Str VBlock) (style : Option Nat) (n : Nat) : Prop where
  id : ∃ s, s ≠ [] ∧ inv.id = some s
  type : ∃ t, inv.type = some t ∧ TypeRule none t
  algorithm : inv.digestAlgorithm = some alg
  algName : alg = c!"sha512" ∨ alg = c!"sha256"
  contentDirectory : ∀ cd, inv.contentDirectory = some cd → '/' ∉ cd ∧ cd ≠ c!"." ∧ cd ≠ c!".."
  manifest : inv.manifest = some m
  manifestKeys : Dict.NK m
  manifestRules : ManifestRules alg inv.contentDirectoryToUse (Dict.keys vs) m
  versions : inv.versions = some vs
  versionKeys : Dict.NK vs
  names : VersionNames (Dict.keys vs) style n
  head : inv.head = some (styleName style n)
  blocks : ∀ v b, (v, b) ∈ vs → ∃ st, GoodBlock m b st
  used : ∀ d ps, (d, ps) ∈ m → ps ≠ [] → ∃ v b st, (v, b) ∈ vs ∧ b.state = some st ∧ d ∈ Dict.keys st
  fixity : ∀ fx, inv.fixity = some fx → Dict.NK fx ∧ ∀ a fm, (a, fm) ∈ fx →
    KnownAlg a ∧ Dict.NK fm ∧ (∀ e ∈ fm, DigestText a e.1) ∧ fm.Pairwise (fun x y => ¬ SameDigest a x.1 y.1) ∧
      ∀ p ∈ listed fm, p ∈ listed m

/-! ## From the record to the document -/

theorem Good.keys {inv : Inv} {alg : Str} {m : DigestMap} {vs : Dict Str VBlock} {style : Option Nat} {n : Nat}
    (h : Good inv alg m vs style n) : inv.Keys := by
  refine ⟨?_, ?_, ?_⟩
  · intro x hx
    rw [h.manifest, Option.some.injEq] at hx
    subst hx
    exact h.manifestKeys
  · intro x hx
    rw [h.versions, Option.some.injEq] at hx
    subst hx
    refine ⟨h.versionKeys, ?_⟩
    rintro ⟨v, b⟩ he st hst
    obtain ⟨st', hg⟩ := h.blocks v b he
    rw [hg.state, Option.some.injEq] at hst
    subst hst
    exact hg.keys
  · intro x hx
    obtain ⟨h1, h2⟩ := h.fixity x hx
    exact ⟨h1, fun e he => (h2 e.1 e.2 he).2.1⟩

theorem member_optFields {l : List (Str × Option Json)} (h : Dict.NK l) {k : Str} {v : Json} :
    Member (.obj (Json.optFields l)) k v ↔ (k, some v) ∈ l := by
  rw [member_iff (Json.NK_optFields h), Json.get?_optFields h, Dict.mem_iff_get? h]
  cases Dict.get? l k with
  | none => simp
  | some x => simp

theorem member_toJson {inv : Inv} {k : Str} {v : Json} : Member inv.toJson k v ↔ (k, some v) ∈ inv.fields := by
  rw [Inv.toJson_eq]; exact member_optFields inv.fields_NK

theorem member_block {b : VBlock} {k : Str} {v : Json} : Member b.toJson k v ↔ (k, some v) ∈ b.fields := by
  rw [VBlock.toJson_eq]; exact member_optFields b.fields_NK

theorem member_user {u : User} {k : Str} {v : Json} :
    Member u.toJson k v ↔ (k, some v) ∈ [(c!"name", u.name.map Json.str), (c!"address", u.address.map Json.str)] := by
  have he : User.toJson u = .obj (Json.optFields [(c!"name", u.name.map .str), (c!"address", u.address.map .str)]) := by
    unfold User.toJson Json.optFields
    simp only [List.flatMap_cons, List.flatMap_nil, List.append_nil]
  rw [he]
  refine member_optFields ?_
  simp only [Dict.NK, List.map_cons, List.map_nil]; decide

theorem GoodBlock.rules {m : DigestMap} {b : VBlock} {st : DigestMap} (h : GoodBlock m b st) :
    VersionRules m b.toJson st := by
  obtain ⟨t, ht, htt⟩ := h.created
  refine ⟨⟨t, ?_, htt⟩, ?_, ?_, ?_, h.digests, h.paths, h.unique, h.noConflict⟩
  · rw [member_block]; simp [VBlock.fields, ht]
  · rw [member_block]
    simp only [VBlock.fields, h.state, Option.map_some]
    simp only [List.mem_cons, Prod.mk.injEq]
    right; right; right; left
    exact ⟨trivial, rfl⟩
  · intro x hx
    rw [member_block] at hx
    simp [VBlock.fields] at hx
    obtain ⟨a, _, rfl⟩ := hx
    exact ⟨a, rfl⟩
  · intro x hx
    rw [member_block] at hx
    simp [VBlock.fields] at hx
    obtain ⟨u, hu, rfl⟩ := hx
    obtain ⟨nm, hn⟩ := h.user u hu
    refine ⟨⟨nm, ?_⟩, ?_⟩
    · rw [member_user]; simp [hn]
    · intro a ha
      rw [member_user] at ha
      simp at ha
      obtain ⟨a, _, rfl⟩ := ha
      exact ⟨a, rfl⟩

/-- The document of a good inventory obeys the rules. -/
theorem Good.rules {inv : Inv} {alg : Str} {m : DigestMap} {vs : Dict Str VBlock} {style : Option Nat} {n : Nat}
    (h : Good inv alg m vs style n) : RulesWith false none inv.toJson (.str alg) inv.contentDirectoryToUse m
      (vs.map (fun e => (e.1, e.2.toJson))) (fun v => ((Dict.get? vs v).bind (·.state)).getD []) style n := by
  obtain ⟨i, hi, hid⟩ := h.id
  obtain ⟨t, ht, htr⟩ := h.type
  have hkeys : (vs.map (fun e => (e.1, e.2.toJson))).map Prod.fst = Dict.keys vs := Dict.keys_map_val vs _
  have hst : ∀ v b, (v, b) ∈ vs → ∃ st, GoodBlock m b st ∧ (Dict.get? vs v).bind (·.state) = some st := by
    intro v b hvb
    obtain ⟨st, hg⟩ := h.blocks v b hvb
    refine ⟨st, hg, ?_⟩
    rw [(Dict.mem_iff_get? h.versionKeys).mp hvb]
    exact hg.state
  refine ⟨⟨i, hi, ?_⟩, ⟨t, ?_, htr⟩, ⟨?_, ?_⟩, ?_, ?_, ?_, ?_, ?_, ?_, ?_, ?_, ?_⟩
  · rw [member_toJson]; simp [Inv.fields, hid]
  · rw [member_toJson]; simp [Inv.fields, ht]
  · rw [member_toJson]; simp [Inv.fields, h.algorithm]
  · rcases h.algName with rfl | rfl
    · exact Or.inl rfl
    · exact Or.inr rfl
  · unfold Inv.contentDirectoryToUse
    cases hcd : inv.contentDirectory with
    | some cd =>
      left
      refine ⟨?_, h.contentDirectory cd hcd⟩
      rw [member_toJson]; simp [Inv.fields, hcd]
    | none =>
      right
      refine ⟨?_, rfl⟩
      intro x hx
      rw [member_toJson] at hx
      simp [Inv.fields, hcd] at hx
  · rw [member_toJson]
    simp only [Inv.fields, h.manifest, Option.map_some, List.mem_cons, Prod.mk.injEq]
    right; right; right; right; right; left
    exact ⟨trivial, rfl⟩
  · rw [hkeys]; exact h.manifestRules
  · rw [member_toJson]
    simp only [Inv.fields, h.versions, Option.map_some, List.mem_cons, Prod.mk.injEq]
    right; right; right; right; right; right; left
    exact ⟨trivial, rfl⟩
  · rw [hkeys]; exact h.names
  · rw [member_toJson]; simp [Inv.fields, h.head]
  · intro v b hvb
    obtain ⟨⟨v', b'⟩, he, hb⟩ := List.mem_map.mp hvb
    simp only [Prod.mk.injEq] at hb
    obtain ⟨rfl, rfl⟩ := hb
    obtain ⟨st, hg, hs⟩ := hst v' b' he
    rw [hs]
    exact hg.rules
  · intro d ps hdp hne
    obtain ⟨v, b, st, hvb, hbs, hd⟩ := h.used d ps hdp hne
    obtain ⟨st', hg, hs⟩ := hst v b hvb
    have hst' := hg.state
    rw [hbs, Option.some.injEq] at hst'
    subst hst'
    refine ⟨v, by rw [hkeys]; exact Dict.mem_keys_of_mem hvb, ?_⟩
    rw [hs]
    obtain ⟨ps', hps'⟩ := Dict.exists_of_mem_keys hd
    exact ⟨ps', Dict.mem_of_get? hps'⟩
  · intro fx hfx
    rw [member_toJson] at hfx
    have hfx : ∃ f, inv.fixity = some f ∧ blocksJson DigestMap.toJson f = fx := by
      simpa [Inv.fields] using hfx
    obtain ⟨f, hf, rfl⟩ := hfx
    obtain ⟨h1, h2⟩ := h.fixity f hf
    refine ⟨⟨_, rfl⟩, ?_⟩
    rintro a b ⟨d, hd, hab⟩
    unfold blocksJson at hd
    rw [Json.obj.injEq] at hd
    subst hd
    obtain ⟨⟨a', fm⟩, he, hb⟩ := List.mem_map.mp hab
    simp only [Prod.mk.injEq] at hb
    obtain ⟨rfl, rfl⟩ := hb
    obtain ⟨k1, k2, k3, k4, k5⟩ := h2 a' fm he
    exact ⟨fun _ => k1, fm, rfl, k3, fun _ => k4, k5⟩

/-- The document of a good inventory is valid. -/
theorem Good.valid {inv : Inv} {alg : Str} {m : DigestMap} {vs : Dict Str VBlock} {style : Option Nat} {n : Nat}
    (h : Good inv alg m vs style n) : ValidInventory false none inv.toJson := ⟨_, _, _, _, _, _, _, h.rules⟩

/-! ## From the document to the record -/

theorem field_of_member {j : Json} (hwf : j.WF) {k : Str} {v : Json} (h : Member j k v) : j.field k = some v := by
  obtain ⟨d, rfl, hm⟩ := h
  exact Dict.get?_of_mem (wf_obj hwf).1 hm

theorem member_of_field {j : Json} {k : Str} {v : Json} (h : j.field k = some v) : Member j k v := by
  cases j with
  | obj d => exact ⟨d, rfl, Dict.mem_of_get? h⟩
  | _ => cases h

theorem wf_member {j : Json} (hwf : j.WF) {k : Str} {v : Json} (h : Member j k v) : v.WF := by
  obtain ⟨d, rfl, hm⟩ := h
  exact (wf_obj hwf).2 k v (Dict.get?_of_mem (wf_obj hwf).1 hm)

theorem NK_of_wf {m : DigestMap} (h : (ofDigestMap m).WF) : Dict.NK m := by
  have := (wf_obj h).1
  unfold Dict.NK at this ⊢
  rwa [List.map_map] at this

theorem goodBlock_ofJson {m : DigestMap} {b : Json} {st : DigestMap} (hwf : b.WF) (h : VersionRules m b st) :
    GoodBlock m (VBlock.ofJson b) st := by
  obtain ⟨t, ht, htt⟩ := h.created
  refine ⟨⟨t, ?_, htt⟩, ?_, NK_of_wf (wf_member hwf h.state), ?_, h.digests, h.paths, h.unique, h.noConflict⟩
  · simp only [VBlock.ofJson, field_of_member hwf ht]; rfl
  · simp only [VBlock.ofJson, field_of_member hwf h.state, Option.map_some, Option.some.injEq]
    exact DigestMap.ofJson_toJson st
  · intro u hu
    obtain ⟨x, hx, rfl⟩ := Option.map_eq_some_iff.mp hu
    have hm := member_of_field hx
    obtain ⟨⟨nm, hn⟩, _⟩ := h.user x hm
    refine ⟨nm, ?_⟩
    simp only [User.ofJson, field_of_member (wf_member hwf hm) hn]; rfl

/-- The record of a document that obeys the rules is good. -/
theorem good_of_rules {j : Json} (hwf : j.WF) {alg cd : Str} {m : DigestMap} {vs : List (Str × Json)}
    {states : Str → List (Str × List Str)} {style : Option Nat} {n : Nat}
    (hr : RulesWith false none j (.str alg) cd m vs states style n) :
    Good (Inv.ofJson j) alg m (vs.map (fun e => (e.1, VBlock.ofJson e.2))) style n ∧
    ∀ v b, (v, b) ∈ vs → GoodBlock m (VBlock.ofJson b) (states v) := by
  obtain ⟨i, hi, hid⟩ := hr.id
  obtain ⟨t, ht, htr⟩ := hr.type
  obtain ⟨ha, har⟩ := hr.digestAlgorithm
  have halg : alg = c!"sha512" ∨ alg = c!"sha256" := by
    rcases har with h | h
    · left; injection h
    · right; injection h
  have hcd : (Inv.ofJson j).contentDirectoryToUse = cd ∧
      ∀ c, (Inv.ofJson j).contentDirectory = some c → '/' ∉ c ∧ c ≠ c!"." ∧ c ≠ c!".." := by
    rcases hr.contentDirectory with ⟨h1, h2⟩ | ⟨h1, rfl⟩
    · have hf : (Inv.ofJson j).contentDirectory = some cd := by
        simp only [Inv.ofJson, field_of_member hwf h1]; rfl
      refine ⟨by unfold Inv.contentDirectoryToUse; rw [hf]; rfl, ?_⟩
      intro c hc
      rw [hf, Option.some.injEq] at hc
      subst hc
      exact h2
    · have hf : (Inv.ofJson j).contentDirectory = none := by
        simp only [Inv.ofJson]
        cases hfj : j.field c!"contentDirectory" with
        | none => rfl
        | some x => exact absurd (member_of_field hfj) (h1 x)
      exact ⟨by unfold Inv.contentDirectoryToUse; rw [hf]; rfl, fun c hc => by rw [hf] at hc; cases hc⟩
  have hvwf := wf_member hwf hr.versions
  obtain ⟨hvk, hvw⟩ := wf_obj hvwf
  have hkeys : Dict.keys (vs.map (fun e => (e.1, VBlock.ofJson e.2))) = vs.map Prod.fst := Dict.keys_map_val vs _
  have hblock : ∀ v b, (v, b) ∈ vs → GoodBlock m (VBlock.ofJson b) (states v) := fun v b hvb =>
    goodBlock_ofJson (hvw v b (Dict.get?_of_mem hvk hvb)) (hr.versionRules v b hvb)
  refine ⟨?_, hblock⟩
  refine ⟨⟨i, hi, ?_⟩, ⟨t, ?_, htr⟩, ?_, halg, hcd.2, ?_,
    NK_of_wf (wf_member hwf hr.manifest), ?_, ?_, Dict.NK_map_val hvk _, ?_, ?_, ?_, ?_, ?_⟩
  · simp only [Inv.ofJson, field_of_member hwf hid]; rfl
  · simp only [Inv.ofJson, field_of_member hwf ht]; rfl
  · simp only [Inv.ofJson, field_of_member hwf ha]; rfl
  · simp only [Inv.ofJson, field_of_member hwf hr.manifest, Option.map_some, Option.some.injEq]
    exact DigestMap.ofJson_toJson m
  · rw [hcd.1, hkeys]; exact hr.manifestRules
  · simp only [Inv.ofJson, field_of_member hwf hr.versions, Option.map_some]; rfl
  · rw [hkeys]; exact hr.names
  · simp only [Inv.ofJson, field_of_member hwf hr.head]; rfl
  · intro v b hvb
    obtain ⟨⟨v', b'⟩, he, hb⟩ := List.mem_map.mp hvb
    simp only [Prod.mk.injEq] at hb
    obtain ⟨rfl, rfl⟩ := hb
    exact ⟨_, hblock v' b' he⟩
  · intro d ps hdp hne
    obtain ⟨v, hv, ps', hps'⟩ := hr.used d ps hdp hne
    obtain ⟨⟨v', b⟩, hvb, rfl⟩ := List.mem_map.mp hv
    exact ⟨v', VBlock.ofJson b, states v', List.mem_map.mpr ⟨(v', b), hvb, rfl⟩, (hblock v' b hvb).state,
      Dict.mem_keys_of_mem hps'⟩
  · intro fx hfx
    obtain ⟨x, hx, rfl⟩ := Option.map_eq_some_iff.mp hfx
    have hm := member_of_field hx
    have hfr := hr.fixity x hm
    obtain ⟨⟨d, rfl⟩, hb⟩ := hfr
    obtain ⟨hdk, hdw⟩ := wf_obj (wf_member hwf hm)
    refine ⟨Dict.NK_map_val hdk _, ?_⟩
    intro a fm hafm
    obtain ⟨⟨a', b⟩, he, hbb⟩ := List.mem_map.mp hafm
    simp only [Prod.mk.injEq] at hbb
    obtain ⟨rfl, rfl⟩ := hbb
    obtain ⟨h1, mm, rfl, h2, h3, h4⟩ := hb a' b ⟨d, rfl, he⟩
    rw [show DigestMap.ofJson (ofDigestMap mm) = mm from DigestMap.ofJson_toJson mm]
    have hkn := h1 rfl
    exact ⟨hkn, NK_of_wf (hdw a' _ (Dict.get?_of_mem hdk he)), h2, h3 hkn, h4⟩

/-- The rules for a document that was accepted. -/
theorem rules_of_valid {j : Json} (h : ValidInventory false none j) :
    ∃ alg cd m vs states style n, RulesWith false none j (.str alg) cd m vs states style n := by
  obtain ⟨algj, cd, m, vs, states, style, n, hr⟩ := h
  rcases hr.digestAlgorithm.2 with rfl | rfl
  · exact ⟨_, cd, m, vs, states, style, n, hr⟩
  · exact ⟨_, cd, m, vs, states, style, n, hr⟩

end Ocfl
