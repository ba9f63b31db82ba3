import Verif.Proofs.GoodPerm
import Verif.Props.Inventory
import Verif.Proofs.Utf8
import Verif.Proofs.FS
import Verif.Spec.Object

/-!
# Reading inventory files
-/

namespace Ocfl
open Spec Ocfl.Inv

/-- What is known of an inventory that was read. -/
structure Parsed (inv : Inv) (alg : Str) (m : DigestMap) (vs : Dict Str VBlock) (style : Option Nat) (n : Nat) : Prop where
  good : Good inv alg m vs style n
  normal : ∀ d ∈ Dict.keys m, normalizedDigest d alg = d
  styleOK : StyleOK style
  limit : n ≤ styleLimit style

theorem Good.versionsD {inv : Inv} {alg : Str} {m : DigestMap} {vs : Dict Str VBlock} {style : Option Nat} {n : Nat}
    (h : Good inv alg m vs style n) : inv.versionsD = vs := by unfold Inv.versionsD; rw [h.versions]; rfl

theorem Good.manifestD {inv : Inv} {alg : Str} {m : DigestMap} {vs : Dict Str VBlock} {style : Option Nat} {n : Nat}
    (h : Good inv alg m vs style n) : inv.manifestD = m := by unfold Inv.manifestD; rw [h.manifest]; rfl

theorem style_of_parse {style : Option Nat} {n : Nat} (hw : ∀ w, style = some w → 2 ≤ w ∧ w ≤ 10) (h1 : 1 ≤ n)
    (hn : n ≤ validatorLimit style) (hp : ∃ k, parseVersionDirectory (styleName style n) = .ok k) :
    StyleOK style ∧ n ≤ styleLimit style := by
  obtain ⟨k, hk⟩ := hp
  obtain ⟨ds, hsp, hlen, _⟩ := (C02_parse_version_directory _ k).mp hk
  obtain ⟨_, hdig, _, hd⟩ := hsp
  cases style with
  | none =>
    refine ⟨trivial, ?_⟩
    have he : (natStr n).length ≤ 5 := by
      have e : styleName none n = 'v' :: natStr n := unpaddedName_eq n
      rw [e] at hd
      rcases hd with hd | hd
      · rw [List.cons_inj_right] at hd
        rw [hd]; exact hlen
      · have : (natStr n).length = ds.length + 1 := by
          have := congrArg List.length hd
          simp at this
          omega
        have hmem : '\n' ∈ natStr n := by
          rw [List.cons_append, List.cons_inj_right] at hd
          rw [hd]; simp
        have := natStr_isDigit hmem
        exact absurd this (by decide)
    have := (natStr_length_le_iff (n := n) (by decide : 0 < 5)).mp he
    show n ≤ 99999
    omega
  | some w =>
    obtain ⟨h2, _⟩ := hw w rfl
    refine ⟨⟨h2, ?_⟩, hn⟩
    have e : styleName (some w) n = 'v' :: padStr w n := paddedName_eq w n
    rw [e] at hd
    have hle : w ≤ (padStr w n).length := by
      unfold padStr
      simp
      omega
    rcases hd with hd | hd
    · rw [List.cons_inj_right] at hd
      rw [hd] at hle
      omega
    · have hmem : '\n' ∈ padStr w n := by
        rw [List.cons_append, List.cons_inj_right] at hd
        rw [hd]; simp
      have := padStr_isDigit hmem
      exact absurd this (by decide)

theorem univNewlines_of_noCR {s : Str} (h : '\r' ∉ s) : univNewlines s = s := by
  induction s with
  | nil => rfl
  | cons c s ih =>
    have hc : c ≠ '\r' := fun e => h (by simp [e])
    have hs : '\r' ∉ s := fun e => h (by simp [e])
    rw [univNewlines, ih hs]
    · intro s' he; exact absurd he hc
    · exact hc

/-- The value of `digestAlgorithm` that the validator reports. -/
theorem accepted_alg {isWord : Char → Bool} {j : Json} (hwf : j.WF) {res : IV.Result} {es : List Entry} {alg : Str}
    (h : IV.validate isWord false c!"1.1" none j = .ok (res, true, es))
    (ha : (Inv.ofJson j).digestAlgorithm = some alg) : res.digestAlgorithm = .str alg := by
  obtain ⟨m, vs, states, hacc⟩ := acc_of_accepted hwf h
  have hf := field_of_member hwf hacc.alg
  simp only [Inv.ofJson, hf, Option.bind_some] at ha
  cases hx : res.digestAlgorithm <;> simp [hx, Json.str?] at ha
  rw [ha]

theorem Good.state_normal {inv : Inv} {alg : Str} {m : DigestMap} {vs : Dict Str VBlock} {style : Option Nat} {n : Nat}
    (h : Good inv alg m vs style n) (hn : ∀ d ∈ Dict.keys m, normalizedDigest d alg = d) {v : Str} {b : VBlock}
    (hvb : (v, b) ∈ vs) {st : DigestMap} (hst : b.state = some st) : ∀ d ∈ Dict.keys st, normalizedDigest d alg = d := by
  obtain ⟨st', hg⟩ := h.blocks v b hvb
  have := hg.state
  rw [hst, Option.some.injEq] at this
  subst this
  intro d hd
  obtain ⟨ps, hps⟩ := Dict.exists_of_mem_keys hd
  obtain ⟨qs, _, hq⟩ := hg.digests _ (Dict.mem_of_get? hps)
  exact hn d (Dict.mem_keys_of_mem hq)

/-- Nothing is done to digests in normal spelling. -/
theorem Good.normalize_id {inv : Inv} {alg : Str} {m : DigestMap} {vs : Dict Str VBlock} {style : Option Nat} {n : Nat}
    (h : Parsed inv alg m vs style n) : inv.normalizeDigests alg = (inv, .ok ()) := by
  have hg := h.good
  have hvd : ∃ l, inv.versionDirectories = .ok l := by
    cases hvd : inv.versionDirectories with
    | ok l => exact ⟨l, rfl⟩
    | error e =>
      obtain ⟨_, k, hk, hp⟩ := versionDirectories_error hvd
      rw [hg.versionsD] at hk
      obtain ⟨i, h1, h2, rfl⟩ := (hg.names.2.2.2 k).mp hk
      rw [parse_styleName h.styleOK h1 (le_trans h2 h.limit)] at hp
      cases hp
  obtain ⟨l, hl⟩ := hvd
  have hm : normalizeMap alg m = m := normalizeMap_of_normal h.normal
  have hv : vs.map (fun p => (p.1, { p.2 with state := p.2.state.map (normalizeMap alg) })) = vs := by
    conv_rhs => rw [← List.map_id vs]
    apply List.map_congr_left
    rintro ⟨v, b⟩ hvb
    obtain ⟨st, hgb⟩ := hg.blocks v b hvb
    have : normalizeMap alg st = st := normalizeMap_of_normal (hg.state_normal h.normal hvb hgb.state)
    obtain ⟨c, ms, u, s'⟩ := b
    have hs := hgb.state
    simp only at hs
    subst hs
    simp only [Option.map_some, this]
    rfl
  unfold normalizeDigests
  rw [hl, hg.manifest, hg.versions]
  simp only [Option.map_some, hm, hv]
  obtain ⟨a, b, c, d, e, f, g, i⟩ := inv
  have e1 := hg.manifest
  have e2 := hg.versions
  simp only at e1 e2
  subst e1 e2
  rfl

/-- What is read from an inventory file, and how it relates to the document in the file. -/
structure ReadFrom (j : Json) (inv : Inv) (alg : Str) (m0 : DigestMap) (vs0 : List (Str × Json))
    (states : Str → List (Str × List Str)) (m : DigestMap) (vs : Dict Str VBlock) : Prop where
  wf : j.WF
  rules : ∃ cd style n, RulesWith false none j (.str alg) cd m0 vs0 states style n
  manifest : m.Perm (m0.map (fun e => (normalizedDigest e.1 alg, e.2)))
  versions : Dict.keys vs = vs0.map Prod.fst
  state : ∀ v ∈ vs0.map Prod.fst, ∃ b st, (v, b) ∈ vs ∧ b.state = some st ∧
    st.Perm ((states v).map (fun e => (normalizedDigest e.1 alg, e.2)))
  head : ∀ h, inv.head = some h ↔ Member j c!"head" (.str h)
  contentDirectory : inv.contentDirectory = (Inv.ofJson j).contentDirectory
  id : ∀ i, inv.id = some i ↔ Member j c!"id" (.str i)

/-- An inventory that was read obeys the rules, and its digests are in normal spelling. -/
theorem parse_readFrom {E : Env} (hlib : E.lib.Lawful) {base : Path} {s : FS} {inv : Inv}
    (h : parseInventory E base s = .ok inv) : ∃ j alg m0 vs0 states m vs style n,
      StoredJson E.lib s (FS.resolve base inventoryFilename) j ∧ ReadFrom j inv alg m0 vs0 states m vs ∧
      Parsed inv alg m vs style n := by
  unfold parseInventory at h
  split at h
  · cases h
  · rename_i text ht
    split at h
    · cases h
    · rename_i j hj
      have hwf := hlib.wf text j hj
      split at h
      · cases h
      · rename_i j' hj'
        have hwf' : j'.WF := by
          split at hj'
          · cases hj'; exact .obj Dict.NK_nil (by simp)
          · cases hj'; exact hwf
          · cases hj'
        split at h
        · cases h
        · cases h
        · rename_i res es hv
          obtain ⟨alg, cd, m0, vs0, states, style, n, hr⟩ := rules_of_valid ((C37 hwf').mp ⟨res, es, hv⟩)
          have hjj : j' = j := by
            split at hj'
            · cases hj'
              obtain ⟨i, _, d, hd, hm⟩ := hr.id
              rw [Json.obj.injEq] at hd
              subst hd
              simp at hm
            · cases hj'; rfl
            · cases hj'
          subst hjj
          obtain ⟨hg, hb⟩ := good_of_rules hwf' hr
          rw [accepted_alg hwf' hv hg.algorithm] at h
          simp only [Validator.algStr] at h
          split at h
          · cases h
          · rename_i inv' hn
            cases h
            have hg' := hg.normalize hn
            have hvd : ∃ l, (Inv.ofJson j').versionDirectories = .ok l := by
              unfold normalizeDigests at hn
              split at hn
              · cases hn
              · rename_i l hl; exact ⟨l, hl⟩
            obtain ⟨l, hl⟩ := hvd
            obtain ⟨hperm, f, hf, _⟩ := versionDirectories_ok hl
            rw [hg.versionsD] at hperm
            obtain ⟨n1, n2, n3, n4⟩ := hg.names
            obtain ⟨s1, s2⟩ := style_of_parse n1 n2 n3
              ⟨_, hf _ (hperm.mem_iff.mpr ((n4 _).mpr ⟨n, n2, le_refl n, rfl⟩))⟩
            refine ⟨j', alg, m0, vs0, states, _, _, style, n, ?_, ?_, hg',
              normalizeMap_normal hg.manifestKeys hg.distinct, s1, s2⟩
            · unfold readText at ht
              split at ht
              · cases ht
              · rename_i b hread
                split at ht
                · cases ht
                · rename_i t hdec
                  cases ht
                  refine ⟨b, t, ?_, hdec, hj⟩
                  unfold FS.read at hread
                  split at hread
                  · cases hread
                  · cases hread
                  · rename_i b' hlook
                    cases hread
                    exact hlook
            · refine ⟨hwf', ⟨cd, style, n, hr⟩, normalizeMap_perm hg.manifestKeys hg.distinct, ?_, ?_, ?_, by
                unfold normalizeDigests at hn
                rw [hl] at hn
                cases hn
                rfl, ?_⟩
              · rw [Dict.keys_map_val]
                exact Dict.keys_map_val vs0 (fun e => VBlock.ofJson e.2)
              · intro v hvm
                obtain ⟨⟨v', b⟩, hvb, rfl⟩ := List.mem_map.mp hvm
                have hgb := hb v' b hvb
                refine ⟨normalizeBlock alg (VBlock.ofJson b), normalizeMap alg (states v'), ?_, ?_,
                  normalizeMap_perm hgb.keys (hgb.distinct hg.distinct)⟩
                · exact List.mem_map.mpr ⟨(v', VBlock.ofJson b), List.mem_map.mpr ⟨(v', b), hvb, rfl⟩, rfl⟩
                · unfold normalizeBlock
                  rw [hgb.state]
                  rfl
              · intro hd
                have he : inv.head = (Inv.ofJson j').head := by
                  unfold normalizeDigests at hn
                  rw [hl] at hn
                  cases hn
                  rfl
                rw [he]
                constructor
                · intro hh
                  simp only [Inv.ofJson] at hh
                  obtain ⟨x, hx, hxs⟩ := Option.bind_eq_some_iff.mp hh
                  cases x <;> simp [Json.str?] at hxs
                  subst hxs
                  exact member_of_field hx
                · intro hm
                  simp only [Inv.ofJson, field_of_member hwf' hm]
                  rfl
              · intro hi
                have he : inv.id = (Inv.ofJson j').id := by
                  unfold normalizeDigests at hn
                  rw [hl] at hn
                  cases hn
                  rfl
                rw [he]
                constructor
                · intro hh
                  simp only [Inv.ofJson] at hh
                  obtain ⟨x, hx, hxs⟩ := Option.bind_eq_some_iff.mp hh
                  cases x <;> simp [Json.str?] at hxs
                  subst hxs
                  exact member_of_field hx
                · intro hm
                  simp only [Inv.ofJson, field_of_member hwf' hm]
                  rfl

theorem parse_parsed {E : Env} (hlib : E.lib.Lawful) {base : Path} {s : FS} {inv : Inv}
    (h : parseInventory E base s = .ok inv) : ∃ alg m vs style n, Parsed inv alg m vs style n := by
  obtain ⟨_, alg, _, _, _, m, vs, style, n, _, _, hp⟩ := parse_readFrom hlib h
  exact ⟨alg, m, vs, style, n, hp⟩

theorem Parsed.sorted {inv : Inv} {alg : Str} {m : DigestMap} {vs : Dict Str VBlock} {style : Option Nat} {n : Nat}
    (h : Parsed inv alg m vs style n) :
    Parsed inv.sorted alg (Dict.sorted m) (Dict.sorted (vs.map (fun e => (e.1, e.2.sorted)))) style n := by
  refine ⟨h.good.sorted, ?_, h.styleOK, h.limit⟩
  intro d hd
  exact h.normal d (((Dict.sorted_perm m).map Prod.fst).mem_iff.mp hd)

theorem look_inventory (base : Path) : FS.resolve base inventoryFilename = base ++ [inventoryFilename] :=
  FS.resolve_name base (by decide)

/-- An inventory that was written is read back, in the order in which it was written. -/
theorem parse_written {E : Env} (hlib : E.lib.Lawful) {base : Path} {s : FS} {inv : Inv} {alg : Str} {m : DigestMap}
    {vs : Dict Str VBlock} {style : Option Nat} {n : Nat} (h : Parsed inv alg m vs style n)
    (hlook : FS.look s (base ++ [inventoryFilename]) = some (.file (utf8 (inventoryText E inv)))) :
    parseInventory E base s = .ok inv.sorted := by
  have hw := Inv.writable_toJson h.good.keys
  have hload : E.lib.loads (inventoryText E inv) = some inv.toJson.sortKeys := hlib.loads _ hw.sortKeys
  have hwf := hw.sortKeys.wf
  obtain ⟨res, es, hv⟩ := (C37 (isWord := E.isWord) (ds := c!"1.1") hwf).mpr
    (validInventory_reorder hw.wf (Json.reorder_sortKeys hw.wf) h.good.valid)
  have hobj : ∃ d, inv.toJson.sortKeys = .obj d := ⟨_, by rw [Inv.toJson_eq]; exact Json.sortKeys_obj _⟩
  obtain ⟨d, hd⟩ := hobj
  have ha := accepted_alg hwf hv (by rw [Inv.ofJson_sortKeys]; exact h.sorted.good.algorithm)
  unfold parseInventory
  have hr : readText s (FS.resolve base inventoryFilename) = .ok (inventoryText E inv) := by
    unfold readText FS.read
    rw [look_inventory, hlook]
    simp only [utf8Decode_utf8]
    rw [univNewlines_of_noCR (s := inventoryText E inv) (hlib.noCR _ hw.sortKeys)]
  rw [hr]
  simp only [hload]
  rw [hd] at hv ⊢
  simp only [hv, ha, Validator.algStr]
  rw [← hd, Inv.ofJson_sortKeys, Good.normalize_id h.sorted]

end Ocfl
