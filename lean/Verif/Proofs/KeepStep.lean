import Verif.Proofs.KeepsValid
import Verif.Spec.Chain

/-!
# Updates of any object
-/

namespace Ocfl

open Spec FS Prog Ocfl.Inv

theorem lower_normal {d alg : Str} (h : ∀ c ∈ d, ¬ ('A' ≤ c ∧ c ≤ 'Z')) : normalizedDigest d alg = d := by
  unfold normalizedDigest
  split
  · rfl
  · conv_rhs => rw [← List.map_id d]
    refine List.map_congr_left ?_
    intro c hc
    unfold asciiLower
    rw [if_neg (h c hc)]
    rfl

theorem normal_lower {d alg : Str} (ha : alg = c!"sha512" ∨ alg = c!"sha256") (h : normalizedDigest d alg = d) :
    ∀ c ∈ d, ¬ ('A' ≤ c ∧ c ≤ 'Z') := by
  unfold normalizedDigest at h
  rw [if_neg (by rcases ha with rfl | rfl <;> decide)] at h
  intro c hc hA
  have := List.map_inj_left.mp (h.trans (List.map_id d).symm) c hc
  have h2 := congrArg Char.toNat this
  rw [asciiLower_toNat] at h2
  have h1 : 65 ≤ c.toNat := by
    have := hA.1
    rw [Char.le_def, UInt32.le_iff_toNat_le] at this
    exact this
  have h3 : c.toNat ≤ 90 := by
    have := hA.2
    rw [Char.le_def, UInt32.le_iff_toNat_le] at this
    exact this
  rw [if_pos ⟨h1, h3⟩] at h2
  have : (_root_.id c).toNat = c.toNat := rfl
  omega

theorem names_length {keys : List Str} {style : Option Nat} {n : Nat}
    (h : ∀ v, v ∈ keys ↔ ∃ i, 1 ≤ i ∧ i ≤ n ∧ v = styleName style i) : n ≤ keys.length := by
  have hn : ((upTo n).map (styleName style)).Nodup := by
    refine List.Nodup.map_on (fun a _ b _ he => styleName_inj he) ?_
    unfold upTo
    exact List.Nodup.map (fun a b h => by simpa using h) List.nodup_range
  have hs : ((upTo n).map (styleName style)) ⊆ keys := by
    intro v hv
    obtain ⟨i, hi, rfl⟩ := List.mem_map.mp hv
    rw [mem_upTo] at hi
    exact (h _).mpr ⟨i, by omega, hi.2, rfl⟩
  have := (List.subperm_of_subset hn hs).length_le
  simpa [upTo] using this

/-- A written inventory against a document that was read. -/
theorem continues_read {j : Json} {m0 : List (Str × List Str)} {vs0 : List (Str × Json)} {states : Str → List (Str × List Str)} {alg alg' : Str}
    {inv' : Inv} {m' : DigestMap} {vs' : Dict Str VBlock} {style' : Option Nat} {n' : Nat}
    (hwf : j.WF) (hview : View j m0 vs0 states) (halg : Member j c!"digestAlgorithm" (.str alg)) (h' : Good inv' alg' m' vs' style' n')
    (hsub : ∀ v ∈ vs0.map Prod.fst, v ∈ Dict.keys vs') (hmore : ∃ v ∈ Dict.keys vs', v ∉ vs0.map Prod.fst)
    (hpaths : ∀ v ∈ vs0.map Prod.fst, ∀ p, p ∈ listed (states v) ↔ p ∈ listed (stateIn vs' v))
    (hres : ∀ v ∈ vs0.map Prod.fst, ∀ p c, Resolves m0 (states v) p c → Resolves m' (stateIn vs' v) p c)
    (hdig : alg = alg' → ∀ v ∈ vs0.map Prod.fst, ∀ d, d ∈ (states v).map Prod.fst ↔ d ∈ Dict.keys (stateIn vs' v)) :
    Continues inv'.toJson.sortKeys j := by
  have hkeys : ∀ (w : Dict Str VBlock) v, v ∈ (Dict.sorted (w.map (fun e => (e.1, e.2.toJson.sortKeys)))).map Prod.fst ↔ v ∈ Dict.keys w := by
    intro w v
    rw [((Dict.sorted_perm (w.map (fun e => (e.1, e.2.toJson.sortKeys)))).map Prod.fst).mem_iff, List.map_map]
    rfl
  have hst : ∀ (st : DigestMap) d, d ∈ (Dict.sorted st).map Prod.fst ↔ d ∈ Dict.keys st :=
    fun st d => ((Dict.sorted_perm st).map Prod.fst).mem_iff
  have hl : ∀ (st : DigestMap) p, p ∈ listed (Dict.sorted st) ↔ p ∈ listed st := by
    intro st p
    rw [mem_listed, mem_listed]
    exact exists_congr (fun d => lists_sorted)
  have hr : ∀ (a st : DigestMap) p c, Resolves (Dict.sorted a) (Dict.sorted st) p c ↔ Resolves a st p c := by
    intro a st p c
    unfold Resolves
    exact exists_congr (fun d => and_congr lists_sorted lists_sorted)
  refine ⟨m0, vs0, states, _, _, _, hview, h'.writtenView, ?_, ?_, ?_⟩
  · intro v hv
    rw [hkeys]
    exact hsub v hv
  · obtain ⟨v, h1, h2⟩ := hmore
    exact ⟨v, (hkeys _ v).mpr h1, h2⟩
  · intro v hv
    refine ⟨?_, ?_, ?_⟩
    · intro p
      rw [hl]
      exact hpaths v hv p
    · intro p c
      rw [hr]
      exact hres v hv p c
    · intro a ha ha' d
      rw [hst]
      refine hdig ?_ v hv d
      have e1 := member_str_unique hwf ha halg
      have e2 := member_str_unique (Inv.writable_toJson h'.keys).sortKeys.wf ha' h'.writtenAlg
      exact e1.symm.trans e2

/-- One update of an object whose root inventory is `j`. -/
theorem update_step {E : Env} (hlib : E.lib.Lawful) (hhash : HashLib E.raw) {o : Obj}
    (halg : o.digestAlgorithm = c!"sha512" ∨ o.digestAlgorithm = c!"sha256") {srcdir objdir : Str} {metadata : Option VBlock}
    (hmeta : GoodMeta metadata) {abort : Bool} {s s' : FS} (hw : s.WF) {j : Json}
    (hj : StoredJson E.lib s (absComps E.cwd objdir ++ [inventoryFilename]) j)
    (hcd : ¬ Member j c!"contentDirectory" (.str [])) (hroom : RoomForVersion j)
    (htold : Member j c!"digestAlgorithm" (.str o.digestAlgorithm) ∨ ToldApart E s (absComps E.cwd objdir) o.digestAlgorithm j)
    (hnames : NamesAllowed o (FileBelow s (absComps E.cwd srcdir))) {inv : Inv}
    (hr : run (addVersionWithContent E o objdir (some srcdir) metadata abort) s = (s', .ok (some inv))) :
    ∃ j' m' vs' style' n', StoredJson E.lib s' (absComps E.cwd objdir ++ [inventoryFilename]) j' ∧ s'.WF ∧
      j' = inv.toJson.sortKeys ∧ Parsed inv o.digestAlgorithm m' vs' style' n' ∧
      ¬ Member j' c!"contentDirectory" (.str []) ∧
      (¬ Member j c!"digestAlgorithm" (.str o.digestAlgorithm) ∨ LowerDigests j → Continues j' j) := by
  unfold addVersionWithContent at hr
  obtain ⟨s0, r0, h0, hr⟩ := run_bind_inv hr
  rw [run_look] at h0
  obtain ⟨hs0, hprep⟩ := Prod.mk.inj h0
  clear h0
  subst hs0
  cases r0 with
  | none => cases hr
  | some r0 =>
  obtain ⟨base, src, nv⟩ := r0
  obtain ⟨sd, hsd, nv0, inv0, alg, m, vs, style, n, inv1, hst, hadd⟩ := prepareUpdate_started hlib hprep
  cases hsd
  have hbb := hst.base_eq
  subst hbb
  -- the document and what was read
  obtain ⟨j2, alg2, m0, vs0, states, m2, vs2, style2, n2, hj2, hrf, hp2⟩ := parse_readFrom hlib hst.parse
  rw [look_inventory] at hj2
  have := storedJson_unique hj2 hj
  subst this
  have ealg : alg2 = alg := by
    have := hp2.good.algorithm
    rw [hst.parsed.good.algorithm] at this
    exact (Option.some.inj this).symm
  subst ealg
  have em : m2 = m := by rw [← hp2.good.manifestD, hst.parsed.good.manifestD]
  have ev : vs2 = vs := by rw [← hp2.good.versionsD, hst.parsed.good.versionsD]
  subst em ev
  obtain ⟨cd0, style0, n0, hrules⟩ := hrf.rules
  have hview : View j2 m0 vs0 states := ⟨hrules.manifest, hrules.versions, fun v b hvb => (hrules.versionRules v b hvb).state⟩
  have hmalg : Member j2 c!"digestAlgorithm" (.str alg2) := hrules.digestAlgorithm.1
  obtain ⟨hg0, hb0⟩ := good_of_rules hrf.wf hrules
  have hlm : ∀ d c, Lists m2 d c ↔ ∃ d0, normalizedDigest d0 alg2 = d ∧ Lists m0 d0 c := by
    intro d c
    constructor
    · rintro ⟨ps, h1, h2⟩
      obtain ⟨d0, h3, h4⟩ := (mem_perm_map (f := fun d => normalizedDigest d alg2) hrf.manifest).mp h1
      exact ⟨d0, h4, ps, h3, h2⟩
    · rintro ⟨d0, h4, ps, h3, h2⟩
      exact ⟨ps, (mem_perm_map (f := fun d => normalizedDigest d alg2) hrf.manifest).mpr ⟨d0, h3, h4⟩, h2⟩
  -- the change of the algorithm
  obtain ⟨f, m1, vs1, hp1, hrec, hfid, _, hcd1, hty1, hid1⟩ := changeDigest_parsed hhash hst.parsed hst.change halg (by
    intro hne
    rcases htold with h | h
    · exact absurd (member_str_unique hrf.wf h hmalg) hne
    · intro d c d' c' b b' h1 h2 h3 h4 h5
      obtain ⟨d0, rfl, h1'⟩ := (hlm _ _).mp h1
      obtain ⟨d0', rfl, h2'⟩ := (hlm _ _).mp h2
      rw [h m0 d0 c d0' c' b b' hview.manifest h1' h2' h3 h4 h5])
  have hcdj : inv0.contentDirectoryToUse ≠ [] := by
    unfold Inv.contentDirectoryToUse
    rw [hrf.contentDirectory]
    cases hc : (Inv.ofJson j2).contentDirectory with
    | none => decide
    | some cd =>
      rintro rfl
      apply hcd
      simp only [Inv.ofJson] at hc
      obtain ⟨x, hx, hxs⟩ := Option.bind_eq_some_iff.mp hc
      cases x <;> simp [Json.str?] at hxs
      rw [hxs] at hx
      exact member_of_field hx
  have hlim : n + 1 ≤ styleLimit style := by
    rcases (nextVersion_ok hp1.numbered hst.next).1 with h | h
    · exact h
    · subst h
      have h1 := names_length hst.parsed.good.names.2.2.2
      rw [hrf.versions, List.length_map] at h1
      have h2 := hroom vs0 hview.versions
      show n + 1 ≤ 99999
      omega
  have g := ground_next hp1 (sv := c!"1.1") (by decide) hmeta hlim hst.next
  have hsrceq := hst.src_eq
  rw [← hsrceq] at hnames
  obtain ⟨srcs, hsource, hadded⟩ := addFromSrcdir_ok hw hst.src_dir g.building ⟨_, g.manifest⟩ g.queue hadd
  obtain ⟨_, type, htype, hnv0⟩ := nextVersion_ok hp1.numbered hst.next
  have hcd0 : nv0.inv.contentDirectory = inv0.contentDirectory := by rw [hnv0]; exact hcd1
  have hold0 : nv0.oldDigestAlgorithm = some alg2 := by rw [hnv0]
  have hnorm0 : nv0.norm = o.norm := by rw [hnv0]
  have hcdu : nv0.inv.contentDirectoryToUse ≠ [] := by
    unfold Inv.contentDirectoryToUse at hcdj ⊢
    rw [hcd0]
    exact hcdj
  have hx := hexNames_srcEnv hhash s src
  have hq : QueueReady (styleName style (n + 1)) nv.filesToCopy := g.queueReady hadded hsource.names hx hcdu
  have hh : SafeName (styleName style (n + 1)) := styleName_safe _ _
  have hv : (styleName style (n + 1)).head? = some 'v' := styleName_head _ _
  have hhead : nv.inv.head = some (styleName style (n + 1)) := by rw [hadded.head.1]; exact g.head
  have holdn : nv.oldDigestAlgorithm = some alg2 := by rw [hadded.old]; exact hold0
  obtain ⟨s2, inv2, hwr, hr⟩ := run_bind_inv hr
  have hr : (s2, Except.ok (some inv2)) = (s', (.ok (some inv) : Py (Option Inv))) := hr
  cases hr
  have hslash : '/' ∉ alg2 := by
    rcases hp2.good.algName with h | h <;> (rw [h]; decide)
  obtain ⟨rfl, W⟩ := writeNewVersion_ok_inv hw hst.base_dir hhead hh hv hq (by
      intro old ho
      rw [holdn] at ho
      cases ho
      exact hslash) (by
      intro e he hn
      obtain ⟨r, b, hf, hj⟩ := (hsource.files e.1).mp (hadded.queueDone e he)
      rw [hj, resolve_join src ((treeOK_below hw src).names r b hf).2, hf.2] at hn
      cases hn) hwr
  have hparsed := g.good hadded hsource.names hx (goodDigests_src hhash g.algName s src) hcdu (by rw [hnorm0]; exact hsource.newlines hnames)
    (Or.inr ⟨[], rfl⟩)
  refine ⟨_, _, _, _, _, stored_written hlib hparsed.good (W.inventory _ (Or.inl rfl)), W.wf, rfl, hparsed, ?_, ?_⟩
  · intro hm
    have hcdn : nv.inv.contentDirectory = inv0.contentDirectory := by rw [hadded.keeps.2.2.1]; exact hcd0
    have h1 := field_of_member (Inv.writable_toJson hparsed.good.keys).sortKeys.wf hm
    have h2 : (Inv.ofJson nv.inv.toJson.sortKeys).contentDirectory = some [] := by
      simp only [Inv.ofJson, h1]
      rfl
    rw [Inv.ofJson_sortKeys] at h2
    have h3 : nv.inv.contentDirectory = some [] := h2
    apply hcdj
    unfold Inv.contentDirectoryToUse
    rw [← hcdn, h3]
    rfl
  · intro hcont
    have hvk : ∀ v, v ∈ Dict.keys vs1 ↔ v ∈ vs0.map Prod.fst := by
      intro v
      have e : Dict.keys vs1 = Dict.keys vs2 := by
        rw [hrec.versions]; exact Dict.keys_map_val vs2 (fun e => recodeBlock f e.2)
      rw [← hrf.versions, e]
    have hnew : ∀ v ∈ Dict.keys vs1, v ≠ styleName style (n + 1) := fun v hv he => g.fresh (he ▸ hv)
    have hstn : ∀ v ∈ Dict.keys vs1, stateIn (Dict.set vs1 (styleName style (n + 1))
        { { metadata.getD {} with state := some [] } with state := some (nv.inv.stateOf (styleName style (n + 1))) }) v = stateIn vs1 v := by
      intro v hv
      unfold stateIn
      rw [Dict.get?_set, if_neg (fun e => hnew v hv e.symm)]
    have hst1 : ∀ v, stateIn vs1 v = (stateIn vs2 v).map (fun x => (f x.1, x.2)) := fun v => hrec.state v
    have hst2 : ∀ v ∈ vs0.map Prod.fst, (stateIn vs2 v).Perm ((states v).map (fun e => (normalizedDigest e.1 alg2, e.2))) := by
      intro v hv
      obtain ⟨b, st, hvb, hbs, hperm⟩ := hrf.state v hv
      have : stateIn vs2 v = st := by
        unfold stateIn
        rw [(Dict.mem_iff_get? hp2.good.versionKeys).mp hvb]
        simp [hbs]
      rw [this]
      exact hperm
    have hls : ∀ v ∈ vs0.map Prod.fst, ∀ d p, Lists (stateIn vs1 v) d p ↔ ∃ d0, f (normalizedDigest d0 alg2) = d ∧ Lists (states v) d0 p := by
      intro v hv d p
      rw [hst1, lists_recode]
      constructor
      · rintro ⟨d1, rfl, ps, h1, h2⟩
        obtain ⟨d0, h3, h4⟩ := (mem_perm_map (f := fun d => normalizedDigest d alg2) (hst2 v hv)).mp h1
        exact ⟨d0, by rw [← h4], ps, h3, h2⟩
      · rintro ⟨d0, h4, ps, h3, h2⟩
        exact ⟨_, h4.symm, ps, (mem_perm_map (f := fun d => normalizedDigest d alg2) (hst2 v hv)).mpr ⟨d0, h3, rfl⟩, h2⟩
    refine continues_read hrf.wf hview hmalg hparsed.good ?_ ?_ ?_ ?_ ?_
    · intro v hv
      exact Dict.mem_keys_set.mpr (Or.inr ((hvk v).mpr hv))
    · refine ⟨styleName style (n + 1), Dict.mem_keys_set.mpr (Or.inl rfl), fun hv => ?_⟩
      exact hnew _ ((hvk _).mpr hv) rfl
    · intro v hv p
      rw [hstn v ((hvk v).mpr hv), mem_listed, mem_listed]
      constructor
      · rintro ⟨d, hd⟩
        exact ⟨_, (hls v hv _ p).mpr ⟨d, rfl, hd⟩⟩
      · rintro ⟨d, hd⟩
        obtain ⟨d0, _, h⟩ := (hls v hv d p).mp hd
        exact ⟨d0, h⟩
    · rintro v hv p c ⟨d, h1, h2⟩
      rw [hstn v ((hvk v).mpr hv)]
      refine ⟨f (normalizedDigest d alg2), (hls v hv _ p).mpr ⟨d, rfl, h1⟩, (hadded.paths _ c).mpr (Or.inl ?_)⟩
      rw [g.manifestD, hrec.manifest, lists_recode]
      exact ⟨_, rfl, (hlm _ _).mpr ⟨d, rfl, h2⟩⟩
    · intro heq v hv d
      rw [hstn v ((hvk v).mpr hv), hst1, hfid heq.symm]
      have hlow : LowerDigests j2 := by
        rcases hcont with h | h
        · rw [heq] at hmalg; exact absurd hmalg h
        · exact h
      have : Dict.keys ((stateIn vs2 v).map (fun x => (_root_.id x.1, x.2))) = Dict.keys (stateIn vs2 v) := by
        simp only [Dict.keys, List.map_map]
        rfl
      rw [this, show Dict.keys (stateIn vs2 v) = (stateIn vs2 v).map Prod.fst from rfl, ((hst2 v hv).map Prod.fst).mem_iff, List.map_map]
      have hself : (states v).map (Prod.fst ∘ fun e => (normalizedDigest e.1 alg2, e.2)) = (states v).map Prod.fst := by
        refine List.map_congr_left ?_
        intro e he
        obtain ⟨⟨v', b0⟩, hvb0, hv0⟩ := List.mem_map.mp hv
        have hv0 : v' = v := hv0
        subst hv0
        obtain ⟨qs, _, hq⟩ := (hb0 _ _ hvb0).digests e he
        exact lower_normal (hlow m0 hview.manifest (e.1, qs) hq)
      rw [hself]

theorem member_unique {j : Json} (hwf : j.WF) {k : Str} {a b : Json} (h : Member j k a) (h' : Member j k b) : a = b := by
  obtain ⟨d, rfl, h1⟩ := h
  have h1' : Member (.obj d) k a := ⟨d, rfl, h1⟩
  rw [member_iff (wf_obj hwf).1] at h' h1'
  rw [h1'] at h'
  exact Option.some.inj h'

theorem sameView {j : Json} (hwf : j.WF) {m m' : List (Str × List Str)} {vs vs' : List (Str × Json)}
    {states states' : Str → List (Str × List Str)} (h : View j m vs states) (h' : View j m' vs' states') :
    m = m' ∧ vs = vs' ∧ ∀ v ∈ vs.map Prod.fst, states v = states' v := by
  have e1 := ofDigestMap_inj (member_unique hwf h.manifest h'.manifest)
  have e2 := member_unique hwf h.versions h'.versions
  cases e2
  refine ⟨e1, rfl, ?_⟩
  intro v hv
  obtain ⟨⟨v', b⟩, hb, e⟩ := List.mem_map.mp hv
  have e : v' = v := e
  subst e
  have hwfv : (Json.obj vs).WF := by
    obtain ⟨d, rfl, hd⟩ := h.versions
    exact (wf_obj hwf).2 _ _ (Dict.get?_of_mem (wf_obj hwf).1 hd)
  exact ofDigestMap_inj (member_unique ((wf_obj hwfv).2 _ _ (Dict.get?_of_mem (wf_obj hwfv).1 hb)) (h.state v' b hb) (h'.state v' b hb))

/-- An inventory that continues one that continues a third continues the third, if they have the same algorithm. -/
theorem Continues.trans {a b c : Json} (hwf : b.WF) {alg : Str} (hb : Member b c!"digestAlgorithm" (.str alg))
    (ha : a.WF ∧ Member a c!"digestAlgorithm" (.str alg)) (hcb : Continues c b) (hba : Continues b a) : Continues c a := by
  obtain ⟨m, vs, states, m', vs', states', h1, h2, h3, h4, h5⟩ := hba
  obtain ⟨m1, vs1, states1, m2, vs2, states2, k1, k2, k3, k4, k5⟩ := hcb
  obtain ⟨rfl, rfl, est⟩ := sameView hwf h2 k1
  refine ⟨m, vs, states, m2, vs2, states2, h1, k2, fun v hv => k3 v (h3 v hv), ?_, ?_⟩
  · obtain ⟨v, l1, l2⟩ := h4
    exact ⟨v, k3 v l1, l2⟩
  · intro v hv
    obtain ⟨x1, x2, x3⟩ := h5 v hv
    obtain ⟨y1, y2, y3⟩ := k5 v (h3 v hv)
    rw [← est v (h3 v hv)] at y1 y2 y3
    refine ⟨fun p => (x1 p).trans (y1 p), fun p c hr => y2 p c (x2 p c hr), ?_⟩
    intro al hal hal' d
    have := member_str_unique ha.1 hal ha.2
    subst this
    exact (x3 al hal hb d).trans (y3 al hb hal' d)

theorem parsed_lower {inv : Inv} {alg : Str} {m : DigestMap} {vs : Dict Str VBlock} {style : Option Nat} {n : Nat}
    (h : Parsed inv alg m vs style n) : LowerDigests inv.toJson.sortKeys := by
  intro m1 hm1 e he
  have := ofDigestMap_inj (member_unique (Inv.writable_toJson h.good.keys).sortKeys.wf hm1 h.good.writtenView.manifest)
  subst this
  refine normal_lower h.good.algName (h.normal e.1 ?_)
  exact Dict.mem_keys_of_mem ((Dict.sorted_perm m).mem_iff.mp he)

theorem storedJson_wf {lib : JsonLib} (hlib : lib.Lawful) {s : FS} {p : Path} {j : Json} (h : StoredJson lib s p j) : j.WF := by
  obtain ⟨_, _, _, _, h3⟩ := h
  exact hlib.wf _ _ h3

theorem storedJson_congr {lib : JsonLib} {s s' : FS} {p : Path} {j : Json} (h : look s' p = look s p) (hj : StoredJson lib s p j) :
    StoredJson lib s' p j := by
  obtain ⟨b, t, h1, h2⟩ := hj
  exact ⟨b, t, by rw [h]; exact h1, h2⟩

/-- The invariant of updates of any object. -/
theorem updates_ok {E : Env} (hlib : E.lib.Lawful) (hhash : HashLib E.raw) {base : Path} {alg : Str}
    (halg : alg = c!"sha512" ∨ alg = c!"sha256") {js : List Json} {s : FS} (h : Updates E base alg js s) :
    s.WF ∧ (∃ pre j, js = pre ++ [j] ∧ StoredJson E.lib s (base ++ [inventoryFilename]) j ∧ LowerDigests j ∧
        ¬ Member j c!"contentDirectory" (.str [])) ∧
      (∀ j ∈ js, j.WF ∧ Member j c!"digestAlgorithm" (.str alg)) ∧ js.Pairwise (fun a b => Continues b a) ∧
      ∀ j ∈ js.tail, ∀ isWord ds, Accepts isWord false ds none j := by
  induction h with
  | @start s j wf stored lower algorithm contentDirectory =>
    refine ⟨wf, ⟨[], j, rfl, stored, lower, contentDirectory⟩, ?_, List.pairwise_singleton _ _, by simp⟩
    intro x hx
    rw [List.mem_singleton.mp hx]
    exact ⟨storedJson_wf hlib stored, algorithm⟩
  | elsewhere before wf same ih =>
    obtain ⟨_, ⟨pre, j, h1, h2, h3, h4⟩, h5⟩ := ih
    exact ⟨wf, ⟨pre, j, h1, storedJson_congr (same _ (List.prefix_append _ _)) h2, h3, h4⟩, h5⟩
  | @update js j j' o srcdir objdir metadata abort s s' inv before algorithm block base_eq room names done stored ih =>
    obtain ⟨hw, ⟨pre, jl, h1, h2, h3, h4⟩, h5, h6, h7⟩ := ih
    have e := List.append_inj' h1 rfl
    have e2 := (List.cons.inj e.2).1
    subst e2
    subst base_eq algorithm
    have hmem : Member j c!"digestAlgorithm" (.str o.digestAlgorithm) := (h5 j (by simp)).2
    obtain ⟨j2, m', vs', style', n', k1, k2, k3, k4, k5, k6⟩ := update_step hlib hhash halg block hw h2 h4 room (Or.inl hmem) names done
    have := storedJson_unique stored k1
    subst this
    have hc := k6 (Or.inr h3)
    have hmem' : j'.WF ∧ Member j' c!"digestAlgorithm" (.str o.digestAlgorithm) :=
      ⟨storedJson_wf hlib k1, by rw [k3]; exact k4.good.writtenAlg⟩
    refine ⟨k2, ⟨_, j', rfl, k1, by rw [k3]; exact parsed_lower k4, k5⟩, ?_, ?_, ?_⟩
    · intro x hx
      rcases List.mem_append.mp hx with hx | hx
      · exact h5 x hx
      · rw [List.mem_singleton.mp hx]; exact hmem'
    · rw [List.pairwise_append]
      refine ⟨h6, List.pairwise_singleton _ _, ?_⟩
      intro a ha b hb
      rw [List.mem_singleton.mp hb]
      rcases List.mem_append.mp ha with ha' | ha'
      · rw [List.pairwise_append] at h6
        exact Continues.trans (h5 j (by simp)).1 hmem (h5 a ha) hc (h6.2.2 a ha' j (by simp))
      · rw [List.mem_singleton.mp ha']
        exact hc
    · intro x hx isWord ds
      rw [List.tail_append_of_ne_nil (by simp)] at hx
      rcases List.mem_append.mp hx with hx | hx
      · exact h7 x hx isWord ds
      · rw [List.mem_singleton.mp hx, k3]
        exact accepts_written k4.good isWord ds

end Ocfl
