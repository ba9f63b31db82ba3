import Verif.Model.PriorVersion
import Verif.Spec.PriorVersion
import Verif.Proofs.InventoryNoRaise

/-!
# Lemmas about `validate_as_prior_version`
-/

namespace Ocfl
open IV V Spec

theorem strings_map (ps : List Str) : strings (.arr (ps.map .str)) = .ok ps := by
  unfold strings
  dsimp only
  induction ps with
  | nil => rfl
  | cons a ps ih =>
    rw [List.map_cons, List.mapM_cons, ih]
    rfl

/-- The content listed for a digest. -/
def contentOf (m : List (Str × List Str)) (d : Str) : List Str := (Dict.get? m d).getD []

theorem get?_encMap (m : List (Str × List Str)) (d : Str) :
    Dict.get? (encMap m) d = (Dict.get? m d).map (fun ps => .arr (ps.map .str)) := by
  unfold encMap
  exact Dict.get?_map_val m (fun ps => Json.arr (ps.map .str)) d

theorem addDigest_eq {m : List (Str × List Str)} {fm : Dict Str (List Str)} {d : Str} {ps cs : List Str}
    (h : Dict.get? m d = some cs) :
    addDigest (ofDigestMap m) fm (d, .arr (ps.map .str)) =
      .ok ((ps.map (fun p => (p, contentOf m d))).foldl (fun fm e => Dict.set fm e.1 e.2) fm) := by
  unfold addDigest
  have hg : Dict.get? (encMap m) d = some (.arr (cs.map .str)) := by rw [get?_encMap, h]; rfl
  rw [ofDigestMap_eq, pyIn_obj, has_of_get hg, pyIndex_obj, hg]
  show (do
    let files ← strings (.arr (ps.map .str))
    let content ← strings (.arr (cs.map .str))
    Except.ok (files.foldl (fun fm f => Dict.set fm f content) fm) : Py _) = _
  rw [strings_map, strings_map]
  show Except.ok _ = _
  rw [List.foldl_map]
  simp [contentOf, h]

/-- The map from logical paths to content files. -/
def pathMap (m st : List (Str × List Str)) : Dict Str (List Str) :=
  st.flatMap (fun e => e.2.map (fun p => (p, contentOf m e.1)))

theorem keys_pathMap (m st : List (Str × List Str)) : (pathMap m st).map Prod.fst = listed st := by
  unfold pathMap listed
  induction st with
  | nil => rfl
  | cons e st ih =>
    simp only [List.flatMap_cons, List.map_append, ih, List.map_map, List.map_cons, List.flatten_cons]
    congr 1
    simp [Function.comp_def]

theorem foldlM_addDigest {m : List (Str × List Str)} (st : List (Str × List Str)) (fm : Dict Str (List Str))
    (h : ∀ e ∈ st, ∃ cs, Dict.get? m e.1 = some cs) :
    (encMap st).foldlM (addDigest (ofDigestMap m)) fm =
      .ok ((pathMap m st).foldl (fun fm e => Dict.set fm e.1 e.2) fm) := by
  induction st generalizing fm with
  | nil => rfl
  | cons e st ih =>
    obtain ⟨cs, hcs⟩ := h e (by simp)
    show (addDigest (ofDigestMap m) fm (e.1, .arr (e.2.map .str)) >>= fun x => (encMap st).foldlM (addDigest (ofDigestMap m)) x) = _
    rw [addDigest_eq hcs]
    show (encMap st).foldlM (addDigest (ofDigestMap m)) _ = _
    rw [ih _ (fun e' he => h e' (by simp [he]))]
    simp [pathMap, List.foldl_append]

theorem mem_pathMap {m st : List (Str × List Str)} {p : Str} {cs : List Str} :
    (p, cs) ∈ pathMap m st ↔ ∃ d, Lists st d p ∧ cs = contentOf m d := by
  unfold pathMap Lists
  simp only [List.mem_flatMap, List.mem_map, Prod.mk.injEq]
  constructor
  · rintro ⟨⟨d, ps⟩, h1, q, hq, rfl, rfl⟩
    exact ⟨d, ⟨ps, h1, hq⟩, rfl⟩
  · rintro ⟨d, ⟨ps, h1, hq⟩, rfl⟩
    exact ⟨(d, ps), h1, p, hq, rfl, rfl⟩

theorem clean_compareMaps {pm sm : Dict Str (List Str)} (hk : Dict.NK sm) {u : Unit} :
    Clean (compareMaps pm sm) u ↔ (∀ p, p ∈ Dict.keys pm ↔ p ∈ Dict.keys sm) ∧
      ∀ p cs, (p, cs) ∈ pm → ∃ cs', (p, cs') ∈ sm ∧ ∀ c ∈ cs, c ∈ cs' := by
  unfold compareMaps
  have hf : ∀ a b : Dict Str (List Str), ((Dict.keys a).filter (fun k => !Dict.has b k) = []) ↔
      ∀ p, p ∈ Dict.keys a → p ∈ Dict.keys b := by
    intro a b
    simp only [List.filter_eq_nil_iff, Bool.not_eq_true', Bool.not_eq_false]
    exact ⟨fun h p hp => (Dict.has_iff _ _).mp (h p hp), fun h p hp => (Dict.has_iff _ _).mpr (h p hp)⟩
  dsimp only
  rw [clean_ite]
  simp only [ne_eq, ← not_and_or, not_not, hf, clean_unit_bind, clean_ite, clean_err, clean_ret, clean_forM_unit, and_false, or_false, false_or,
    and_true, false_and, true_and]
  constructor
  · rintro (⟨h, h1, h2⟩ | ⟨h, h1⟩)
    · exact absurd ⟨h1, h2⟩ h
    · refine ⟨fun p => ⟨h.1 p, h.2 p⟩, ?_⟩
      intro p cs hm
      obtain ⟨cs', hcs'⟩ := Dict.exists_of_mem_keys (h.1 p (Dict.mem_keys_of_mem hm))
      have := h1 (p, cs) hm
      rw [hcs'] at this
      exact ⟨cs', (Dict.mem_iff_get? hk).mpr hcs', by simpa using this⟩
  · rintro ⟨h1, h2⟩
    refine Or.inr ⟨⟨fun p => (h1 p).mp, fun p => (h1 p).mpr⟩, ?_⟩
    rintro ⟨p, cs⟩ hm
    obtain ⟨cs', hcs', hall⟩ := h2 p cs hm
    rw [(Dict.mem_iff_get? hk).mp hcs']
    simpa using hall

theorem clean_compareStates {self prior : Json} {v : Str} {s p : List (Str × List Str)}
    (hs : stateBlock self v = .ok (ofDigestMap s)) (hp : stateBlock prior v = .ok (ofDigestMap p)) {u : Unit} :
    Clean (compareStates self prior v) u ↔ ∀ d, d ∈ p.map Prod.fst ↔ d ∈ s.map Prod.fst := by
  unfold compareStates
  simp only [hs, hp, ofDigestMap_eq, clean_bind', clean_lift, Except.ok.injEq]
  have hke : ∀ m : List (Str × List Str), Dict.keys (encMap m) = m.map Prod.fst := by
    intro m; simp [Dict.keys, encMap]
  have hhas : ∀ (m : List (Str × List Str)) d, Dict.has (encMap m) d = true ↔ d ∈ m.map Prod.fst := by
    intro m d; rw [Dict.has_iff, hke]
  constructor
  · rintro ⟨_, rfl, _, rfl, h⟩
    simp only [clean_forM_unit, clean_ite, clean_err, clean_ret, and_false, false_or, and_true, Bool.not_eq_true', Bool.not_eq_false,
      hhas, hke, List.mem_append] at h
    intro d
    exact ⟨fun hd => (h d (Or.inr hd)).2, fun hd => (h d (Or.inl hd)).1⟩
  · intro h
    refine ⟨_, rfl, _, rfl, ?_⟩
    simp only [clean_forM_unit, clean_ite, clean_err, clean_ret, and_false, false_or, and_true, Bool.not_eq_true', Bool.not_eq_false,
      hhas, hke, List.mem_append]
    rintro d (hd | hd)
    · exact ⟨(h d).mpr hd, hd⟩
    · exact ⟨hd, (h d).mp hd⟩

theorem logicalPathMap_eq {j : Json} {v : Str} {m st : List (Str × List Str)} (hm : j.pyIndex c!"manifest" = .ok (ofDigestMap m))
    (hst : stateBlock j v = .ok (ofDigestMap st)) (h : ∀ e ∈ st, ∃ cs, Dict.get? m e.1 = some cs) (hu : PathsUnique st) :
    logicalPathMap j v = .ok (pathMap m st) := by
  unfold logicalPathMap
  rw [hm, hst]
  show (encMap st).foldlM (addDigest (ofDigestMap m)) [] = _
  rw [foldlM_addDigest st [] h]
  rw [foldl_set_nodup _ _ (by rw [keys_pathMap]; exact hu) (by simp [Dict.keys])]
  rfl

/-- What is known about an accepted inventory. -/
structure Acc (j : Json) (res : Result) (m : List (Str × List Str)) (vs : List (Str × Json))
    (states : Str → List (Str × List Str)) : Prop where
  view : View j m vs states
  names : ∀ v, v ∈ res.allVersions ↔ v ∈ vs.map Prod.fst
  alg : Member j c!"digestAlgorithm" res.digestAlgorithm
  manifest : j.pyIndex c!"manifest" = .ok (ofDigestMap m)
  nk : Dict.NK m
  block : ∀ v ∈ vs.map Prod.fst, ∃ b, ((j.pyIndex c!"versions").bind (Json.pyIndex v)) = .ok (.obj b)
  state : ∀ v ∈ vs.map Prod.fst, stateBlock j v = .ok (ofDigestMap (states v))
  digests : ∀ v ∈ vs.map Prod.fst, ∀ e ∈ states v, ∃ cs, Dict.get? m e.1 = some cs
  unique : ∀ v ∈ vs.map Prod.fst, PathsUnique (states v)

theorem view_of_rules {lax : Bool} {force : Option Str} {j alg : Json} {cd : Str} {m : List (Str × List Str)}
    {vs : List (Str × Json)} {states : Str → List (Str × List Str)} {style : Option Nat} {n : Nat}
    (h : RulesWith lax force j alg cd m vs states style n) : View j m vs states :=
  ⟨h.manifest, h.versions, fun v b hb => (h.versionRules v b hb).state⟩

theorem nk_of_manifest {d : List (Str × Json)} {m : List (Str × List Str)} (hwf : (Json.obj d).WF)
    (h : Dict.get? d c!"manifest" = some (ofDigestMap m)) : Dict.NK m := by
  obtain ⟨_, hw⟩ := wf_obj hwf
  have := (wf_obj (hw _ _ h)).1
  rw [Dict.NK] at this ⊢
  simpa [encMap, Function.comp_def, Dict.keys] using this

theorem acc_of_accepted {isWord : Char → Bool} {lax : Bool} {ds : Str} {force : Option Str} {j : Json} (hwf : j.WF)
    {res : Result} {es : List Entry} (h : validate isWord lax ds force j = .ok (res, true, es)) :
    ∃ m vs states, Acc j res m vs states := by
  have hc : Clean (validateBody isWord lax ds force j) (res, true) := by
    unfold validate at h
    split at h
    · cases h
    · rename_i res' es' hb
      simp only [Except.ok.injEq, Prod.mk.injEq, decide_eq_true_eq] at h
      obtain ⟨rfl, h2, _⟩ := h
      exact ⟨es', hb, h2⟩
    · simp at h
  have hobj : ∃ d, j = .obj d := by
    unfold validateBody at hc
    rw [clean_bind'] at hc
    obtain ⟨a, h1, _⟩ := hc
    exact checkId_obj h1
  obtain ⟨d, rfl⟩ := hobj
  obtain ⟨idv, t, spec, alg, cd, m, vs, states, style, n, hr, _, _, _, _, rfl⟩ := (body_iff hwf).mp hc
  obtain ⟨hk, hw⟩ := wf_obj hwf
  have hmg := (member_iff hk).mp hr.manifest
  have hvg := (member_iff hk).mp hr.versions
  have hnk := nk_of_manifest hwf hmg
  obtain ⟨hvk, hvw⟩ := wf_obj (hw _ _ hvg)
  have hb : ∀ v ∈ vs.map Prod.fst, ∃ b, Dict.get? vs v = some (.obj b) ∧ Dict.get? b c!"state" = some (ofDigestMap (states v)) ∧
      (v, .obj b) ∈ vs := by
    intro v hv
    obtain ⟨⟨v', bj⟩, hmem, rfl⟩ := List.mem_map.mp hv
    obtain ⟨b, hbj, hst⟩ := (hr.versionRules _ _ hmem).state
    have hbj : bj = .obj b := hbj
    subst hbj
    have hg := (Dict.mem_iff_get? hvk).mp hmem
    exact ⟨b, hg, (Dict.mem_iff_get? (wf_obj (hvw _ _ hg)).1).mp hst, hmem⟩
  refine ⟨m, vs, states, view_of_rules hr, ?_, hr.digestAlgorithm.1, ?_, hnk, ?_, ?_, ?_, ?_⟩
  · intro v
    rw [hr.names.2.2.2 v]
    show v ∈ namesFrom style 1 n ↔ _
    rw [mem_namesFrom]
    constructor
    · rintro ⟨i, h1, h2, rfl⟩; exact ⟨i, h1, by omega, rfl⟩
    · rintro ⟨i, h1, h2, rfl⟩; exact ⟨i, h1, by omega, rfl⟩
  · rw [pyIndex_obj, hmg]
  · intro v hv
    obtain ⟨b, h1, h2, _⟩ := hb v hv
    refine ⟨b, ?_⟩
    rw [pyIndex_obj, hvg]
    show Json.pyIndex v (.obj vs) = _
    rw [pyIndex_obj, h1]
  · intro v hv
    obtain ⟨b, h1, h2, _⟩ := hb v hv
    unfold stateBlock
    rw [pyIndex_obj, hvg]
    show (Json.pyIndex v (.obj vs)).bind _ = _
    rw [pyIndex_obj, h1]
    show Json.pyIndex _ (.obj b) = _
    rw [pyIndex_obj, h2]
  · intro v hv e he
    obtain ⟨b, h1, h2, hmem⟩ := hb v hv
    obtain ⟨ps, _, hps⟩ := (hr.versionRules _ _ hmem).digests e he
    exact ⟨ps, (Dict.mem_iff_get? hnk).mp hps⟩
  · intro v hv
    obtain ⟨b, h1, h2, hmem⟩ := hb v hv
    exact (hr.versionRules _ _ hmem).unique

theorem nk_pathMap {m st : List (Str × List Str)} (h : PathsUnique st) : Dict.NK (pathMap m st) := by
  unfold Dict.NK
  show ((pathMap m st).map Prod.fst).Nodup
  rw [keys_pathMap]
  exact h

theorem resolves_iff {m st : List (Str × List Str)} (hk : Dict.NK m) {p c : Str} :
    Resolves m st p c ↔ ∃ cs, (p, cs) ∈ pathMap m st ∧ c ∈ cs := by
  unfold Resolves
  constructor
  · rintro ⟨d, h1, cs, h2, h3⟩
    refine ⟨_, mem_pathMap.mpr ⟨d, h1, rfl⟩, ?_⟩
    rw [contentOf, (Dict.mem_iff_get? hk).mp h2]
    exact h3
  · rintro ⟨cs, h1, h2⟩
    obtain ⟨d, h3, rfl⟩ := mem_pathMap.mp h1
    refine ⟨d, h3, ?_⟩
    unfold contentOf at h2
    cases hg : Dict.get? m d with
    | none => simp [hg] at h2
    | some cs => exact ⟨cs, (Dict.mem_iff_get? hk).mpr hg, by simpa [hg] using h2⟩

theorem clean_compareMetadata {same : Option Json → Option Json → Bool} {self prior : Json} {v : Str} {b b' : List (Str × Json)}
    (h : ((prior.pyIndex c!"versions").bind (Json.pyIndex v)) = .ok (.obj b))
    (h' : ((self.pyIndex c!"versions").bind (Json.pyIndex v)) = .ok (.obj b')) :
    Clean (compareMetadata same self prior v) () := by
  unfold compareMetadata
  simp only [h, h', clean_bind', clean_lift, Except.ok.injEq]
  refine ⟨_, rfl, _, rfl, ?_⟩
  simp only [clean_forM_unit, clean_ite, clean_warn, clean_ret]
  intro k _
  cases same (Dict.get? b k) (Dict.get? b' k) <;> simp

/-- One version is compared as the specification says. -/
theorem clean_priorStep {same : Option Json → Option Json → Bool} {self prior : Json} {r r' : Result}
    {m m' : List (Str × List Str)} {vs vs' : List (Str × Json)} {states states' : Str → List (Str × List Str)}
    (ha : Acc prior r m vs states) (ha' : Acc self r' m' vs' states') {v : Str} (hv : v ∈ vs.map Prod.fst)
    (hv' : v ∈ vs'.map Prod.fst) {u : Unit} :
    Clean (priorStep same (self, r') (prior, r) v) u ↔
      (∀ p, p ∈ listed (states v) ↔ p ∈ listed (states' v)) ∧
      (∀ p c, Resolves m (states v) p c → Resolves m' (states' v) p c) ∧
      (same (some r.digestAlgorithm) (some r'.digestAlgorithm) = true →
        ∀ d, d ∈ (states v).map Prod.fst ↔ d ∈ (states' v).map Prod.fst) := by
  have hmap := logicalPathMap_eq ha.manifest (ha.state v hv) (ha.digests v hv) (ha.unique v hv)
  have hmap' := logicalPathMap_eq ha'.manifest (ha'.state v hv') (ha'.digests v hv') (ha'.unique v hv')
  obtain ⟨b, hb⟩ := ha.block v hv
  obtain ⟨b', hb'⟩ := ha'.block v hv'
  have hn' := nk_pathMap (m := m') (ha'.unique v hv')
  have hmaps : (∀ u : Unit, Clean (compareMaps (pathMap m (states v)) (pathMap m' (states' v))) u ↔
      (∀ p, p ∈ listed (states v) ↔ p ∈ listed (states' v)) ∧
      (∀ p c, Resolves m (states v) p c → Resolves m' (states' v) p c)) := by
    intro u
    rw [clean_compareMaps hn']
    have hk1 : Dict.keys (pathMap m (states v)) = listed (states v) := keys_pathMap _ _
    have hk2 : Dict.keys (pathMap m' (states' v)) = listed (states' v) := keys_pathMap _ _
    rw [hk1, hk2]
    refine and_congr_right fun hpaths => ?_
    constructor
    · intro h p c hr
      obtain ⟨cs, h1, h2⟩ := (resolves_iff ha.nk).mp hr
      obtain ⟨cs', h3, h4⟩ := h p cs h1
      exact (resolves_iff ha'.nk).mpr ⟨cs', h3, h4 c h2⟩
    · intro h p cs hp
      have hpl : p ∈ listed (states' v) := by
        rw [← hpaths, ← hk1]; exact Dict.mem_keys_of_mem hp
      rw [← hk2] at hpl
      obtain ⟨cs', hcs'⟩ := Dict.exists_of_mem_keys hpl
      refine ⟨cs', (Dict.mem_iff_get? hn').mpr hcs', ?_⟩
      intro c hc
      obtain ⟨cs2, h3, h4⟩ := (resolves_iff ha'.nk).mp (h p c ((resolves_iff ha.nk).mpr ⟨cs, hp, hc⟩))
      rw [(Dict.mem_iff_get? hn').mp h3] at hcs'
      cases hcs'
      exact h4
  unfold priorStep
  have hc : ∀ u : Unit, Clean (compareStatesIf (same (some r.digestAlgorithm) (some r'.digestAlgorithm)) self prior v) u ↔
      (same (some r.digestAlgorithm) (some r'.digestAlgorithm) = true →
        ∀ d, d ∈ (states v).map Prod.fst ↔ d ∈ (states' v).map Prod.fst) := by
    intro u
    unfold compareStatesIf
    rw [clean_ite, clean_compareStates (ha'.state v hv') (ha.state v hv), clean_ret]
    by_cases h : same (some r.digestAlgorithm) (some r'.digestAlgorithm) = true <;> simp [h]
  have hmeta : ∀ u : Unit, Clean (compareMetadata same self prior v) u := fun _ => clean_compareMetadata hb hb'
  simp only [clean_bind', clean_lift, hmap, hmap', Except.ok.injEq, hc, exists_eq_left', hmaps, hmeta, and_true, exists_const]
  tauto

theorem view_unique {d : List (Str × Json)} (hwf : (Json.obj d).WF) {m m' : List (Str × List Str)} {vs vs' : List (Str × Json)}
    {st st' : Str → List (Str × List Str)} (h : View (.obj d) m vs st) (h' : View (.obj d) m' vs' st') :
    m = m' ∧ vs = vs' ∧ ∀ v ∈ vs.map Prod.fst, st v = st' v := by
  obtain ⟨hk, hw⟩ := wf_obj hwf
  have h1 := (member_iff hk).mp h.manifest
  have h1' := (member_iff hk).mp h'.manifest
  have h2 := (member_iff hk).mp h.versions
  have h2' := (member_iff hk).mp h'.versions
  rw [h1] at h1'
  have hm := ofDigestMap_inj (Option.some.inj h1')
  rw [h2] at h2'
  have hv : vs = vs' := by injection h2' with h; injection h
  refine ⟨hm, hv, ?_⟩
  subst hv
  intro v hv
  obtain ⟨⟨v', b⟩, hmem, rfl⟩ := List.mem_map.mp hv
  have s1 := h.state _ _ hmem
  have s2 := h'.state _ _ hmem
  obtain ⟨hvk, hvw⟩ := wf_obj (hw _ _ h2)
  obtain ⟨bd, rfl, _⟩ := id s1
  have hbk := (wf_obj (hvw _ _ ((Dict.mem_iff_get? hvk).mp hmem))).1
  rw [member_iff hbk] at s1 s2
  rw [s1] at s2
  exact ofDigestMap_inj (Option.some.inj s2)

theorem continues_of {same : Option Json → Option Json → Bool}
    (hsame : ∀ a b : Str, same (some (.str a)) (some (.str b)) = true ↔ a = b) {self prior : Json} {r r' : Result}
    (hwf : prior.WF) (hwf' : self.WF) {a a' : Str} (halg : r.digestAlgorithm = .str a) (halg' : r'.digestAlgorithm = .str a')
    {m m' : List (Str × List Str)} {vs vs' : List (Str × Json)} {states states' : Str → List (Str × List Str)}
    (ha : Acc prior r m vs states) (ha' : Acc self r' m' vs' states') :
    (∃ es, validateAsPriorVersion same (self, r') (prior, r) = .ok (true, es)) ↔ Continues self prior := by
  have hok : (∃ es, validateAsPriorVersion same (self, r') (prior, r) = .ok (true, es)) ↔
      Clean (priorBody same (self, r') (prior, r)) () := by
    unfold validateAsPriorVersion
    constructor
    · rintro ⟨es, h⟩
      split at h
      · cases h
      · rename_i u es' hb
        simp only [Except.ok.injEq, Prod.mk.injEq, decide_eq_true_eq] at h
        exact ⟨es', hb, h.1⟩
    · rintro ⟨es, hb, he⟩
      exact ⟨es, by rw [hb]; simp [he]⟩
  rw [hok]
  unfold priorBody
  have hstrict : (r.allVersions.all (fun v => v ∈ r'.allVersions) && r'.allVersions.any (fun v => v ∉ r.allVersions)) = true ↔
      (∀ v ∈ vs.map Prod.fst, v ∈ vs'.map Prod.fst) ∧ (∃ v ∈ vs'.map Prod.fst, v ∉ vs.map Prod.fst) := by
    simp only [Bool.and_eq_true, List.all_eq_true, List.any_eq_true, decide_eq_true_eq, ha.names, ha'.names]
  dsimp only
  rw [clean_ite]
  simp only [clean_err, and_false, false_or, Bool.not_eq_true', Bool.not_eq_false, hstrict, clean_forM_unit]
  have hsub : ∀ v, v ∈ r.allVersions ↔ v ∈ vs.map Prod.fst := ha.names
  simp only [hsub]
  have hd : Member prior c!"digestAlgorithm" (.str a) := halg ▸ ha.alg
  have hd' : Member self c!"digestAlgorithm" (.str a') := halg' ▸ ha'.alg
  obtain ⟨d, rfl⟩ : ∃ d, prior = .obj d := ⟨hd.choose, hd.choose_spec.1⟩
  obtain ⟨d', rfl⟩ : ∃ d', self = .obj d' := ⟨hd'.choose, hd'.choose_spec.1⟩
  have hk := (wf_obj hwf).1
  have hk' := (wf_obj hwf').1
  rw [member_iff hk] at hd
  rw [member_iff hk'] at hd'
  have hsa : same (some r.digestAlgorithm) (some r'.digestAlgorithm) = true ↔ a = a' := by
    rw [halg, halg', hsame]
  constructor
  · rintro ⟨⟨h1, h2⟩, h3⟩
    refine ⟨m, vs, states, m', vs', states', ha.view, ha'.view, h1, h2, ?_⟩
    intro v hv
    obtain ⟨h4, h5, h6⟩ := (clean_priorStep ha ha' hv (h1 v hv)).mp (h3 v hv)
    refine ⟨h4, h5, ?_⟩
    intro b hb hb'
    rw [member_iff hk, hd] at hb
    rw [member_iff hk', hd'] at hb'
    cases hb; cases hb'
    exact h6 (hsa.mpr rfl)
  · rintro ⟨m₁, vs₁, st₁, m₂, vs₂, st₂, v1, v2, h1, h2, h3⟩
    obtain ⟨rfl, rfl, e1⟩ := view_unique hwf ha.view v1
    obtain ⟨rfl, rfl, e2⟩ := view_unique hwf' ha'.view v2
    refine ⟨⟨h1, h2⟩, ?_⟩
    intro v hv
    refine (clean_priorStep ha ha' hv (h1 v hv)).mpr ?_
    obtain ⟨h4, h5, h6⟩ := h3 v hv
    rw [e1 v hv, e2 v (h1 v hv)]
    refine ⟨h4, h5, fun he => ?_⟩
    have := hsa.mp he
    subst this
    exact h6 a ((member_iff hk).mpr hd) ((member_iff hk').mpr hd')

/-- The comparison of two accepted inventories does not raise. -/
theorem prior_noRaise {same : Option Json → Option Json → Bool} {self prior : Json} {r r' : Result}
    {m m' : List (Str × List Str)} {vs vs' : List (Str × Json)} {states states' : Str → List (Str × List Str)}
    (ha : Acc prior r m vs states) (ha' : Acc self r' m' vs' states') :
    ∃ x, validateAsPriorVersion same (self, r') (prior, r) = .ok x := by
  have hb : NoRaise (priorBody same (self, r') (prior, r)) := by
    unfold priorBody
    dsimp only
    refine noRaise_ite (fun _ => noRaise_err) (fun hs => noRaise_forM (fun v hv _ => ?_) _)
    have hs : (r.allVersions.all (fun v => v ∈ r'.allVersions) && r'.allVersions.any (fun v => v ∉ r.allVersions)) = true := by
      simpa using hs
    simp only [Bool.and_eq_true, List.all_eq_true, decide_eq_true_eq] at hs
    have hv' := (ha'.names v).mp (hs.1 v hv)
    have hv := (ha.names v).mp hv
    have hmap := logicalPathMap_eq ha.manifest (ha.state v hv) (ha.digests v hv) (ha.unique v hv)
    have hmap' := logicalPathMap_eq ha'.manifest (ha'.state v hv') (ha'.digests v hv') (ha'.unique v hv')
    obtain ⟨b, hb⟩ := ha.block v hv
    obtain ⟨b', hb'⟩ := ha'.block v hv'
    unfold priorStep
    refine noRaise_bind' ?_ fun _ => noRaise_bind' (noRaise_lift hmap) fun _ => noRaise_bind' (noRaise_lift hmap') fun _ =>
      noRaise_bind' ?_ fun _ => ?_
    · unfold compareStatesIf
      refine noRaise_ite (fun _ => ?_) (fun _ => noRaise_ret)
      unfold compareStates
      refine noRaise_bind (noRaise_lift (ha'.state v hv')) fun x es hx => ?_
      cases (lift_done hx).symm.trans (ha'.state v hv')
      refine noRaise_bind (noRaise_lift (ha.state v hv)) fun x es hx => ?_
      cases (lift_done hx).symm.trans (ha.state v hv)
      exact noRaise_forM (fun _ _ _ => noRaise_ite (fun _ => noRaise_err) (fun _ => noRaise_ite (fun _ => noRaise_err) (fun _ => noRaise_ret))) _
    · unfold compareMaps
      dsimp only
      refine noRaise_ite (fun _ => ?_) (fun _ => noRaise_forM (fun _ _ _ => noRaise_ite (fun _ => noRaise_ret) (fun _ => noRaise_err)) _)
      exact noRaise_ite (fun _ => noRaise_bind' noRaise_err fun _ => noRaise_ite (fun _ => noRaise_err) (fun _ => noRaise_ret))
        (fun _ => noRaise_bind' noRaise_ret fun _ => noRaise_ite (fun _ => noRaise_err) (fun _ => noRaise_ret))
    · obtain ⟨es, h, _⟩ := clean_compareMetadata (same := same) hb hb'
      exact ⟨_, _, h⟩
  obtain ⟨u, es, hb⟩ := hb
  unfold validateAsPriorVersion
  rw [hb]
  exact ⟨_, rfl⟩

end Ocfl
