import Verif.Proofs.ValidatorRoot
import Verif.Proofs.StartVersion
import Verif.Proofs.ExtractTop
import Verif.Proofs.KeepStep
import Verif.Props.Small

/-!
# Object validation: the inventories of the versions
-/

namespace Ocfl

open Spec FS

theorem styleName_newline (style : Option Nat) (n : Nat) : '\n' ∉ styleName style n := by
  obtain ⟨ds, h, _, hd⟩ := vform_styleName style n
  rw [h]
  intro hm
  rcases List.mem_cons.mp hm with hm | hm
  · cases hm
  · have := hd _ hm
    revert this; decide

theorem mapM_ok {α β : Type} {f : α → Py β} {g : α → β} : ∀ {l : List α}, (∀ x ∈ l, f x = .ok (g x)) → l.mapM f = .ok (l.map g)
  | [], _ => rfl
  | x :: l, h => by
    rw [List.mapM_cons, h x (by simp), mapM_ok (fun y hy => h y (by simp [hy]))]
    rfl

/-- The keys of a JSON object that is a map of digests. -/
theorem nk_of_wf {m : List (Str × List Str)} (hwf : (ofDigestMap m).WF) : Dict.NK m := by
  have := (wf_obj hwf).1
  rw [Dict.NK] at this ⊢
  simpa [Function.comp_def, Dict.keys] using this

theorem lists_listed {m : List (Str × List Str)} {d p : Str} (h : Lists m d p) : p ∈ listed m := by
  obtain ⟨ps, h1, h2⟩ := h
  exact List.mem_flatMap.mpr ⟨(d, ps), h1, h2⟩

theorem listed_lists {m : List (Str × List Str)} {p : Str} (h : p ∈ listed m) : ∃ d, Lists m d p := by
  obtain ⟨⟨d, ps⟩, h1, h2⟩ := List.mem_flatMap.mp h
  exact ⟨d, ps, h1, h2⟩

namespace Validator

open W (Pass pass_ret pass_after pass_bind pass_unit_bind pass_err pass_warn pass_errUnless pass_py pass_log pass_ite
  pass_raised pass_abort pass_forEach pass_forM_nil pass_forM_cons)

theorem iterStrs_arr (ps : List Str) : iterStrs (.arr (ps.map .str)) = .ok ps := by
  unfold iterStrs
  dsimp only
  rw [List.mapM_map, mapM_ok (g := id) (by intro x _; rfl), List.map_id]

theorem iterBlock_map {m : List (Str × List Str)} (hk : Dict.NK m) : iterBlock (ofDigestMap m) = .ok m := by
  have h1 : iterStrs (ofDigestMap m) = .ok (Dict.keys m) := by
    show Except.ok _ = _
    simp [Dict.keys, Function.comp_def]
  unfold iterBlock
  rw [h1]
  show (Dict.keys m).mapM _ = _
  have h2 : ∀ k ∈ Dict.keys m, (do
      let v ← (ofDigestMap m).pyIndex k
      let files ← iterStrs v
      return (k, files) : Py (Str × List Str)) = .ok (k, (Dict.get? m k).getD []) := by
    intro k hkm
    obtain ⟨ps, hps⟩ := Dict.exists_of_mem_keys hkm
    have hg := hps
    have : (ofDigestMap m).pyIndex k = .ok (.arr (ps.map .str)) := by
      show (match Dict.get? (encMap m) k with | some v => Except.ok v | none => Except.error PyErr.keyError) = _
      rw [get?_encMap, hg]
      rfl
    rw [this]
    show (do let files ← iterStrs (.arr (ps.map .str)); return (k, files) : Py (Str × List Str)) = _
    rw [iterStrs_arr, hg]
    rfl
  rw [mapM_ok h2]
  congr 1
  show (m.map Prod.fst).map _ = m
  rw [List.map_map]
  conv_rhs => rw [← List.map_id m]
  refine List.map_congr_left ?_
  rintro ⟨k, ps⟩ hm
  show (k, (Dict.get? m k).getD []) = (k, ps)
  rw [Dict.get?_of_mem hk hm]
  rfl

theorem mem_recordBlock {alg : Str} {m : List (Str × List Str)} {x : Str × Str × Str} :
    x ∈ recordBlock alg m ↔ x.2.1 = alg ∧ ∃ d, Lists m d x.1 ∧ x.2.2 = normalizedDigest d alg := by
  unfold recordBlock
  simp only [List.mem_flatMap, List.mem_map]
  constructor
  · rintro ⟨⟨d, ps⟩, hm, p, hp, rfl⟩
    exact ⟨rfl, d, ⟨ps, hm, hp⟩, rfl⟩
  · rintro ⟨h1, d, ⟨ps, hm, hp⟩, h2⟩
    refine ⟨(d, ps), hm, x.1, hp, ?_⟩
    obtain ⟨a, b, c⟩ := x
    simp only at h1 h2 ⊢
    rw [h1, h2]

theorem pass_recordManifest {j : Json} (hwf : j.WF) {m : List (Str × List Str)} (hm : Member j c!"manifest" (ofDigestMap m))
    {alg : Str} {prior r : Recorded} :
    Pass (recordManifest j alg prior) r ↔ (∀ x ∈ prior, x.1 ∈ listed m) ∧ r = prior ++ recordBlock alg m := by
  obtain ⟨d, rfl, hmem⟩ := hm
  obtain ⟨hk, hw⟩ := wf_obj hwf
  have hg := Dict.get?_of_mem hk hmem
  have hnk : Dict.NK m := nk_of_wf (hw _ _ hg)
  unfold recordManifest
  simp only [pass_bind, pass_py, pyIn_obj, has_of_get hg, pyIndex_obj, hg, Except.ok.injEq, exists_eq_left', Bool.true_eq_false,
    if_false, iterBlock_map hnk, pass_errUnless, pass_ret, List.all_eq_true, List.any_eq_true, decide_eq_true_eq]
  constructor
  · rintro ⟨_, h1, h2⟩
    refine ⟨fun x hx => ?_, h2⟩
    obtain ⟨e, he, hp⟩ := h1 x hx
    exact List.mem_flatMap.mpr ⟨e, he, hp⟩
  · rintro ⟨h1, h2⟩
    refine ⟨(), fun x hx => ?_, h2⟩
    exact List.mem_flatMap.mp (h1 x hx)

/-- The blocks of a fixity block of the right shape. -/
theorem iterFixity_maps {fx : Json} (hwf : fx.WF) (hobj : ∃ d, fx = .obj d)
    (hmaps : ∀ a b, Member fx a b → ∃ m, b = ofDigestMap m) :
    ∃ blocks : List (Str × List (Str × List Str)), iterFixity fx = .ok blocks ∧
      ∀ a m, (a, m) ∈ blocks ↔ Member fx a (ofDigestMap m) := by
  classical
  obtain ⟨d, rfl⟩ := hobj
  obtain ⟨hk, hw⟩ := wf_obj hwf
  have hblock : ∀ a ∈ Dict.keys d, ∃ m, Dict.get? d a = some (ofDigestMap m) ∧ Dict.NK m := by
    intro a ha
    obtain ⟨b, hb⟩ := Dict.exists_of_mem_keys ha
    obtain ⟨m, rfl⟩ := hmaps a b ⟨d, rfl, Dict.mem_of_get? hb⟩
    have hg := hb
    exact ⟨m, hg, nk_of_wf (hw _ _ hg)⟩
  have hfun : ∃ f : Str → List (Str × List Str), ∀ a ∈ Dict.keys d, Dict.get? d a = some (ofDigestMap (f a)) ∧ Dict.NK (f a) := by
    refine ⟨fun a => if h : ∃ m, Dict.get? d a = some (ofDigestMap m) ∧ Dict.NK m then h.choose else [], fun a ha => ?_⟩
    have h := hblock a ha
    simp only [dif_pos h]
    exact h.choose_spec
  obtain ⟨f, hf⟩ := hfun
  have hstep : ∀ a ∈ Dict.keys d, ((Json.obj d).pyIndex a >>= fun v => iterBlock v >>= fun b => pure (a, b) :
      Py (Str × List (Str × List Str))) = .ok (a, f a) := by
    intro a ha
    rw [pyIndex_obj, (hf a ha).1]
    show (iterBlock (ofDigestMap (f a)) >>= fun b => pure (a, b) : Py (Str × List (Str × List Str))) = _
    rw [iterBlock_map (hf a ha).2]
    rfl
  refine ⟨(Dict.keys d).map (fun a => (a, f a)), mapM_ok hstep, fun a m => ?_⟩
  rw [List.mem_map, member_iff hk]
  constructor
  · rintro ⟨a', ha', he⟩
    obtain ⟨rfl, rfl⟩ := Prod.mk.inj he
    exact (hf _ ha').1
  · intro hg
    have ha := Dict.mem_keys_of_get? hg
    refine ⟨a, ha, ?_⟩
    have := (hf a ha).1
    rw [hg] at this
    rw [ofDigestMap_inj (Option.some.inj this)]

/-- The blocks of a fixity block that obeys the rules. -/
theorem iterFixity_ok {fx : Json} (hwf : fx.WF) {lax : Bool} {paths : List Str} (hr : FixityRules lax paths fx) :
    ∃ blocks : List (Str × List (Str × List Str)), iterFixity fx = .ok blocks ∧
      ∀ a m, (a, m) ∈ blocks ↔ Member fx a (ofDigestMap m) :=
  iterFixity_maps hwf hr.isObj (fun a b h => let ⟨_, m, e, _⟩ := hr.block a b h; ⟨m, e⟩)

/-- The digests that a fixity block gives. -/
def fixityRecords (j : Json) : Recorded :=
  match j.pyIndex c!"fixity" with
  | .error _ => []
  | .ok fx =>
    match iterFixity fx with
    | .error _ => []
    | .ok blocks => blocks.flatMap (fun b => recordBlock b.1 b.2)

theorem pass_recordFixity {j : Json} (hwf : j.WF) {alg : Json} {cd : Str} {m : List (Str × List Str)} {vs : List (Str × Json)}
    {states : Str → List (Str × List Str)} {style : Option Nat} {n : Nat} (h : RulesWith false none j alg cd m vs states style n)
    {prior r : Recorded} :
    Pass (recordFixity j prior) r ↔ r = prior ++ fixityRecords j := by
  obtain ⟨d, rfl, _⟩ := h.manifest
  obtain ⟨hk, hw⟩ := wf_obj hwf
  unfold recordFixity fixityRecords
  simp only [pass_bind, pass_py, pyIn_obj, Except.ok.injEq, exists_eq_left', Dict.has, pyIndex_obj]
  cases hg : Dict.get? d c!"fixity" with
  | none => simp [pass_ret]
  | some fx =>
    obtain ⟨blocks, hb, _⟩ := iterFixity_ok (hw _ _ hg) (h.fixity fx ((member_iff hk).mpr hg))
    simp only [Option.isSome_some, Bool.true_eq_false, if_false, pass_bind, pass_py, Except.ok.injEq, exists_eq_left', hb, pass_ret]

theorem mem_fixityRecords {j : Json} (hwf : j.WF) {alg : Json} {cd : Str} {m : List (Str × List Str)} {vs : List (Str × Json)}
    {states : Str → List (Str × List Str)} {style : Option Nat} {n : Nat} (h : RulesWith false none j alg cd m vs states style n)
    {x : Str × Str × Str} :
    x ∈ fixityRecords j ↔ ∃ d, FixityLists j x.2.1 d x.1 ∧ x.2.2 = normalizedDigest d x.2.1 := by
  obtain ⟨o, rfl, _⟩ := h.manifest
  obtain ⟨hk, hw⟩ := wf_obj hwf
  unfold fixityRecords FixityLists
  rw [pyIndex_obj]
  cases hg : Dict.get? o c!"fixity" with
  | none =>
    simp only [List.not_mem_nil, false_iff]
    rintro ⟨d, ⟨fx, fm, h1, _⟩, _⟩
    rw [member_iff hk, hg] at h1
    cases h1
  | some fx =>
    obtain ⟨blocks, hb, hbm⟩ := iterFixity_ok (hw _ _ hg) (h.fixity fx ((member_iff hk).mpr hg))
    simp only [hb, List.mem_flatMap, mem_recordBlock]
    constructor
    · rintro ⟨⟨a, fm⟩, hm, rfl, d, h1, h2⟩
      exact ⟨d, ⟨fx, fm, (member_iff hk).mpr hg, (hbm _ _).mp hm, h1⟩, h2⟩
    · rintro ⟨d, ⟨fx', fm, h1, h2, h3⟩, h4⟩
      rw [member_iff hk, hg] at h1
      cases h1
      exact ⟨(x.2.1, fm), (hbm _ _).mpr h2, rfl, d, h3, h4⟩

/-! ## One earlier version -/

/-- An inventory of an earlier version that obeys the rules, and what it says. -/
structure PriorGood (E : Env) (check : Bool) (s : FS) (base : Path) (j : Json) (cd v : Str) (j' : Json) (a : Str)
    (m' : List (Str × List Str)) (sp : Str) : Prop where
  stored : StoredJson E.lib s (base ++ [v, c!"inventory.json"]) j'
  prior : PriorRules E check s (base ++ [v]) j cd j'
  alg : InventoryAlg j' a
  manifest : Member j' c!"manifest" (ofDigestMap m')
  spec : InventorySpec j' sp

theorem acc_of_clean {isWord : Char → Bool} {lax : Bool} {ds : Str} {force : Option Str} {j : Json} (hwf : j.WF)
    {res : IV.Result} (h : Clean (IV.validateBody isWord lax ds force j) (res, true)) :
    ∃ m vs states, Acc j res m vs states := by
  obtain ⟨es, hb, h0⟩ := h
  refine acc_of_accepted (isWord := isWord) (lax := lax) (ds := ds) (force := force) (es := es) hwf ?_
  unfold IV.validate
  rw [hb]
  simp [h0]

theorem prior_verdict {same : Option Json → Option Json → Bool} {self prior : Json × IV.Result} :
    (∃ pv, IV.validateAsPriorVersion same self prior = .ok pv ∧ IV.numErrors pv.2 = 0) ↔
      ∃ es, IV.validateAsPriorVersion same self prior = .ok (true, es) := by
  unfold IV.validateAsPriorVersion
  split
  · simp
  · rename_i u es h
    constructor
    · rintro ⟨pv, h1, h2⟩
      cases h1
      exact ⟨es, by simpa using h2⟩
    · rintro ⟨es', h1⟩
      refine ⟨_, rfl, ?_⟩
      have := (Prod.mk.inj (Except.ok.inj h1)).1
      simpa using this

theorem member_str_unique {j : Json} (hwf : j.WF) {k : Str} {a b : Json} (h : Member j k a) (h' : Member j k b) : a = b := by
  obtain ⟨d, rfl, hm⟩ := h
  obtain ⟨hk, _⟩ := wf_obj hwf
  have h1 := (member_iff hk).mp ⟨d, rfl, hm⟩
  have h2 := (member_iff hk).mp h'
  rw [h1] at h2
  exact Option.some.inj h2

theorem inventorySpec_unique {j : Json} (hwf : j.WF) {a b : Str} (h : InventorySpec j a) (h' : InventorySpec j b) : a = b := by
  obtain ⟨_, c, rest, _, d, rfl, hm⟩ := h
  obtain ⟨hk, _⟩ := wf_obj hwf
  have hg := Dict.get?_of_mem hk hm
  have h1 := ((inventorySpec_iff hk hg).mp ⟨by assumption, c, rest, by assumption, d, rfl, hm⟩).2
  have h2 := ((inventorySpec_iff hk hg).mp h').2
  rw [h1] at h2
  exact Option.some.inj h2

theorem pass_checkSameId {E : Env} (hE : Libraries E) {root : Root} {j : Json} (hwf : j.WF) {i i' : Str} (hi : root.res.id = some i)
    (hne : i ≠ []) (hm : Member j c!"id" (.str i')) {u : Unit} : Pass (checkSameId E root j) u ↔ i' = i := by
  obtain ⟨d, rfl, hmem⟩ := hm
  obtain ⟨hk, _⟩ := wf_obj hwf
  have hg := Dict.get?_of_mem hk hmem
  unfold checkSameId
  rw [hi]
  cases i with
  | nil => exact absurd rfl hne
  | cons c i =>
    dsimp only
    simp only [pass_bind, pass_py, pyIn_obj, has_of_get hg, pyIndex_obj, hg, Except.ok.injEq, exists_eq_left', Bool.true_eq_false,
      if_false, pass_errUnless, hE.same]

theorem alg_of_rules {j : Json} {a : Str} {cd : Str} {m : List (Str × List Str)} {vs : List (Str × Json)}
    {states : Str → List (Str × List Str)} {style : Option Nat} {n : Nat} (h : RulesWith false none j (.str a) cd m vs states style n) :
    a = c!"sha512" ∨ a = c!"sha256" := by
  have := h.digestAlgorithm.2
  simp only [AlgRule, Bool.false_eq_true, if_false, Json.str.injEq] at this
  exact this

theorem pass_priorInventory {E : Env} (hE : Libraries E) {cfg : Config} (hlax : cfg.lax = false) {s : FS} {base : Path} {root : Root}
    (hj : root.inv.WF) {idv sp0 : Str} {cd : Option Str} {m : List (Str × List Str)} {vs : List (Str × Json)}
    {states : Str → List (Str × List Str)} {style : Option Nat} {n : Nat}
    (hs : Says root.inv root.res idv sp0 root.alg cd m vs states style n) {v : Str} (hv : SafeName v) (hnl : '\n' ∉ v) {st : VState}
    {r : Str × VState} :
    Pass (priorInventory E cfg s base root st v) r ↔
      ∃ j' a m' sp, PriorGood E cfg.checkDigests s base root.inv (cd.getD c!"content") v j' a m' sp ∧
        (∀ x ∈ st.manifests, x.1 ∈ listed m') ∧
        r = (sp, { st with
          manifests := st.manifests ++ recordBlock a m', fixity := st.fixity ++ fixityRecords j'
          digestFiles := Dict.set st.digestFiles v (c!"inventory.json." ++ a) }) := by
  have hres : FS.resolve base (osPathJoin v inventoryFilename) = base ++ [v, c!"inventory.json"] := by
    have := (VDir.version hv).resolve_in base (w := c!"inventory.json") (by decide)
    rw [List.append_assoc] at this
    exact this
  have hrid : root.res.id = some idv := by rw [hs.result]; rfl
  have hidne : idv ≠ [] := by
    obtain ⟨i, h1, h2⟩ := hs.rules.id
    have := member_str_unique hj h2 hs.id
    cases this
    exact h1
  have hcl0 : Clean (IV.validateBody E.isWord false root.spec none root.inv) (root.res, true) :=
    (clean_says hj).mpr ⟨_, _, _, _, _, _, _, _, _, hs⟩
  obtain ⟨m0, vs0, states0, hacc0⟩ := acc_of_clean hj hcl0
  have halg0 : root.res.digestAlgorithm = .str root.alg := by rw [hs.result]; rfl
  unfold priorInventory
  simp only [pass_bind, pass_py, pass_errUnless, pass_log, pass_ret]
  constructor
  · rintro ⟨⟨j', res'⟩, h1, a, h2, _, h3, _, h4, _, h5, _, h6, mans, h7, pv, h8, _, h9, fx, h10, rfl⟩
    obtain ⟨hst, hcl⟩ := (pass_validateInventory hres).mp h1
    have hwf := storedJson_wf hE.json hst
    rw [hlax] at hcl
    obtain ⟨idv', sp, a', cd', m', vs', states', style', n', hs'⟩ := (clean_says hwf).mp hcl
    have hres' := hs'.result
    have ha : a' = a := by
      rw [hres'] at h2
      simpa [resultFor, algStr] using h2
    subst ha
    rw [show inventoryFilename = c!"inventory.json" from rfl,
      pass_validateInventoryDigest hE.word hE.blank (VDir.version hv) hnl (alg_of_rules hs'.rules)] at h3
    rw [pass_checkSameId hE hwf hrid hidne hs'.id] at h4
    subst h4
    have h5' : cd' = none → cd = none := by
      rw [hres', hs.result] at h5
      simp only [resultFor, Bool.or_eq_true, Option.isSome_iff_ne_none, Bool.not_eq_true', Option.isSome_eq_false_iff] at h5
      intro hc
      rcases h5 with h | h
      · exact absurd hc h
      · simpa using h
    have h6' : cd.getD c!"content" = cd'.getD c!"content" := by
      rw [hres', hs.result] at h6
      exact of_decide_eq_true h6
    obtain ⟨h7a, rfl⟩ := (pass_recordManifest hwf hs'.rules.manifest).mp h7
    rw [pass_recordFixity hwf hs'.rules] at h10
    subst h10
    obtain ⟨m1, vs1, states1, hacc⟩ := acc_of_clean hwf hcl
    have halg : res'.digestAlgorithm = .str a' := by rw [hres']; rfl
    have hcont := (continues_of hE.same hwf hj halg halg0 hacc hacc0).mp (prior_verdict.mp ⟨pv, h8, h9⟩)
    refine ⟨j', a', m', sp, ⟨hst, ⟨⟨a', m', vs', states', style', n', ?_, h3⟩, ?_, ?_, hcont⟩, hs'.rules.digestAlgorithm.1, hs'.rules.manifest, hs'.spec⟩, h7a, ?_⟩
    · rw [h6']; exact hs'.rules
    · intro i hi
      rw [member_str_unique hj hi hs.id]
      exact hs'.id
    · rintro ⟨x, hx⟩
      rcases hs'.contentDirectory with ⟨c, _, hc⟩ | ⟨hc, _⟩
      · exact ⟨_, hc⟩
      · rcases hs.contentDirectory with ⟨c, hc', _⟩ | ⟨_, hc'⟩
        · rw [h5' hc] at hc'; cases hc'
        · exact absurd hx (hc' x)
    · have hsp : res'.specVersion = sp := by rw [hres']; rfl
      rw [hsp]
  · rintro ⟨j', a, m', sp, ⟨hst, hpr, halg', hman, hspec⟩, hm, rfl⟩
    have hwf := storedJson_wf hE.json hst
    obtain ⟨a1, m1, vs', states', style', n', hr, hsc⟩ := hpr.rules
    have : a1 = a := by
      have := member_str_unique hwf hr.digestAlgorithm.1 halg'
      exact Json.str.inj this
    subst this
    have : m1 = m' := ofDigestMap_inj (member_str_unique hwf hr.manifest hman)
    subst this
    have hid := hpr.id _ hs.id
    -- the content directory of this inventory
    obtain ⟨cd', hcd', hcdm⟩ : ∃ cd' : Option Str, cd'.getD c!"content" = cd.getD c!"content" ∧
        ((∃ c, cd' = some c ∧ Member j' c!"contentDirectory" (.str c)) ∨ (cd' = none ∧ ∀ x, ¬ Member j' c!"contentDirectory" x)) := by
      rcases hr.contentDirectory with ⟨h1, _⟩ | ⟨h1, h2⟩
      · exact ⟨some (cd.getD c!"content"), rfl, .inl ⟨_, rfl, h1⟩⟩
      · exact ⟨none, h2.symm, .inr ⟨rfl, h1⟩⟩
    have hs' : Says j' (resultFor idv sp (.str a1) cd' m1 style' n') idv sp a1 cd' m1 vs' states' style' n' :=
      ⟨by rw [hcd']; exact hr, hid, hspec, hcdm, rfl⟩
    have hcl : Clean (IV.validateBody E.isWord false root.spec none j') (resultFor idv sp (.str a1) cd' m1 style' n', true) :=
      (clean_says hwf).mpr ⟨_, _, _, _, _, _, _, _, _, hs'⟩
    obtain ⟨m2, vs2, states2, hacc⟩ := acc_of_clean hwf hcl
    obtain ⟨pv, hp1, hp2⟩ := prior_verdict.mpr ((continues_of hE.same hwf hj (a := a1) rfl halg0 hacc hacc0).mpr hpr.history)
    refine ⟨(j', _), (pass_validateInventory hres).mpr ⟨hst, by rw [hlax]; exact hcl⟩, a1, rfl, (), ?_, (), ?_, (), ?_, (), ?_,
      _, (pass_recordManifest hwf hr.manifest).mpr ⟨hm, rfl⟩, pv, hp1, (), hp2, _, (pass_recordFixity hwf hr).mpr rfl, rfl⟩
    · rw [show inventoryFilename = c!"inventory.json" from rfl]
      rw [pass_validateInventoryDigest hE.word hE.blank (VDir.version hv) hnl (alg_of_rules hr)]
      exact hsc
    · rw [pass_checkSameId hE hwf hrid hidne hid]
    · rw [hs.result]
      simp only [resultFor]
      rcases hcdm with ⟨c, rfl, _⟩ | ⟨rfl, hno⟩
      · rfl
      · cases hc : cd with
        | none => rfl
        | some c =>
          rcases hs.contentDirectory with ⟨c', _, hc'⟩ | ⟨hc', _⟩
          · obtain ⟨x, hx⟩ := hpr.contentDirectory ⟨_, hc'⟩
            exact absurd hx (hno x)
          · rw [hc] at hc'; cases hc'
    · rw [hs.result]
      simp only [resultFor]
      exact decide_eq_true hcd'.symm

theorem PriorGood.unique {E : Env} (hE : Libraries E) {check : Bool} {s : FS} {base : Path} {j : Json} {cd v : Str} {j1 j2 : Json}
    {a1 a2 : Str} {m1 m2 : List (Str × List Str)} {sp1 sp2 : Str} (h1 : PriorGood E check s base j cd v j1 a1 m1 sp1)
    (h2 : PriorGood E check s base j cd v j2 a2 m2 sp2) : j1 = j2 ∧ a1 = a2 ∧ m1 = m2 ∧ sp1 = sp2 := by
  have hj := storedJson_unique h1.stored h2.stored
  subst hj
  have hwf := storedJson_wf hE.json h1.stored
  exact ⟨rfl, Json.str.inj (member_str_unique hwf h1.alg h2.alg), ofDigestMap_inj (member_str_unique hwf h1.manifest h2.manifest),
    inventorySpec_unique hwf h1.spec h2.spec⟩

theorem PriorGood.present {E : Env} {check : Bool} {s : FS} {base : Path} {j : Json} {cd v : Str} {j1 : Json}
    {a1 : Str} {m1 : List (Str × List Str)} {sp1 : Str} (h1 : PriorGood E check s base j cd v j1 a1 m1 sp1) :
    look s (base ++ [v, c!"inventory.json"]) ≠ none := by
  obtain ⟨b, t, h, _⟩ := h1.stored
  rw [h]; simp

/-! ## The last version -/

theorem pass_lastInventory {E : Env} (hE : Libraries E) {cfg : Config} {s : FS} {base : Path} {root : Root}
    (hroot : ∃ b, look s (base ++ [c!"inventory.json"]) = some (.file b)) (halg : root.alg = c!"sha512" ∨ root.alg = c!"sha256")
    {v : Str} (hv : SafeName v) (hnl : '\n' ∉ v) (hex : look s (base ++ [v, c!"inventory.json"]) ≠ none) {st : VState} {r : Str × VState} :
    Pass (lastInventory E cfg s base root st v) r ↔
      look s (base ++ [v, c!"inventory.json"]) = look s (base ++ [c!"inventory.json"]) ∧
        Sidecar E cfg.checkDigests s (base ++ [v]) root.alg ∧
        r = (root.spec, { st with digestFiles := Dict.set st.digestFiles v (c!"inventory.json." ++ root.alg) }) := by
  have hres : FS.resolve base (osPathJoin v inventoryFilename) = base ++ [v, c!"inventory.json"] := by
    have := (VDir.version hv).resolve_in base (w := c!"inventory.json") (by decide)
    rw [List.append_assoc] at this
    exact this
  have hres0 : FS.resolve base inventoryFilename = base ++ [c!"inventory.json"] := resolve_name _ (by decide)
  obtain ⟨b, hb⟩ := hroot
  have hsame : filesIdenticalAt E s base (osPathJoin v inventoryFilename) inventoryFilename = .ok true ↔
      look s (base ++ [v, c!"inventory.json"]) = look s (base ++ [c!"inventory.json"]) := by
    unfold filesIdenticalAt
    rw [hres, hres0, hb]
    cases hl : look s (base ++ [v, c!"inventory.json"]) with
    | none => exact absurd hl hex
    | some nd =>
      cases nd with
      | dir => simp
      | file b' =>
        simp only [Except.ok.injEq, Option.some.injEq, Node.file.injEq]
        refine C58 hE.buflen _ _ _ _ ?_
        intro e
        have : FS.resolve base (osPathJoin v inventoryFilename) = FS.resolve base inventoryFilename := by rw [e]
        rw [hres, hres0] at this
        rw [this, hb] at hl
        cases hl; rfl
  unfold lastInventory
  simp only [pass_bind, pass_py, pass_ret]
  constructor
  · rintro ⟨same, h1, _, h2, rfl⟩
    cases same with
    | false => simp [pass_err] at h2
    | true =>
      rw [if_pos rfl, show inventoryFilename = c!"inventory.json" from rfl,
        pass_validateInventoryDigest hE.word hE.blank (VDir.version hv) hnl halg] at h2
      exact ⟨hsame.mp h1, h2, rfl⟩
  · rintro ⟨h1, h2, rfl⟩
    refine ⟨true, hsame.mpr h1, (), ?_, rfl⟩
    rw [if_pos rfl, show inventoryFilename = c!"inventory.json" from rfl,
        pass_validateInventoryDigest hE.word hE.blank (VDir.version hv) hnl halg]
    exact h2

theorem strLt_supported {a b : Str} (ha : a ∈ Spec.supported) (hb : b ∈ Spec.supported) :
    (!NV.strLt a b) = true ↔ b = c!"1.0" ∨ a = c!"1.1" := by
  have ha' : a = c!"1.0" ∨ a = c!"1.1" := by simpa [Spec.supported] using ha
  have hb' : b = c!"1.0" ∨ b = c!"1.1" := by simpa [Spec.supported] using hb
  rcases ha' with rfl | rfl <;> rcases hb' with rfl | rfl <;> decide

/-! ## The loop over the earlier versions -/

/-- What the loop over the earlier versions has found. -/
structure Looped (E : Env) (check : Bool) (s : FS) (base : Path) (j : Json) (cd : Str) (l : List Str) (st st' : VState) : Prop where
  each : ∀ v ∈ l, look s (base ++ [v, c!"inventory.json"]) ≠ none → ∃ j' a m' sp, PriorGood E check s base j cd v j' a m' sp
  first : ∀ v ∈ l, ∀ j' a m' sp, PriorGood E check s base j cd v j' a m' sp →
    (∀ x ∈ st.manifests, x.1 ∈ listed m') ∧ (st.prevSpec = c!"1.0" ∨ sp = c!"1.1")
  pairs : l.Pairwise (fun v w => ∀ j1 a1 m1 sp1 j2 a2 m2 sp2, PriorGood E check s base j cd v j1 a1 m1 sp1 →
    PriorGood E check s base j cd w j2 a2 m2 sp2 → (∀ p ∈ listed m1, p ∈ listed m2) ∧ (sp1 = c!"1.0" ∨ sp2 = c!"1.1"))
  manifests : ∀ x, x ∈ st'.manifests ↔ x ∈ st.manifests ∨ ∃ v ∈ l, ∃ j' a m' sp, PriorGood E check s base j cd v j' a m' sp ∧
    x ∈ recordBlock a m'
  fixity : ∀ x, x ∈ st'.fixity ↔ x ∈ st.fixity ∨ ∃ v ∈ l, ∃ j' a m' sp, PriorGood E check s base j cd v j' a m' sp ∧
    x ∈ fixityRecords j'
  digestFiles : ∀ w x, Dict.get? st'.digestFiles w = some x ↔
    (∃ j' a m' sp, w ∈ l ∧ PriorGood E check s base j cd w j' a m' sp ∧ x = c!"inventory.json." ++ a) ∨
    (¬ (w ∈ l ∧ look s (base ++ [w, c!"inventory.json"]) ≠ none) ∧ Dict.get? st.digestFiles w = some x)
  spec : st'.prevSpec = c!"1.0" ↔ st.prevSpec = c!"1.0" ∧ ∀ v ∈ l, ∀ j' a m' sp, PriorGood E check s base j cd v j' a m' sp → sp = c!"1.0"
  supported : st'.prevSpec ∈ Spec.supported

theorem pass_versionInventory_prior {E : Env} (hE : Libraries E) {cfg : Config} (hlax : cfg.lax = false) {s : FS} {base : Path} {root : Root}
    (hj : root.inv.WF) {idv sp0 : Str} {cd : Option Str} {m : List (Str × List Str)} {vs : List (Str × Json)}
    {states : Str → List (Str × List Str)} {style : Option Nat} {n : Nat}
    (hs : Says root.inv root.res idv sp0 root.alg cd m vs states style n) {v : Str} (hv : SafeName v) (hnl : '\n' ∉ v)
    {last : Option Str} (hlast : some v ≠ last) {st st' : VState} :
    Pass (versionInventory E cfg s base root last st v) st' ↔
      (look s (base ++ [v, c!"inventory.json"]) = none ∧ st' = st) ∨
      ∃ j' a m' sp, PriorGood E cfg.checkDigests s base root.inv (cd.getD c!"content") v j' a m' sp ∧
        (∀ x ∈ st.manifests, x.1 ∈ listed m') ∧ (!NV.strLt sp st.prevSpec) = true ∧
        st' = ⟨st.manifests ++ recordBlock a m', st.fixity ++ fixityRecords j',
          Dict.set st.digestFiles v (c!"inventory.json." ++ a), sp⟩ := by
  have hres : FS.resolve base (osPathJoin v inventoryFilename) = base ++ [v, c!"inventory.json"] := by
    have := (VDir.version hv).resolve_in base (w := c!"inventory.json") (by decide)
    rw [List.append_assoc] at this
    exact this
  unfold versionInventory
  rw [hres, pass_ite, if_neg hlast]
  have hex : FS.exists_ s (base ++ [v, c!"inventory.json"]) = false ↔ look s (base ++ [v, c!"inventory.json"]) = none := by
    unfold FS.exists_
    simp
  rw [hex]
  simp only [pass_bind, pass_warn, pass_ret, pass_priorInventory hE hlax hj hs hv hnl, pass_errUnless]
  constructor
  · rintro (⟨h1, _, _, h2⟩ | ⟨_, r, ⟨j', a, m', sp, hg, hm, rfl⟩, _, h3, rfl⟩)
    · exact .inl ⟨h1, h2⟩
    · exact .inr ⟨j', a, m', sp, hg, hm, h3, rfl⟩
  · rintro (⟨h1, h2⟩ | ⟨j', a, m', sp, hg, hm, h3, rfl⟩)
    · exact .inl ⟨h1, (), trivial, h2⟩
    · exact .inr ⟨hg.present, _, ⟨j', a, m', sp, hg, hm, rfl⟩, (), h3, rfl⟩

theorem looped_of_pass {E : Env} (hE : Libraries E) {cfg : Config} (hlax : cfg.lax = false) {s : FS} {base : Path} {root : Root}
    (hj : root.inv.WF) {idv sp0 : Str} {cd : Option Str} {m : List (Str × List Str)} {vs : List (Str × Json)}
    {states : Str → List (Str × List Str)} {style : Option Nat} {n : Nat}
    (hs : Says root.inv root.res idv sp0 root.alg cd m vs states style n) {last : Option Str} :
    ∀ {l : List Str}, (∀ v ∈ l, SafeName v ∧ '\n' ∉ v ∧ some v ≠ last) → ∀ {st st' : VState}, st.prevSpec ∈ Spec.supported →
      Pass (W.forM (versionInventory E cfg s base root last) l st) st' →
      Looped E cfg.checkDigests s base root.inv (cd.getD c!"content") l st st'
  | [], _, st, st', hsup, h => by
    rw [pass_forM_nil] at h
    subst h
    exact ⟨by simp, by simp, List.Pairwise.nil, by simp, by simp, by simp, by simp, hsup⟩
  | v :: l, hl, st, st', hsup, h => by
    rw [pass_forM_cons] at h
    obtain ⟨st1, h1, h2⟩ := h
    obtain ⟨hv, hnl, hne⟩ := hl v (by simp)
    rw [pass_versionInventory_prior hE hlax hj hs hv hnl hne] at h1
    rcases h1 with ⟨h0, rfl⟩ | ⟨j', a, m', sp, hg, hm, hlt, rfl⟩
    · have ih := looped_of_pass hE hlax hj hs (fun w hw => hl w (by simp [hw])) hsup h2
      have hno : ∀ j' a m' sp, ¬ PriorGood E cfg.checkDigests s base root.inv (cd.getD c!"content") v j' a m' sp :=
        fun j' a m' sp hg => hg.present h0
      refine ⟨?_, ?_, ?_, ?_, ?_, ?_, ?_, ih.supported⟩
      · intro w hw hp
        rcases List.mem_cons.mp hw with rfl | hw
        · exact absurd h0 hp
        · exact ih.each w hw hp
      · intro w hw j' a m' sp hg
        rcases List.mem_cons.mp hw with rfl | hw
        · exact absurd hg (hno _ _ _ _)
        · exact ih.first w hw _ _ _ _ hg
      · refine List.Pairwise.cons (fun w hw => ?_) ih.pairs
        intro j1 a1 m1 sp1 _ _ _ _ hg
        exact absurd hg (hno _ _ _ _)
      · intro x
        rw [ih.manifests]
        simp only [List.mem_cons, exists_eq_or_imp, hno, false_and, exists_false, false_or]
      · intro x
        rw [ih.fixity]
        simp only [List.mem_cons, exists_eq_or_imp, hno, false_and, exists_false, false_or]
      · intro w x
        rw [ih.digestFiles]
        by_cases hwv : w = v
        · subst hwv
          simp [hno, h0]
        · simp [hwv]
      · rw [ih.spec]
        simp [hno]
    · have hspm : sp ∈ Spec.supported := hg.spec.1
      have ih := looped_of_pass hE hlax hj hs (fun w hw => hl w (by simp [hw])) (st := ⟨st.manifests ++ recordBlock a m', st.fixity ++ fixityRecords j',
          Dict.set st.digestFiles v (c!"inventory.json." ++ a), sp⟩) hspm h2
      rw [strLt_supported hspm hsup] at hlt
      refine ⟨?_, ?_, ?_, ?_, ?_, ?_, ?_, ih.supported⟩
      · intro w hw hp
        rcases List.mem_cons.mp hw with rfl | hw
        · exact ⟨_, _, _, _, hg⟩
        · exact ih.each w hw hp
      · intro w hw j2 a2 m2 sp2 hg2
        rcases List.mem_cons.mp hw with rfl | hw
        · obtain ⟨rfl, rfl, rfl, rfl⟩ := hg.unique hE hg2
          exact ⟨hm, hlt⟩
        · obtain ⟨h3, h4⟩ := ih.first w hw _ _ _ _ hg2
          refine ⟨fun x hx => h3 x (by simp [hx]), ?_⟩
          rcases hlt with h | h
          · exact .inl h
          · rcases h4 with h4 | h4
            · rw [show sp = c!"1.0" from h4] at h; cases h
            · exact .inr h4
      · refine List.Pairwise.cons (fun w hw => ?_) ih.pairs
        intro j1 a1 m1 sp1 j2 a2 m2 sp2 hg1 hg2
        obtain ⟨rfl, rfl, rfl, rfl⟩ := hg.unique hE hg1
        obtain ⟨h3, h4⟩ := ih.first w hw _ _ _ _ hg2
        refine ⟨fun p hp => ?_, h4⟩
        obtain ⟨d, hd⟩ := listed_lists hp
        exact h3 (p, a, normalizedDigest d a) (List.mem_append_right _ (mem_recordBlock.mpr ⟨rfl, d, hd, rfl⟩))
      · intro x
        rw [ih.manifests]
        simp only [List.mem_append, List.mem_cons, exists_eq_or_imp, or_assoc]
        refine or_congr_right (or_congr_left ?_)
        constructor
        · intro h; exact ⟨_, _, _, _, hg, h⟩
        · rintro ⟨_, _, _, _, hg2, h⟩
          obtain ⟨rfl, rfl, rfl, rfl⟩ := hg.unique hE hg2
          exact h
      · intro x
        rw [ih.fixity]
        simp only [List.mem_append, List.mem_cons, exists_eq_or_imp, or_assoc]
        refine or_congr_right (or_congr_left ?_)
        constructor
        · intro h; exact ⟨_, _, _, _, hg, h⟩
        · rintro ⟨_, _, _, _, hg2, h⟩
          obtain ⟨rfl, rfl, rfl, rfl⟩ := hg.unique hE hg2
          exact h
      · intro w x
        rw [ih.digestFiles]
        by_cases hwv : w = v
        · subst hwv
          constructor
          · rintro (⟨_, _, _, _, hw, hg2, rfl⟩ | ⟨_, h⟩)
            · exact .inl ⟨_, _, _, _, by simp, hg2, rfl⟩
            · rw [Dict.get?_set_self] at h
              cases h
              exact .inl ⟨_, _, _, _, by simp, hg, rfl⟩
          · rintro (⟨_, _, _, _, _, hg2, rfl⟩ | ⟨h, _⟩)
            · by_cases hw : w ∈ l
              · exact .inl ⟨_, _, _, _, hw, hg2, rfl⟩
              · obtain ⟨rfl, rfl, rfl, rfl⟩ := hg.unique hE hg2
                refine .inr ⟨by simp [hw], ?_⟩
                exact Dict.get?_set_self ..
            · exact absurd ⟨by simp, hg.present⟩ h
        · simp only [List.mem_cons, hwv, false_or]
          rw [Dict.get?_set, if_neg (fun e => hwv e.symm)]
      · rw [ih.spec]
        constructor
        · rintro ⟨h3, h4⟩
          have h3 : sp = c!"1.0" := h3
          refine ⟨?_, ?_⟩
          · rcases hlt with h | h
            · exact h
            · rw [h3] at h; cases h
          · intro w hw j2 a2 m2 sp2 hg2
            rcases List.mem_cons.mp hw with rfl | hw
            · obtain ⟨rfl, rfl, rfl, rfl⟩ := hg.unique hE hg2
              exact h3
            · exact h4 w hw _ _ _ _ hg2
        · rintro ⟨h3, h4⟩
          exact ⟨h4 v (by simp) _ _ _ _ hg, fun w hw => h4 w (by simp [hw])⟩

theorem pass_of_looped {E : Env} (hE : Libraries E) {cfg : Config} (hlax : cfg.lax = false) {s : FS} {base : Path} {root : Root}
    (hj : root.inv.WF) {idv sp0 : Str} {cd : Option Str} {m : List (Str × List Str)} {vs : List (Str × Json)}
    {states : Str → List (Str × List Str)} {style : Option Nat} {n : Nat}
    (hs : Says root.inv root.res idv sp0 root.alg cd m vs states style n) {last : Option Str} :
    ∀ {l : List Str}, (∀ v ∈ l, SafeName v ∧ '\n' ∉ v ∧ some v ≠ last) → ∀ {st : VState}, st.prevSpec ∈ Spec.supported →
      (∀ v ∈ l, look s (base ++ [v, c!"inventory.json"]) ≠ none →
        ∃ j' a m' sp, PriorGood E cfg.checkDigests s base root.inv (cd.getD c!"content") v j' a m' sp) →
      (∀ v ∈ l, ∀ j' a m' sp, PriorGood E cfg.checkDigests s base root.inv (cd.getD c!"content") v j' a m' sp →
        (∀ x ∈ st.manifests, x.1 ∈ listed m') ∧ (st.prevSpec = c!"1.0" ∨ sp = c!"1.1")) →
      (l.Pairwise (fun v w => ∀ j1 a1 m1 sp1 j2 a2 m2 sp2,
        PriorGood E cfg.checkDigests s base root.inv (cd.getD c!"content") v j1 a1 m1 sp1 →
        PriorGood E cfg.checkDigests s base root.inv (cd.getD c!"content") w j2 a2 m2 sp2 →
          (∀ p ∈ listed m1, p ∈ listed m2) ∧ (sp1 = c!"1.0" ∨ sp2 = c!"1.1"))) →
      ∃ st', Pass (W.forM (versionInventory E cfg s base root last) l st) st'
  | [], _, st, _, _, _, _ => ⟨st, pass_forM_nil.mpr rfl⟩
  | v :: l, hl, st, hsup, heach, hfirst, hpairs => by
    obtain ⟨hv, hnl, hne⟩ := hl v (by simp)
    rw [List.pairwise_cons] at hpairs
    by_cases h0 : look s (base ++ [v, c!"inventory.json"]) = none
    · obtain ⟨st', h⟩ := pass_of_looped hE hlax hj hs (fun w hw => hl w (by simp [hw])) hsup (fun w hw => heach w (by simp [hw]))
        (fun w hw => hfirst w (by simp [hw])) hpairs.2
      refine ⟨st', pass_forM_cons.mpr ⟨st, ?_, h⟩⟩
      rw [pass_versionInventory_prior hE hlax hj hs hv hnl hne]
      exact .inl ⟨h0, rfl⟩
    · obtain ⟨j', a, m', sp, hg⟩ := heach v (by simp) h0
      obtain ⟨hm, hlt⟩ := hfirst v (by simp) _ _ _ _ hg
      obtain ⟨st', h⟩ := pass_of_looped hE hlax hj hs (l := l) (fun w hw => hl w (by simp [hw]))
        (st := ⟨st.manifests ++ recordBlock a m', st.fixity ++ fixityRecords j',
          Dict.set st.digestFiles v (c!"inventory.json." ++ a), sp⟩) hg.spec.1 (fun w hw => heach w (by simp [hw]))
        (by
          intro w hw j2 a2 m2 sp2 hg2
          obtain ⟨h3, h4⟩ := hpairs.1 w hw _ _ _ _ _ _ _ _ hg hg2
          refine ⟨fun x hx => ?_, h4⟩
          rcases List.mem_append.mp hx with hx | hx
          · exact (hfirst w (by simp [hw]) _ _ _ _ hg2).1 x hx
          · obtain ⟨_, d, hd, _⟩ := mem_recordBlock.mp hx
            exact h3 _ (lists_listed hd)) hpairs.2
      refine ⟨st', pass_forM_cons.mpr ⟨_, ?_, h⟩⟩
      rw [pass_versionInventory_prior hE hlax hj hs hv hnl hne]
      exact .inr ⟨j', a, m', sp, hg, hm, (strLt_supported hg.spec.1 hsup).mpr hlt, rfl⟩

/-! ## All versions -/

theorem pass_forM_append {α σ : Type} {body : σ → α → W σ} {l l' : List α} {st st' : σ} :
    Pass (W.forM body (l ++ l') st) st' ↔ ∃ st1, Pass (W.forM body l st) st1 ∧ Pass (W.forM body l' st1) st' := by
  induction l generalizing st with
  | nil => simp [pass_forM_nil]
  | cons x l ih =>
    rw [List.cons_append, pass_forM_cons]
    constructor
    · rintro ⟨st1, h1, h2⟩
      obtain ⟨st2, h3, h4⟩ := ih.mp h2
      exact ⟨st2, pass_forM_cons.mpr ⟨st1, h1, h3⟩, h4⟩
    · rintro ⟨st2, h1, h4⟩
      obtain ⟨st1, h1, h3⟩ := pass_forM_cons.mp h1
      exact ⟨st1, h1, ih.mpr ⟨st2, h3, h4⟩⟩

theorem pass_versionInventory_last {E : Env} (hE : Libraries E) {cfg : Config} {s : FS} {base : Path} {root : Root}
    (hroot : ∃ b, look s (base ++ [c!"inventory.json"]) = some (.file b)) (halg : root.alg = c!"sha512" ∨ root.alg = c!"sha256")
    {v : Str} (hv : SafeName v) (hnl : '\n' ∉ v) {st st' : VState} :
    Pass (versionInventory E cfg s base root (some v) st v) st' ↔
      (look s (base ++ [v, c!"inventory.json"]) = none ∧ st' = st) ∨
      (look s (base ++ [v, c!"inventory.json"]) ≠ none ∧
        look s (base ++ [v, c!"inventory.json"]) = look s (base ++ [c!"inventory.json"]) ∧
        Sidecar E cfg.checkDigests s (base ++ [v]) root.alg ∧ (!NV.strLt root.spec st.prevSpec) = true ∧
        st' = ⟨st.manifests, st.fixity, Dict.set st.digestFiles v (c!"inventory.json." ++ root.alg), root.spec⟩) := by
  have hres : FS.resolve base (osPathJoin v inventoryFilename) = base ++ [v, c!"inventory.json"] := by
    have := (VDir.version hv).resolve_in base (w := c!"inventory.json") (by decide)
    rw [List.append_assoc] at this
    exact this
  unfold versionInventory
  rw [hres, pass_ite, if_pos rfl]
  have hex : FS.exists_ s (base ++ [v, c!"inventory.json"]) = false ↔ look s (base ++ [v, c!"inventory.json"]) = none := by
    unfold FS.exists_
    simp
  rw [hex]
  by_cases h0 : look s (base ++ [v, c!"inventory.json"]) = none
  · simp [h0, pass_bind, pass_warn, pass_ret]
  · simp only [h0, false_and, false_or, not_false_eq_true, true_and, pass_bind, pass_lastInventory hE hroot halg hv hnl h0,
      pass_errUnless, pass_ret]
    constructor
    · rintro ⟨r, ⟨h1, h2, rfl⟩, _, h3, rfl⟩
      exact ⟨h0, h1, h2, h3, rfl⟩
    · rintro ⟨_, h1, h2, h3, rfl⟩
      exact ⟨_, ⟨h1, h2, rfl⟩, (), h3, rfl⟩

theorem inventorySpec_of_rules {j : Json} {a : Json} {cd : Str} {m : List (Str × List Str)} {vs : List (Str × Json)}
    {states : Str → List (Str × List Str)} {style : Option Nat} {n : Nat} (h : RulesWith false none j a cd m vs states style n) :
    ∃ sp, InventorySpec j sp := by
  obtain ⟨t, ht, _, c, v, rest, hc, hv, rfl⟩ := h.type
  exact ⟨v, hv, c, rest, hc, ht⟩

theorem priorGood_of {E : Env} {check : Bool} {s : FS} {base : Path} {j : Json} {cd v : Str} {j' : Json}
    (h : StoredJson E.lib s (base ++ [v, c!"inventory.json"]) j') (hp : PriorRules E check s (base ++ [v]) j cd j') :
    ∃ a m' sp, PriorGood E check s base j cd v j' a m' sp := by
  obtain ⟨a, m', vs, states, style, n, hr, _⟩ := hp.rules
  obtain ⟨sp, hsp⟩ := inventorySpec_of_rules hr
  exact ⟨a, m', sp, h, hp, hr.digestAlgorithm.1, hr.manifest, hsp⟩

/-- The rules for the inventories of the versions. -/
structure VersionRulesOK (E : Env) (check : Bool) (s : FS) (base : Path) (spec : Str) (j : Json) (alg cd : Str) (style : Option Nat)
    (n : Nat) : Prop where
  headInventory : FS.look s (base ++ [styleName style n, c!"inventory.json"]) ≠ none →
    FS.look s (base ++ [styleName style n, c!"inventory.json"]) = FS.look s (base ++ [c!"inventory.json"]) ∧
    Sidecar E check s (base ++ [styleName style n]) alg
  priorInventory : ∀ i, 1 ≤ i → i < n → FS.look s (base ++ [styleName style i, c!"inventory.json"]) ≠ none →
    ∃ j', StoredJson E.lib s (base ++ [styleName style i, c!"inventory.json"]) j' ∧
      PriorRules E check s (base ++ [styleName style i]) j cd j'
  priorManifests : ∀ i k, 1 ≤ i → i < k → k < n → ∀ j1 j2 m1 m2,
    StoredJson E.lib s (base ++ [styleName style i, c!"inventory.json"]) j1 →
    StoredJson E.lib s (base ++ [styleName style k, c!"inventory.json"]) j2 →
    Member j1 c!"manifest" (ofDigestMap m1) → Member j2 c!"manifest" (ofDigestMap m2) → ∀ p ∈ listed m1, p ∈ listed m2
  priorSpecs : ∀ i k, 1 ≤ i → i < k → k < n → ∀ j1 j2 v1 v2,
    StoredJson E.lib s (base ++ [styleName style i, c!"inventory.json"]) j1 →
    StoredJson E.lib s (base ++ [styleName style k, c!"inventory.json"]) j2 →
    InventorySpec j1 v1 → InventorySpec j2 v2 → v1 = c!"1.0" ∨ v2 = c!"1.1"
  headSpec : FS.look s (base ++ [styleName style n, c!"inventory.json"]) ≠ none → ∀ i, 1 ≤ i → i < n → ∀ j1 v1,
    StoredJson E.lib s (base ++ [styleName style i, c!"inventory.json"]) j1 → InventorySpec j1 v1 →
    v1 = c!"1.0" ∨ spec = c!"1.1"

/-- What is known of the inventories when the content is looked at. -/
structure StateOK (E : Env) (s : FS) (base : Path) (style : Option Nat) (n : Nat) (st : VState) : Prop where
  manifests : ∀ x, x ∈ st.manifests ↔ ∃ i j' a m' d, 1 ≤ i ∧ i < n ∧ StoredJson E.lib s (base ++ [styleName style i, c!"inventory.json"]) j' ∧
    InventoryAlg j' a ∧ Member j' c!"manifest" (ofDigestMap m') ∧ Lists m' d x.1 ∧ x.2 = (a, normalizedDigest d a)
  fixity : ∀ x, x ∈ st.fixity ↔ ∃ i j' d, 1 ≤ i ∧ i < n ∧ StoredJson E.lib s (base ++ [styleName style i, c!"inventory.json"]) j' ∧
    FixityLists j' x.2.1 d x.1 ∧ x.2.2 = normalizedDigest d x.2.1
  digestFiles : ∀ i, 1 ≤ i → i ≤ n → ∀ x, Dict.get? st.digestFiles (styleName style i) = some x ↔
    ∃ j' a, StoredJson E.lib s (base ++ [styleName style i, c!"inventory.json"]) j' ∧ InventoryAlg j' a ∧ x = c!"inventory.json." ++ a

theorem mem_range_prior {style : Option Nat} {n : Nat} (hn : 1 ≤ n) {v : Str} :
    v ∈ (List.range' 1 (n - 1)).map (styleName style) ↔ ∃ i, 1 ≤ i ∧ i < n ∧ v = styleName style i := by
  simp only [List.mem_map, List.mem_range'_1]
  constructor
  · rintro ⟨i, h, rfl⟩; exact ⟨i, h.1, by omega, rfl⟩
  · rintro ⟨i, h1, h2, rfl⟩; exact ⟨i, ⟨h1, by omega⟩, rfl⟩

theorem namesFrom_split {style : Option Nat} {n : Nat} (hn : 1 ≤ n) :
    namesFrom style 1 n = (List.range' 1 (n - 1)).map (styleName style) ++ [styleName style n] := by
  obtain ⟨k, rfl⟩ : ∃ k, n = k + 1 := ⟨n - 1, by omega⟩
  unfold namesFrom
  rw [List.range'_concat, List.map_append]
  simp [Nat.add_comm]

variable {E : Env} {cfg : Config} {s : FS} {base : Path} {root : Root} {idv sp0 : Str} {cd : Option Str} {m : List (Str × List Str)}
  {vs : List (Str × Json)} {states : Str → List (Str × List Str)} {style : Option Nat} {n : Nat}

theorem priorNames_ok (hn : 1 ≤ n) : ∀ v ∈ (List.range' 1 (n - 1)).map (styleName style),
    SafeName v ∧ '\n' ∉ v ∧ some v ≠ some (styleName style n) := by
  intro v hv
  obtain ⟨i, h1, h2, rfl⟩ := (mem_range_prior hn).mp hv
  refine ⟨styleName_safe _ _, styleName_newline _ _, ?_⟩
  intro e
  have := styleName_inj (Option.some.inj e)
  omega

theorem versions_pass (hE : Libraries E) (hlax : cfg.lax = false) (hsup : root.spec ∈ Spec.supported)
    (hroot : StoredJson E.lib s (base ++ [c!"inventory.json"]) root.inv)
    (hs : Says root.inv root.res idv sp0 root.alg cd m vs states style n) {st : VState}
    (h : Pass (validateVersionInventories E cfg s base root (namesFrom style 1 n)) st) :
    VersionRulesOK E cfg.checkDigests s base root.spec root.inv root.alg (cd.getD c!"content") style n ∧ StateOK E s base style n st := by
  have hj := storedJson_wf hE.json hroot
  have hn : 1 ≤ n := hs.rules.names.2.1
  have hrootb : ∃ b, look s (base ++ [c!"inventory.json"]) = some (.file b) := by
    obtain ⟨b, _, h, _⟩ := hroot; exact ⟨b, h⟩
  unfold validateVersionInventories at h
  rw [namesFrom_getLast hn, namesFrom_split hn, pass_forM_append] at h
  obtain ⟨st1, h1, h2⟩ := h
  have hL := looped_of_pass hE hlax hj hs (priorNames_ok hn) (st := {}) (by decide) h1
  rw [pass_forM_cons] at h2
  obtain ⟨st2, h2, h3⟩ := h2
  rw [pass_forM_nil] at h3
  subst h3
  rw [pass_versionInventory_last hE hrootb (alg_of_rules hs.rules) (styleName_safe _ _) (styleName_newline _ _)] at h2
  have hgood : ∀ i, 1 ≤ i → i < n → ∀ j1, StoredJson E.lib s (base ++ [styleName style i, c!"inventory.json"]) j1 →
      ∃ a m' sp, PriorGood E cfg.checkDigests s base root.inv (cd.getD c!"content") (styleName style i) j1 a m' sp := by
    intro i h1 h2 j1 hst
    have hp : look s (base ++ [styleName style i, c!"inventory.json"]) ≠ none := by
      obtain ⟨b, t, h, _⟩ := hst; rw [h]; simp
    obtain ⟨j', a, m', sp, hg⟩ := hL.each _ ((mem_range_prior hn).mpr ⟨i, h1, h2, rfl⟩) hp
    have := storedJson_unique hst hg.stored
    subst this
    exact ⟨a, m', sp, hg⟩
  have hpair : ∀ i k, 1 ≤ i → i < k → k < n → ∀ j1 a1 m1 sp1 j2 a2 m2 sp2,
      PriorGood E cfg.checkDigests s base root.inv (cd.getD c!"content") (styleName style i) j1 a1 m1 sp1 →
      PriorGood E cfg.checkDigests s base root.inv (cd.getD c!"content") (styleName style k) j2 a2 m2 sp2 →
      (∀ p ∈ listed m1, p ∈ listed m2) ∧ (sp1 = c!"1.0" ∨ sp2 = c!"1.1") := by
    intro i k h1 h2 h3
    have := hL.pairs
    rw [List.pairwise_map, List.pairwise_iff_getElem] at this
    have := this (i - 1) (k - 1) (by simp; omega) (by simp; omega) (by omega)
    rw [List.getElem_range', List.getElem_range'] at this
    rw [show 1 + 1 * (i - 1) = i by omega, show 1 + 1 * (k - 1) = k by omega] at this
    exact this
  have hmans : ∀ x, x ∈ st1.manifests ↔ ∃ i j' a m' d, 1 ≤ i ∧ i < n ∧ StoredJson E.lib s (base ++ [styleName style i, c!"inventory.json"]) j' ∧
      InventoryAlg j' a ∧ Member j' c!"manifest" (ofDigestMap m') ∧ Lists m' d x.1 ∧ x.2 = (a, normalizedDigest d a) := by
    intro x
    rw [hL.manifests]
    constructor
    · rintro (h | ⟨v, hv, j', a, m', sp, hg, hx⟩)
      · cases h
      · obtain ⟨i, h1, h2, rfl⟩ := (mem_range_prior hn).mp hv
        obtain ⟨h3, d, h4, h5⟩ := mem_recordBlock.mp hx
        exact ⟨i, j', a, m', d, h1, h2, hg.stored, hg.alg, hg.manifest, h4, by rw [← h5, ← h3]⟩
    · rintro ⟨i, j', a, m', d, h1, h2, hst, ha, hm, h4, h5⟩
      obtain ⟨a', m'', sp, hg⟩ := hgood i h1 h2 j' hst
      have hwf := storedJson_wf hE.json hst
      have e1 := Json.str.inj (member_str_unique hwf ha hg.alg)
      have e2 := ofDigestMap_inj (member_str_unique hwf hm hg.manifest)
      subst e1 e2
      refine .inr ⟨_, (mem_range_prior hn).mpr ⟨i, h1, h2, rfl⟩, j', a, m', sp, hg, ?_⟩
      rw [mem_recordBlock]
      refine ⟨by rw [h5], d, h4, by rw [h5]⟩
  have hfix : ∀ x, x ∈ st1.fixity ↔ ∃ i j' d, 1 ≤ i ∧ i < n ∧ StoredJson E.lib s (base ++ [styleName style i, c!"inventory.json"]) j' ∧
      FixityLists j' x.2.1 d x.1 ∧ x.2.2 = normalizedDigest d x.2.1 := by
    intro x
    rw [hL.fixity]
    constructor
    · rintro (h | ⟨v, hv, j', a, m', sp, hg, hx⟩)
      · cases h
      · obtain ⟨i, h1, h2, rfl⟩ := (mem_range_prior hn).mp hv
        obtain ⟨_, _, _, _, _, _, hr, _⟩ := hg.prior.rules
        obtain ⟨d, h4, h5⟩ := (mem_fixityRecords (storedJson_wf hE.json hg.stored) hr).mp hx
        exact ⟨i, j', d, h1, h2, hg.stored, h4, h5⟩
    · rintro ⟨i, j', d, h1, h2, hst, h4, h5⟩
      obtain ⟨a', m'', sp, hg⟩ := hgood i h1 h2 j' hst
      obtain ⟨_, _, _, _, _, _, hr, _⟩ := hg.prior.rules
      exact .inr ⟨_, (mem_range_prior hn).mpr ⟨i, h1, h2, rfl⟩, j', a', m'', sp, hg,
        (mem_fixityRecords (storedJson_wf hE.json hg.stored) hr).mpr ⟨d, h4, h5⟩⟩
  have hdf : ∀ i, 1 ≤ i → i < n → ∀ x, Dict.get? st1.digestFiles (styleName style i) = some x ↔
      ∃ j' a, StoredJson E.lib s (base ++ [styleName style i, c!"inventory.json"]) j' ∧ InventoryAlg j' a ∧ x = c!"inventory.json." ++ a := by
    intro i h1 h2 x
    rw [hL.digestFiles]
    constructor
    · rintro (⟨j', a, m', sp, _, hg, rfl⟩ | ⟨_, h⟩)
      · exact ⟨j', a, hg.stored, hg.alg, rfl⟩
      · cases h
    · rintro ⟨j', a, hst, ha, rfl⟩
      obtain ⟨a', m'', sp, hg⟩ := hgood i h1 h2 j' hst
      have e1 := Json.str.inj (member_str_unique (storedJson_wf hE.json hst) ha hg.alg)
      subst e1
      exact .inl ⟨j', a, m'', sp, (mem_range_prior hn).mpr ⟨i, h1, h2, rfl⟩, hg, rfl⟩
  have hlastdf : Dict.get? st1.digestFiles (styleName style n) = none := by
    cases hg : Dict.get? st1.digestFiles (styleName style n) with
    | none => rfl
    | some x =>
      rcases (hL.digestFiles _ _).mp hg with ⟨_, _, _, _, hm, _⟩ | ⟨_, h⟩
      · obtain ⟨i, h1, h2, he⟩ := (mem_range_prior hn).mp hm
        have := styleName_inj he
        omega
      · cases h
  have hhead : (look s (base ++ [styleName style n, c!"inventory.json"]) ≠ none →
      FS.look s (base ++ [styleName style n, c!"inventory.json"]) = FS.look s (base ++ [c!"inventory.json"]) ∧
      Sidecar E cfg.checkDigests s (base ++ [styleName style n]) root.alg ∧ (!NV.strLt root.spec st1.prevSpec) = true) := by
    intro hp
    rcases h2 with ⟨h0, _⟩ | ⟨_, h3, h4, h5, _⟩
    · exact absurd h0 hp
    · exact ⟨h3, h4, h5⟩
  refine ⟨⟨fun hp => ⟨(hhead hp).1, (hhead hp).2.1⟩, ?_, ?_, ?_, ?_⟩, ⟨?_, ?_, ?_⟩⟩
  · intro i h1 h2 hp
    obtain ⟨j', a, m', sp, hg⟩ := hL.each _ ((mem_range_prior hn).mpr ⟨i, h1, h2, rfl⟩) hp
    exact ⟨j', hg.stored, hg.prior⟩
  · intro i k h1 h2 h3 j1 j2 m1 m2 hs1 hs2 hm1 hm2
    obtain ⟨a1, m1', sp1, hg1⟩ := hgood i h1 (by omega) j1 hs1
    obtain ⟨a2, m2', sp2, hg2⟩ := hgood k (by omega) h3 j2 hs2
    have e1 := ofDigestMap_inj (member_str_unique (storedJson_wf hE.json hs1) hm1 hg1.manifest)
    have e2 := ofDigestMap_inj (member_str_unique (storedJson_wf hE.json hs2) hm2 hg2.manifest)
    subst e1 e2
    exact (hpair i k h1 h2 h3 _ _ _ _ _ _ _ _ hg1 hg2).1
  · intro i k h1 h2 h3 j1 j2 v1 v2 hs1 hs2 hm1 hm2
    obtain ⟨a1, m1', sp1, hg1⟩ := hgood i h1 (by omega) j1 hs1
    obtain ⟨a2, m2', sp2, hg2⟩ := hgood k (by omega) h3 j2 hs2
    have e1 := inventorySpec_unique (storedJson_wf hE.json hs1) hm1 hg1.spec
    have e2 := inventorySpec_unique (storedJson_wf hE.json hs2) hm2 hg2.spec
    subst e1 e2
    exact (hpair i k h1 h2 h3 _ _ _ _ _ _ _ _ hg1 hg2).2
  · intro hp i h1 h2 j1 v1 hs1 hm1
    obtain ⟨a1, m1', sp1, hg1⟩ := hgood i h1 (by omega) j1 hs1
    have e1 := inventorySpec_unique (storedJson_wf hE.json hs1) hm1 hg1.spec
    subst e1
    have := (hhead hp).2.2
    rw [strLt_supported hsup hL.supported, hL.spec] at this
    rcases this with ⟨_, h⟩ | h
    · exact .inl (h _ ((mem_range_prior hn).mpr ⟨i, h1, h2, rfl⟩) _ _ _ _ hg1)
    · exact .inr h
  · rcases h2 with ⟨_, rfl⟩ | ⟨_, _, _, _, rfl⟩
    · exact hmans
    · exact hmans
  · rcases h2 with ⟨_, rfl⟩ | ⟨_, _, _, _, rfl⟩
    · exact hfix
    · exact hfix
  · intro i h1' h2' x
    by_cases hin : i = n
    · subst hin
      rcases h2 with ⟨h0, rfl⟩ | ⟨_, h3, _, _, rfl⟩
      · rw [hlastdf]
        constructor
        · intro h; cases h
        · rintro ⟨j', a, ⟨b, t, h, _⟩, _⟩
          rw [h0] at h; cases h
      · show Dict.get? (Dict.set st1.digestFiles _ _) _ = _ ↔ _
        rw [Dict.get?_set_self]
        have hst : StoredJson E.lib s (base ++ [styleName style i, c!"inventory.json"]) root.inv := by
          obtain ⟨b, t, h4, h5⟩ := hroot
          exact ⟨b, t, by rw [h3]; exact h4, h5⟩
        constructor
        · intro h
          cases h
          exact ⟨root.inv, root.alg, hst, hs.rules.digestAlgorithm.1, rfl⟩
        · rintro ⟨j', a, hst', ha, rfl⟩
          have := storedJson_unique hst hst'
          subst this
          have := Json.str.inj (member_str_unique hj ha hs.rules.digestAlgorithm.1)
          rw [this]
    · rcases h2 with ⟨h0, rfl⟩ | ⟨_, h3, _, _, rfl⟩
      · exact hdf i h1' (by omega) x
      · show Dict.get? (Dict.set st1.digestFiles _ _) _ = _ ↔ _
        rw [Dict.get?_set, if_neg]
        · exact hdf i h1' (by omega) x
        · intro e
          exact hin (styleName_inj e).symm

theorem pass_versions (hE : Libraries E) (hlax : cfg.lax = false) (hsup : root.spec ∈ Spec.supported)
    (hroot : StoredJson E.lib s (base ++ [c!"inventory.json"]) root.inv)
    (hs : Says root.inv root.res idv sp0 root.alg cd m vs states style n)
    (h : VersionRulesOK E cfg.checkDigests s base root.spec root.inv root.alg (cd.getD c!"content") style n) :
    ∃ st, Pass (validateVersionInventories E cfg s base root (namesFrom style 1 n)) st := by
  have hj := storedJson_wf hE.json hroot
  have hn : 1 ≤ n := hs.rules.names.2.1
  have hrootb : ∃ b, look s (base ++ [c!"inventory.json"]) = some (.file b) := by
    obtain ⟨b, _, h, _⟩ := hroot; exact ⟨b, h⟩
  obtain ⟨st1, h1⟩ := pass_of_looped hE hlax hj hs (priorNames_ok (style := style) hn) (st := {}) (by decide)
    (by
      intro v hv hp
      obtain ⟨i, h1, h2, rfl⟩ := (mem_range_prior hn).mp hv
      obtain ⟨j', h3, h4⟩ := h.priorInventory i h1 h2 hp
      exact ⟨j', priorGood_of h3 h4⟩)
    (fun v hv j' a m' sp hg => ⟨fun x hx => (by cases hx), .inl rfl⟩)
    (by
      rw [List.pairwise_map]
      refine List.Pairwise.imp_of_mem ?_ List.pairwise_lt_range'
      intro i k hi hk hlt j1 a1 m1 sp1 j2 a2 m2 sp2 hg1 hg2
      rw [List.mem_range'_1] at hi hk
      exact ⟨h.priorManifests i k hi.1 hlt (by omega) _ _ _ _ hg1.stored hg2.stored hg1.manifest hg2.manifest,
        h.priorSpecs i k hi.1 hlt (by omega) _ _ _ _ hg1.stored hg2.stored hg1.spec hg2.spec⟩)
  have hL := looped_of_pass hE hlax hj hs (priorNames_ok hn) (st := {}) (by decide) h1
  unfold validateVersionInventories
  rw [namesFrom_getLast hn, namesFrom_split hn]
  have key : ∃ st, Pass (versionInventory E cfg s base root (some (styleName style n)) st1 (styleName style n)) st := by
    by_cases hp : look s (base ++ [styleName style n, c!"inventory.json"]) = none
    · refine ⟨st1, ?_⟩
      rw [pass_versionInventory_last hE hrootb (alg_of_rules hs.rules) (styleName_safe _ _) (styleName_newline _ _)]
      exact .inl ⟨hp, rfl⟩
    · obtain ⟨h2, h3⟩ := h.headInventory hp
      refine ⟨⟨st1.manifests, st1.fixity, Dict.set st1.digestFiles (styleName style n) (c!"inventory.json." ++ root.alg), root.spec⟩, ?_⟩
      rw [pass_versionInventory_last hE hrootb (alg_of_rules hs.rules) (styleName_safe _ _) (styleName_newline _ _)]
      refine .inr ⟨hp, h2, h3, ?_, rfl⟩
      rw [strLt_supported hsup hL.supported, hL.spec]
      by_cases h11 : root.spec = c!"1.1"
      · exact .inr h11
      · refine .inl ⟨rfl, ?_⟩
        intro v hv j' a m' sp hg
        obtain ⟨i, h1, h2, rfl⟩ := (mem_range_prior hn).mp hv
        rcases h.headSpec hp i h1 h2 _ _ hg.stored hg.spec with h | h
        · exact h
        · exact absurd h h11
  obtain ⟨st, hst⟩ := key
  exact ⟨st, pass_forM_append.mpr ⟨st1, h1, pass_forM_cons.mpr ⟨st, hst, pass_forM_nil.mpr rfl⟩⟩⟩

end Validator
end Ocfl
