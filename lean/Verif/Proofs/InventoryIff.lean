import Verif.Proofs.Timestamps

/-!
# `InventoryValidator.validate` accepts exactly the inventories that obey the rules
-/

namespace Ocfl
open IV V Spec

theorem validate_true_iff {isWord : Char → Bool} {lax : Bool} {ds : Str} {force : Option Str} {j : Json} :
    (∃ res es, validate isWord lax ds force j = .ok (res, true, es)) ↔
      ∃ res, Clean (validateBody isWord lax ds force j) (res, true) := by
  unfold validate
  constructor
  · rintro ⟨res, es, h⟩
    split at h
    · cases h
    · rename_i res' es' hb
      simp only [Except.ok.injEq, Prod.mk.injEq, decide_eq_true_eq] at h
      exact ⟨res', es', hb, h.2.1⟩
    · simp at h
  · rintro ⟨res, es, hb, he⟩
    exact ⟨res, es, by rw [hb]; simp [he]⟩

/-! ## The parts -/

theorem clean_manifestPart {lax : Bool} {alg : Json} {cd : Str} {d : List (Str × Json)} {r : Option MState} :
    Clean (manifestPart lax alg cd (.obj d)) r ↔
      ∃ m s, Dict.get? d c!"manifest" = some m ∧ Clean (validateManifest lax alg cd m) s ∧ r = some s := by
  unfold manifestPart
  rw [clean_field]
  simp only [clean_bind', clean_err, clean_ret, false_and, exists_const, and_false, or_false]
  constructor
  · rintro ⟨m, hm, s, hs, rfl⟩
    exact ⟨m, s, hm, hs, rfl⟩
  · rintro ⟨m, s, hm, hs, rfl⟩
    exact ⟨m, hm, s, hs, rfl⟩

theorem clean_versionsPart {isWord : Char → Bool} {lax : Bool} {alg : Json} {u : Option (List Str)}
    {d : List (Str × Json)} {r : List Str × List Str} :
    Clean (versionsPart isWord lax alg u (.obj d)) r ↔
      ∃ vs, Dict.get? d c!"versions" = some vs ∧ Clean (validateVersionSequence vs) r.1 ∧
        Clean (validateVersions isWord lax alg u vs r.1) r.2 := by
  unfold versionsPart
  rw [clean_field]
  simp only [clean_bind', clean_err, clean_ret, false_and, exists_const, and_false, or_false]
  constructor
  · rintro ⟨vs, hvs, av, hav, us, hus, rfl⟩
    exact ⟨vs, hvs, hav, hus⟩
  · rintro ⟨vs, hvs, hav, hus⟩
    exact ⟨vs, hvs, r.1, hav, r.2, hus, rfl⟩

theorem clean_headPart {av : List Str} {d : List (Str × Json)} {r : Str} (hav : av ≠ []) :
    Clean (headPart av (.obj d)) r ↔
      ∃ h, Dict.get? d c!"head" = some (.str h) ∧ av.getLast? = some h ∧ r = h := by
  have hl : av.length > 0 := List.length_pos_iff.mpr hav
  have hlast : av.getLast? = some (av.getLast hav) := List.getLast?_eq_some_getLast hav
  have hstr : ∀ (a : Json) (s : Str), a.str? = some s ↔ a = .str s := by
    intro a s; cases a <;> simp [Json.str?]
  unfold headPart
  simp only [hl, if_true]
  rw [clean_field]
  simp only [clean_bind', clean_err, clean_ret, false_and, exists_const, and_false, or_false, checkHead, clean_ite, false_or,
    and_true, ne_eq, not_not, hlast, hstr, Option.getD_some, Option.some.injEq]
  constructor
  · rintro ⟨v, hv, rfl, rfl⟩
    exact ⟨_, hv, rfl, rfl⟩
  · rintro ⟨h, hv, rfl, rfl⟩
    exact ⟨_, hv, rfl, rfl⟩

theorem clean_fixityPart {lax : Bool} {spec : Str} {mf : Dict Str Str} {d : List (Str × Json)} {u : Unit} :
    Clean (fixityPart lax spec (some mf) (.obj d)) u ↔
      ∀ j, Dict.get? d c!"fixity" = some j → ∃ fx, j = .obj fx ∧ ∀ e ∈ fx, goodFixity lax mf e := by
  unfold fixityPart
  rw [clean_field]
  simp only [clean_validateFixity, clean_ret, and_true]
  constructor
  · rintro (⟨v, hv, h⟩ | h) j hj
    · rw [hv] at hj; cases hj; exact h
    · rw [h] at hj; cases hj
  · intro h
    cases hg : Dict.get? d c!"fixity" with
    | none => exact Or.inr rfl
    | some x => exact Or.inl ⟨_, rfl, h x hg⟩

theorem clean_body {isWord : Char → Bool} {lax : Bool} {ds : Str} {force : Option Str} {d : List (Str × Json)}
    {res : Result} :
    Clean (validateBody isWord lax ds force (.obj d)) (res, true) ↔
      ∃ idv spec alg cd, Clean (checkId (.obj d)) idv ∧ Clean (checkType force (force.getD ds) (.obj d)) spec ∧
        Clean (checkDigestAlgorithm lax (.obj d)) (some alg) ∧ Clean (checkContentDirectory (.obj d)) cd ∧
        Clean (validateRest isWord lax idv spec alg cd (.obj d)) (res, true) := by
  unfold validateBody
  simp only [clean_bind']
  constructor
  · rintro ⟨idv, h1, spec, h2, a, h3, h⟩
    cases a with
    | none => simp [clean_ret] at h
    | some alg =>
      simp only [clean_bind'] at h
      obtain ⟨cd, h4, h⟩ := h
      exact ⟨idv, spec, alg, cd, h1, h2, h3, h4, h⟩
  · rintro ⟨idv, spec, alg, cd, h1, h2, h3, h4, h⟩
    refine ⟨idv, h1, spec, h2, some alg, h3, ?_⟩
    simp only [clean_bind']
    exact ⟨cd, h4, h⟩

theorem clean_rest {isWord : Char → Bool} {lax : Bool} {idv : Option Str} {spec : Str} {alg : Json} {cd : Option Str}
    {d : List (Str × Json)} {res : Result} :
    Clean (validateRest isWord lax idv spec alg cd (.obj d)) (res, true) ↔
      ∃ m s vs av us h, Dict.get? d c!"manifest" = some m ∧ Clean (validateManifest lax alg (cd.getD c!"content") m) s ∧
        Dict.get? d c!"versions" = some vs ∧ Clean (validateVersionSequence vs) av ∧
        Clean (validateVersions isWord lax alg (some s.unnorm) vs av) us ∧ av.getLast? = some h ∧
        Dict.get? d c!"head" = some (.str h) ∧ Clean (checkPathVersions s.correct av) () ∧
        Clean (checkDigestsUsed s.files us) () ∧
        (∀ j, Dict.get? d c!"fixity" = some j → ∃ fx, j = .obj fx ∧ ∀ e ∈ fx, goodFixity lax s.files e) ∧
        res = { id := idv, specVersion := spec, digestAlgorithm := alg, contentDirectory := cd.getD c!"content",
                contentDirectorySet := cd.isSome, allVersions := av, manifestFiles := some s.files,
                unnormalizedDigests := some s.unnorm, head := h } := by
  unfold validateRest
  simp only [clean_bind']
  constructor
  · rintro ⟨man, h1, vu, h2, hd, h3, h⟩
    obtain ⟨m, s, hm, hs, rfl⟩ := clean_manifestPart.mp h1
    obtain ⟨vs, hvs, hav, hus⟩ := clean_versionsPart.mp h2
    simp only [clean_ite, clean_ret, clean_bind', crossPart, Option.map_some, Prod.mk.injEq] at h
    rcases h with ⟨_, h⟩ | ⟨hne, u, h4, u', h5, h⟩
    · simp at h
    · have hav' : vu.1 ≠ [] := fun h => hne (by rw [h]; rfl)
      obtain ⟨hh, hg, hlast, rfl⟩ := (clean_headPart hav').mp h3
      obtain ⟨u4, h4a, h4b⟩ := h4
      exact ⟨m, s, vs, vu.1, vu.2, hd, hm, hs, hvs, hav, hus, hlast, hg, h4a, h4b, clean_fixityPart.mp h5, h.1⟩
  · rintro ⟨m, s, vs, av, us, h, hm, hs, hvs, hav, hus, hlast, hg, h4, h5, hfx, rfl⟩
    have hav' : av ≠ [] := by rintro rfl; simp at hlast
    refine ⟨some s, clean_manifestPart.mpr ⟨m, s, hm, hs, rfl⟩, (av, us), clean_versionsPart.mpr ⟨vs, hvs, hav, hus⟩, h,
      (clean_headPart hav').mpr ⟨h, hg, hlast, rfl⟩, ?_⟩
    have hl : ¬ av.length = 0 := fun h => hav' (List.length_eq_zero_iff.mp h)
    simp only [hl, if_false, clean_bind', crossPart, Option.map_some]
    exact ⟨(), ⟨(), h4, h5⟩, (), clean_fixityPart.mpr hfx, clean_ret.mpr rfl⟩

/-! ## Bridges -/

theorem member_iff {d : List (Str × Json)} (h : Dict.NK d) {k : Str} {v : Json} :
    Member (.obj d) k v ↔ Dict.get? d k = some v := by
  rw [← Dict.mem_iff_get? h]
  constructor
  · rintro ⟨d', h, hm⟩
    cases h
    exact hm
  · exact fun h => ⟨d, rfl, h⟩

theorem wf_obj {d : List (Str × Json)} (h : (Json.obj d).WF) : Dict.NK d ∧ ∀ k v, Dict.get? d k = some v → v.WF := by
  cases h with
  | obj h1 h2 => exact ⟨h1, fun k v hv => h2 (k, v) (Dict.mem_of_get? hv)⟩

theorem vform_styleName (w : Option Nat) (i : Nat) : VForm (styleName w i) := by
  cases w with
  | none =>
    exact ⟨natStr i, rfl, natStr_ne_nil i, fun c hc => isDigit_ascii (natStr_isDigit hc)⟩
  | some w =>
    refine ⟨padStr w i, rfl, ?_, fun c hc => isDigit_ascii (padStr_isDigit hc)⟩
    intro h
    unfold padStr at h
    exact natStr_ne_nil i (List.append_eq_nil_iff.mp h).2

theorem algRule_matcher {lax : Bool} {alg : Json} (h : AlgRule lax alg) (m : Str → Bool) :
    Clean (digestMatcher lax alg) m ↔ m = digestTest (algName alg) := by
  rw [clean_digestMatcher]
  unfold AlgRule at h
  split at h
  · rename_i hl
    exact ⟨fun h' => h'.2.2.2, fun h' => ⟨h.1, h.2, Or.inl hl, h'⟩⟩
  · refine ⟨fun h' => h'.2.2.2, fun h' => ⟨?_, ?_, ?_, h'⟩⟩
    · rcases h with rfl | rfl <;> simp
    · rcases h with rfl | rfl <;> simp
    · right
      rw [digestRegex_isSome]
      rcases h with rfl | rfl
      · exact Or.inl (by decide)
      · exact Or.inl (by decide)

theorem algRule_of {lax : Bool} {alg : Json} (h1 : lax = false → alg = .str c!"sha512" ∨ alg = .str c!"sha256")
    (h2 : ∃ m, Clean (digestMatcher lax alg) m) : AlgRule lax alg := by
  obtain ⟨m, h2⟩ := h2
  rw [clean_digestMatcher] at h2
  unfold AlgRule
  cases lax with
  | false => simpa using h1 rfl
  | true => simpa using ⟨h2.1, h2.2.1⟩

theorem nodup_norm_iff {alg : Str} {M : List (Str × List Str)} :
    (M.map (fun e => normalizedDigest e.1 alg)).Nodup ↔ M.Pairwise (fun a b => ¬ SameDigest alg a.1 b.1) := by
  unfold List.Nodup
  rw [List.pairwise_map]
  simp only [sameDigest_iff, ne_eq]

theorem manifestRules_iff {alg cd : Str} {names : List Str} (hv : ∀ v ∈ names, VForm v) (hcd : '/' ∉ cd)
    {M : List (Str × List Str)} :
    (AddOK alg cd {} M ∧ (∀ d ∈ (listed M).map dirOf, d ∉ listed M) ∧ ∀ p ∈ listed M, p.takeWhile (· ≠ '/') ∈ names) ↔
      ManifestRules alg cd names M := by
  constructor
  · rintro ⟨⟨h1, h2, _, h4, h5⟩, h6, h7⟩
    refine ⟨fun e he => digestTest_iff.mp (h1 e he), nodup_norm_iff.mp h2, ?_, h5, ?_⟩
    · intro p hp
      obtain ⟨v, segs, hv', _, hc⟩ := goodContent_iff.mp (h4 p hp).1
      refine ⟨v, ?_, segs, hc⟩
      rw [← (contentPath_matches hc hv' hcd).2]
      exact h7 p hp
    · intro p hp v hvn segs hc
      rw [← (contentPath_matches hc (hv v hvn) hcd).1]
      exact h6 _ (List.mem_map_of_mem hp)
  · rintro ⟨h1, h2, h3, h4, h5⟩
    refine ⟨⟨fun e he => digestTest_iff.mpr (h1 e he), nodup_norm_iff.mpr h2, by simp, ?_, h4⟩, ?_, ?_⟩
    · intro p hp
      obtain ⟨v, hvn, segs, hc⟩ := h3 p hp
      exact ⟨goodContent_iff.mpr ⟨v, segs, hv v hvn, hcd, hc⟩, by simp⟩
    · intro d hd
      obtain ⟨p, hp, rfl⟩ := List.mem_map.mp hd
      obtain ⟨v, hvn, segs, hc⟩ := h3 p hp
      rw [(contentPath_matches hc (hv v hvn) hcd).1]
      exact h5 p hp v hvn segs hc
    · intro p hp
      obtain ⟨v, hvn, segs, hc⟩ := h3 p hp
      rw [(contentPath_matches hc (hv v hvn) hcd).2]
      exact hvn

/-- What the manifest loop leaves behind. -/
theorem manifest_state {alg cd : Str} {M : List (Str × List Str)} (h : AddOK alg cd {} M) :
    (M.foldl (afterDigest alg) {}).unnorm = M.map Prod.fst ∧ (M.foldl (afterDigest alg) {}).correct = listed M ∧
      (M.foldl (afterDigest alg) {}).files = pairsOf alg M := by
  obtain ⟨h1, h2, _, _, h5⟩ := fold_afterDigest alg M {}
  refine ⟨h1, h2, ?_⟩
  rw [h5]
  have := foldl_set_nodup (pairsOf alg M) ([] : Dict Str Str) (by rw [map_fst_pairsOf]; exact h.2.2.2.2) (by simp [Dict.keys])
  simpa using this

theorem mem_values_pairsOf {alg : Str} {M : List (Str × List Str)} {x : Str} :
    x ∈ Dict.values (pairsOf alg M) ↔ ∃ d ps, (d, ps) ∈ M ∧ ps ≠ [] ∧ x = normalizedDigest d alg := by
  unfold Dict.values pairsOf
  simp only [List.mem_map, List.mem_flatMap]
  constructor
  · rintro ⟨e, ⟨⟨d, ps⟩, hm, p, hp, rfl⟩, rfl⟩
    exact ⟨d, ps, hm, List.ne_nil_of_mem hp, rfl⟩
  · rintro ⟨d, ps, hm, hne, rfl⟩
    obtain ⟨p, t, rfl⟩ := List.exists_cons_of_ne_nil hne
    exact ⟨(p, _), ⟨(d, p :: t), hm, p, by simp, rfl⟩, rfl⟩

theorem keys_pairsOf (alg : Str) (M : List (Str × List Str)) : Dict.keys (pairsOf alg M) = listed M := map_fst_pairsOf alg M

/-- Equal digests of a manifest are the same entry. -/
theorem norm_inj {alg : Str} {M : List (Str × List Str)} (h : (M.map (fun e => normalizedDigest e.1 alg)).Nodup)
    {a b : Str × List Str} (ha : a ∈ M) (hb : b ∈ M) (he : normalizedDigest a.1 alg = normalizedDigest b.1 alg) : a = b :=
  List.inj_on_of_nodup_map h ha hb he

theorem goodUser_iff {x : Json} (hx : x.WF) :
    goodUser x ↔ (∃ n, Member x c!"name" (.str n)) ∧ ∀ a, Member x c!"address" a → ∃ s, a = .str s := by
  constructor
  · rintro ⟨u, rfl, hn, ha⟩
    have hk := (wf_obj hx).1
    simp only [member_iff hk]
    exact ⟨hn, ha⟩
  · rintro ⟨⟨n, d, rfl, hm⟩, ha⟩
    have hk := (wf_obj hx).1
    simp only [member_iff hk] at ha
    exact ⟨d, rfl, ⟨n, (Dict.mem_iff_get? hk).mp hm⟩, ha⟩

theorem versionRules_of {lax : Bool} {alg : Json} {M : List (Str × List Str)} {b : List (Str × Json)}
    {S : List (Str × List Str)} (hb : (Json.obj b).WF) (h : goodVersion lax alg (M.map Prod.fst) b S)
    (hu : ∀ e ∈ S, ∃ ps, ps ≠ [] ∧ (e.1, ps) ∈ M) : VersionRules M (.obj b) S := by
  obtain ⟨⟨t, ht, hc⟩, hst, _, ⟨_, h2, h3⟩, h4, h5, h6⟩ := h
  obtain ⟨hk, hwf⟩ := wf_obj hb
  refine ⟨⟨t, (member_iff hk).mpr ht, goodCreated_iff.mp hc⟩, (member_iff hk).mpr hst, ?_, ?_, hu, ?_, h3, ?_⟩
  · intro x hx; exact h5 x ((member_iff hk).mp hx)
  · intro x hx
    have := (member_iff hk).mp hx
    exact (goodUser_iff (hwf _ _ this)).mp (h6 x this)
  · intro p hp; exact goodLogical_iff'.mp (h2 p hp).1
  · intro p hp segs hs
    rw [← ldirOf_eq hs]
    exact h4 _ (List.mem_map_of_mem hp)

theorem goodVersion_of {lax : Bool} {alg : Json} {M : List (Str × List Str)} {b : List (Str × Json)}
    {S : List (Str × List Str)} (hb : (Json.obj b).WF) (halg : AlgRule lax alg)
    (hdig : ∀ e ∈ M, digestTest (algName alg) e.1 = true) (h : VersionRules M (.obj b) S) :
    goodVersion lax alg (M.map Prod.fst) b S := by
  obtain ⟨⟨t, ht, hc⟩, hst, h5, h6, hu, h2, h3, h4⟩ := h
  obtain ⟨hk, hwf⟩ := wf_obj hb
  refine ⟨⟨t, (member_iff hk).mp ht, goodCreated_iff.mpr hc⟩, (member_iff hk).mp hst,
    ⟨_, (algRule_matcher halg _).mpr rfl⟩, ⟨?_, ?_, h3⟩, ?_, ?_, ?_⟩
  · intro e he
    obtain ⟨ps, _, hm⟩ := hu e he
    exact ⟨hdig (e.1, ps) hm, List.mem_map.mpr ⟨_, hm, rfl⟩⟩
  · intro p hp; exact ⟨goodLogical_iff'.mpr (h2 p hp), by simp⟩
  · intro d hd
    obtain ⟨p, hp, rfl⟩ := List.mem_map.mp hd
    obtain ⟨segs, hs⟩ := h2 p hp
    rw [ldirOf_eq hs]
    exact h4 p hp segs hs
  · intro x hx; exact h5 x ((member_iff hk).mpr hx)
  · intro x hx
    exact (goodUser_iff (hwf _ _ hx)).mpr (h6 x ((member_iff hk).mpr hx))

theorem fixityRules_iff {lax : Bool} {mf : Dict Str Str} {j : Json} (hj : j.WF) :
    (∃ fx, j = .obj fx ∧ ∀ e ∈ fx, goodFixity lax mf e) ↔ FixityRules lax (Dict.keys mf) j := by
  have hn : ∀ (alg : Str) (F : List (Str × List Str)), Dict.NK (encMap F) →
      ((F.map (fun x => fixNorm (digestRegex alg).isSome alg x.1)).Nodup ↔
        (KnownAlg alg → F.Pairwise (fun x y => ¬ SameDigest alg x.1 y.1))) := by
    intro alg F hF
    by_cases hk : KnownAlg alg
    · rw [digestRegex_isSome.mpr hk]
      simp only [fixNorm, if_true, nodup_norm_iff, hk, forall_const]
    · have : (digestRegex alg).isSome = false := by rw [Bool.eq_false_iff, ne_eq, digestRegex_isSome]; exact hk
      rw [this]
      simp only [fixNorm, Bool.false_eq_true, if_false, hk, false_imp_iff, iff_true]
      unfold Dict.NK encMap at hF
      rw [List.map_map] at hF
      exact hF
  constructor
  · rintro ⟨fx, rfl, h⟩
    obtain ⟨hk, hwf⟩ := wf_obj hj
    refine ⟨⟨fx, rfl⟩, ?_⟩
    intro alg b hm
    rw [member_iff hk] at hm
    obtain ⟨h1, F, h2, h3, h4, h5⟩ := h (alg, b) (Dict.mem_of_get? hm)
    simp only at h1 h2 h3 h4
    refine ⟨?_, F, h2, fun e he => digestTest_iff.mp (h3 e he), ?_, h5⟩
    · intro hl
      rcases h1 with h1 | h1
      · rw [hl] at h1; cases h1
      · exact digestRegex_isSome.mp h1
    · refine (hn alg F ?_).mp h4
      have := hwf _ _ hm
      rw [h2] at this
      exact (wf_obj this).1
  · rintro ⟨⟨fx, rfl⟩, h⟩
    obtain ⟨hk, hwf⟩ := wf_obj hj
    refine ⟨fx, rfl, ?_⟩
    rintro ⟨alg, b⟩ he
    have hm := (Dict.mem_iff_get? hk).mp he
    obtain ⟨h1, F, h2, h3, h4, h5⟩ := h alg b ((member_iff hk).mpr hm)
    refine ⟨?_, F, h2, fun e he => digestTest_iff.mpr (h3 e he), ?_, h5⟩
    · cases lax with
      | true => exact Or.inl rfl
      | false => exact Or.inr (digestRegex_isSome.mpr (h1 rfl))
    · refine (hn alg F ?_).mpr h4
      have := hwf _ _ hm
      rw [h2] at this
      exact (wf_obj this).1

/-- The attributes of the validator after a successful validation. -/
def resultFor (idv spec : Str) (alg : Json) (cd : Option Str) (m : List (Str × List Str)) (style : Option Nat) (n : Nat) :
    Result :=
  { id := some idv, specVersion := spec, digestAlgorithm := alg, contentDirectory := cd.getD c!"content",
    contentDirectorySet := cd.isSome, allVersions := namesFrom style 1 n, manifestFiles := some (pairsOf (algName alg) m),
    unnormalizedDigests := some (m.map Prod.fst), head := styleName style n }

theorem namesFrom_getLast {style : Option Nat} {n : Nat} (hn : 1 ≤ n) :
    (namesFrom style 1 n).getLast? = some (styleName style n) := by
  obtain ⟨k, rfl⟩ : ∃ k, n = k + 1 := ⟨n - 1, by omega⟩
  unfold namesFrom
  rw [List.getLast?_map, List.range'_concat, List.getLast?_append]
  simp [Nat.add_comm]

/-- `ContentDir` as the value in the inventory. -/
def ContentDirIs (d : List (Str × Json)) (cd : Option Str) : Prop :=
  (∃ s, Dict.get? d c!"contentDirectory" = some (.str s) ∧ '/' ∉ s ∧ s ≠ c!"." ∧ s ≠ c!".." ∧ cd = some s) ∨
  (Dict.get? d c!"contentDirectory" = none ∧ cd = none)

theorem contentDirIs_iff {d : List (Str × Json)} (hk : Dict.NK d) {c : Str} :
    ContentDir (.obj d) c ↔ ∃ cd, ContentDirIs d cd ∧ c = cd.getD c!"content" := by
  unfold ContentDir ContentDirIs
  simp only [member_iff hk]
  constructor
  · rintro (⟨h1, h2⟩ | ⟨h1, rfl⟩)
    · exact ⟨some c, Or.inl ⟨c, h1, h2.1, h2.2.1, h2.2.2, rfl⟩, rfl⟩
    · refine ⟨none, Or.inr ⟨?_, rfl⟩, rfl⟩
      cases h : Dict.get? d c!"contentDirectory" with
      | none => rfl
      | some x => exact absurd h (h1 x)
  · rintro ⟨cd, ⟨s, h1, h2, h3, h4, rfl⟩ | ⟨h1, rfl⟩, rfl⟩
    · exact Or.inl ⟨h1, h2, h3, h4⟩
    · refine Or.inr ⟨?_, rfl⟩
      intro x hx
      rw [h1] at hx
      cases hx

theorem contentDirIs_slash {d : List (Str × Json)} {cd : Option Str} (h : ContentDirIs d cd) : '/' ∉ cd.getD c!"content" := by
  rcases h with ⟨s, _, h, _, _, rfl⟩ | ⟨_, rfl⟩
  · exact h
  · decide

/-- The checks of the whole inventory pass exactly when the rules hold; and then the attributes are
those of the inventory. -/
theorem body_iff {isWord : Char → Bool} {lax : Bool} {ds : Str} {force : Option Str} {d : List (Str × Json)}
    (hwf : (Json.obj d).WF) {res : Result} :
    Clean (validateBody isWord lax ds force (.obj d)) (res, true) ↔
      ∃ idv t spec alg cd m vs states style n, RulesWith lax force (.obj d) alg (cd.getD c!"content") m vs states style n ∧
        Dict.get? d c!"id" = some (.str idv) ∧ Dict.get? d c!"type" = some (.str t) ∧ Inv.matchSpecVersion t = some spec ∧
        ContentDirIs d cd ∧ res = resultFor idv spec alg cd m style n := by
  obtain ⟨hk, hw⟩ := wf_obj hwf
  rw [clean_body]
  constructor
  · rintro ⟨idv, spec, alg, cd, h1, h2, h3, h4, h⟩
    rw [clean_rest] at h
    obtain ⟨mj, s, vj, av, us, hd, hm, hs, hvs, hav, hus, hlast, hg, hpv, hdu, hfx, rfl⟩ := h
    obtain ⟨ids, hid, hidg, rfl⟩ := clean_checkId.mp h1
    obtain ⟨t, htg, hforce, v, htm, hts, rfl⟩ := clean_checkType.mp h2
    obtain ⟨a, hag, ha, hlax⟩ := clean_checkDigestAlgorithm.mp h3
    cases ha
    have hcd : ContentDirIs d cd := clean_checkContentDirectory.mp h4
    obtain ⟨vs, style, n, rfl, hnames, rfl⟩ := (clean_validateVersionSequence (fun vs h => by
      subst h; exact (wf_obj (hw _ _ hvs)).1)).mp hav
    rw [clean_validateVersions] at hus
    obtain ⟨hver, rfl⟩ := hus
    have hn1 : 1 ≤ n := hnames.2.1
    -- the algorithm
    have hfirst : styleName style 1 ∈ namesFrom style 1 n := mem_namesFrom.mpr ⟨1, by omega, by omega, rfl⟩
    obtain ⟨b1, _, _, _, hmat, _⟩ := hver _ hfirst
    have halg := algRule_of hlax hmat
    have hmatch := algRule_matcher halg
    obtain ⟨M, rfl, hadd, hconf, rfl⟩ := (clean_validateManifest hmatch).mp hs
    obtain ⟨hun, hco, hfi⟩ := manifest_state hadd
    rw [hun] at hver ⊢
    rw [hfi] at hdu hfx ⊢
    rw [hco, clean_checkPathVersions] at hpv
    rw [clean_checkDigestsUsed] at hdu
    have hvnk := (wf_obj (hw _ _ hvs)).1
    have hnm : ∀ v, v ∈ namesFrom style 1 n ↔ v ∈ vs.map Prod.fst := by
      intro v
      rw [hnames.2.2.2, mem_namesFrom]
      constructor
      · rintro ⟨i, a, b, c⟩; exact ⟨i, a, by omega, c⟩
      · rintro ⟨i, a, b, c⟩; exact ⟨i, a, by omega, c⟩
    have hvform : ∀ v ∈ vs.map Prod.fst, VForm v := by
      intro v hv
      obtain ⟨i, _, _, rfl⟩ := mem_namesFrom.mp ((hnm v).mpr hv)
      exact vform_styleName _ _
    have hman := (manifestRules_iff hvform (contentDirIs_slash hcd)).mp
      ⟨hadd, hconf, fun p hp => (hnm _).mp (hpv p hp)⟩
    rw [namesFrom_getLast hn1] at hlast
    cases hlast
    have hused : ∀ v ∈ namesFrom style 1 n, ∀ e ∈ stateOf vs v, ∃ ps, ps ≠ [] ∧ (e.1, ps) ∈ M := by
      intro v hv e he
      obtain ⟨b, hb, hgv⟩ := hver v hv
      obtain ⟨_, _, _, ⟨hst, _, _⟩, _⟩ := hgv
      obtain ⟨a, ha, hae⟩ := List.mem_map.mp (hst e he).2
      have : normalizedDigest e.1 (algName alg) ∈ Dict.values (pairsOf (algName alg) M) := by
        rw [← hdu]
        exact List.mem_flatMap.mpr ⟨v, hv, List.mem_map.mpr ⟨e, he, rfl⟩⟩
      obtain ⟨d', ps, hm', hne, hnorm⟩ := mem_values_pairsOf.mp this
      have := norm_inj hadd.2.1 ha hm' (by simpa [hae] using hnorm)
      exact ⟨ps, hne, by rw [← hae, this]; exact hm'⟩
    refine ⟨ids, t, spec, alg, cd, M, vs, stateOf vs, style, n, ?_, hidg, htg, htm, hcd, rfl⟩
    refine ⟨⟨ids, hid, (member_iff hk).mpr hidg⟩, ⟨t, (member_iff hk).mpr htg, typeRule_iff.mpr ⟨hforce, spec, htm, hts⟩⟩,
      ⟨(member_iff hk).mpr hag, halg⟩, (contentDirIs_iff hk).mpr ⟨cd, hcd, rfl⟩, (member_iff hk).mpr hm, hman,
      (member_iff hk).mpr hvs, hnames, (member_iff hk).mpr hg, ?_, ?_, ?_⟩
    · intro v b hvb
      have hvn : v ∈ namesFrom style 1 n := (hnm v).mpr (List.mem_map.mpr ⟨_, hvb, rfl⟩)
      obtain ⟨b', hb', hgv⟩ := hver v hvn
      have hbe := (Dict.mem_iff_get? hvnk).mp hvb
      rw [hb'] at hbe
      cases hbe
      exact versionRules_of ((wf_obj (hw _ _ hvs)).2 _ _ hb') hgv (hused v hvn)
    · intro d' ps hdp hne
      have : normalizedDigest d' (algName alg) ∈ (namesFrom style 1 n).flatMap
          (fun v => (stateOf vs v).map (fun e => normalizedDigest e.1 (algName alg))) := by
        rw [hdu]
        exact mem_values_pairsOf.mpr ⟨d', ps, hdp, hne, rfl⟩
      obtain ⟨v, hv, hx⟩ := List.mem_flatMap.mp this
      obtain ⟨e, he, hee⟩ := List.mem_map.mp hx
      obtain ⟨ps', _, hm'⟩ := hused v hv e he
      have := norm_inj hadd.2.1 hdp hm' hee.symm
      simp only [Prod.mk.injEq] at this
      exact ⟨v, (hnm v).mp hv, e.2, by rw [this.1]; exact he⟩
    · intro fx hfxm
      have hfg := (member_iff hk).mp hfxm
      have := (fixityRules_iff (hw _ _ hfg)).mp (hfx fx hfg)
      rwa [keys_pairsOf] at this
  · rintro ⟨idv, t, spec, alg, cd, M, vs, states, style, n, hr, hidg, htg, htm, hcd, rfl⟩
    obtain ⟨⟨ids, hid, hidm⟩, ⟨t', htm', htr⟩, ⟨hag, halg⟩, _, hm, hman, hvs, hnames, hg, hver, hused, hfx⟩ := hr
    rw [member_iff hk] at hidm htm' hag hm hvs hg
    rw [hidg] at hidm
    cases hidm
    rw [htg] at htm'
    cases htm'
    obtain ⟨hforce, v', hv', hsup⟩ := typeRule_iff.mp htr
    rw [htm] at hv'
    cases hv'
    have hn1 : 1 ≤ n := hnames.2.1
    have hvnk := (wf_obj (hw _ _ hvs)).1
    have hmatch := algRule_matcher halg
    have hnm : ∀ v, v ∈ namesFrom style 1 n ↔ v ∈ vs.map Prod.fst := by
      intro v
      rw [hnames.2.2.2, mem_namesFrom]
      constructor
      · rintro ⟨i, a, b, c⟩; exact ⟨i, a, by omega, c⟩
      · rintro ⟨i, a, b, c⟩; exact ⟨i, a, by omega, c⟩
    have hvform : ∀ v ∈ vs.map Prod.fst, VForm v := by
      intro v hv
      obtain ⟨i, _, _, rfl⟩ := mem_namesFrom.mp ((hnm v).mpr hv)
      exact vform_styleName _ _
    obtain ⟨hadd, hconf, hpv⟩ := (manifestRules_iff hvform (contentDirIs_slash hcd)).mpr hman
    obtain ⟨hun, hco, hfi⟩ := manifest_state hadd
    have hblock : ∀ v ∈ namesFrom style 1 n, ∃ b, Dict.get? vs v = some (.obj b) ∧ stateOf vs v = states v ∧
        goodVersion lax alg (M.map Prod.fst) b (states v) ∧ VersionRules M (.obj b) (states v) := by
      intro v hv
      obtain ⟨⟨v', b⟩, hvb, rfl⟩ := List.mem_map.mp ((hnm v).mp hv)
      have hrules := hver v' b hvb
      have hget := (Dict.mem_iff_get? hvnk).mp hvb
      obtain ⟨bd, rfl, hmem⟩ := hrules.state
      have hbwf := (wf_obj (hw _ _ hvs)).2 _ _ hget
      have hbk := (wf_obj hbwf).1
      exact ⟨bd, hget, stateOf_eq hget ((Dict.mem_iff_get? hbk).mp hmem),
        goodVersion_of hbwf halg hadd.1 hrules, hrules⟩
    refine ⟨some idv, spec, alg, cd, clean_checkId.mpr ⟨idv, hid, hidg, rfl⟩,
      clean_checkType.mpr ⟨t, htg, hforce, spec, htm, hsup, rfl⟩,
      clean_checkDigestAlgorithm.mpr ⟨alg, hag, rfl, ?_⟩, clean_checkContentDirectory.mpr hcd, ?_⟩
    · intro hl
      unfold AlgRule at halg
      simpa [hl] using halg
    · rw [clean_rest]
      refine ⟨_, _, _, namesFrom style 1 n,
        (namesFrom style 1 n).flatMap (fun v => (stateOf vs v).map (fun e => normalizedDigest e.1 (algName alg))),
        styleName style n, hm,
        (clean_validateManifest hmatch).mpr ⟨M, rfl, hadd, hconf, rfl⟩, hvs,
        (clean_validateVersionSequence (fun vs' h => by cases h; exact hvnk)).mpr ⟨vs, style, n, rfl, hnames, rfl⟩, ?_,
        namesFrom_getLast hn1, hg, ?_, ?_, ?_, ?_⟩
      · rw [hun, clean_validateVersions]
        refine ⟨fun v hv => ?_, rfl⟩
        obtain ⟨b, hb, hst, hgv, _⟩ := hblock v hv
        exact ⟨b, hb, by rw [hst]; exact hgv⟩
      · rw [hco, clean_checkPathVersions]
        exact fun p hp => (hnm _).mpr (hpv p hp)
      · rw [hfi, clean_checkDigestsUsed]
        intro x
        rw [mem_values_pairsOf, List.mem_flatMap]
        constructor
        · rintro ⟨v, hv, hx⟩
          obtain ⟨e, he, rfl⟩ := List.mem_map.mp hx
          obtain ⟨b, hb, hst, _, hrules⟩ := hblock v hv
          rw [hst] at he
          obtain ⟨ps, hne, hmem⟩ := hrules.digests e he
          exact ⟨e.1, ps, hmem, hne, rfl⟩
        · rintro ⟨d', ps, hmem, hne, rfl⟩
          obtain ⟨v, hv, ps', hps'⟩ := hused d' ps hmem hne
          have hv' := (hnm v).mpr hv
          obtain ⟨b, hb, hst, _, _⟩ := hblock v hv'
          exact ⟨v, hv', List.mem_map.mpr ⟨(d', ps'), by rw [hst]; exact hps', rfl⟩⟩
      · intro j hj
        rw [hfi, fixityRules_iff (hw _ _ hj), keys_pairsOf]
        exact hfx j ((member_iff hk).mpr hj)
      · unfold resultFor
        rw [hun, hfi]

/-- `validate` returns `True` exactly for the inventories that obey the rules. -/
theorem validate_iff {isWord : Char → Bool} {lax : Bool} {ds : Str} {force : Option Str} {j : Json} (hwf : j.WF) :
    (∃ res es, validate isWord lax ds force j = .ok (res, true, es)) ↔ ValidInventory lax force j := by
  rw [validate_true_iff]
  constructor
  · rintro ⟨res, h⟩
    have hobj : ∃ d, j = .obj d := by
      unfold validateBody at h
      rw [clean_bind'] at h
      obtain ⟨a, h1, _⟩ := h
      exact checkId_obj h1
    obtain ⟨d, rfl⟩ := hobj
    obtain ⟨idv, t, spec, alg, cd, m, vs, states, style, n, hr, _⟩ := (body_iff hwf).mp h
    exact ⟨alg, _, m, vs, states, style, n, hr⟩
  · rintro ⟨alg, c, m, vs, states, style, n, hr⟩
    obtain ⟨ids, hid, d, rfl, hidm⟩ := hr.id
    obtain ⟨hk, _⟩ := wf_obj hwf
    obtain ⟨t, htm, htr⟩ := hr.type
    obtain ⟨_, spec, hspec, _⟩ := typeRule_iff.mp htr
    obtain ⟨cd, hcd, rfl⟩ := (contentDirIs_iff hk).mp hr.contentDirectory
    exact ⟨_, (body_iff hwf).mpr ⟨ids, t, spec, alg, cd, m, vs, states, style, n, hr, (Dict.mem_iff_get? hk).mp hidm,
      (member_iff hk).mp htm, hspec, hcd, rfl⟩⟩

end Ocfl
