import Verif.Proofs.ValidatorContent

/-!
# Object validation: digests of the content, and all steps together
-/

namespace Ocfl

open Spec FS

theorem hexChar_small {c : Char} (h : c ∈ c!"0123456789abcdef") : ¬ ('A' ≤ c ∧ c ≤ 'Z') := by
  revert c
  decide

theorem fileDigest_normal {raw : Str → Bytes → Str} (hh : HashLib raw) {alg : Str} {b : Bytes} {d : Str}
    (h : fileDigest raw alg b = some d) : normalizedDigest d alg = d := by
  have hraw : ∀ {n}, hexLength alg = some n → d = raw alg b → normalizedDigest d alg = d := by
    intro n hn e
    subst e
    exact lower_normal (fun c hc => hexChar_small ((hh alg n hn b).2 c hc))
  have hspec : ∀ {a n} (_ : hexLength a = some n) k, d = (raw a b).take k ++ c!"..." ++ (raw a b).drop ((raw a b).length - 3) →
      normalizedDigest d alg = d := by
    intro a n hn k e
    subst e
    refine lower_normal (fun c hc => ?_)
    rcases List.mem_append.mp hc with hc | hc
    · rcases List.mem_append.mp hc with hc | hc
      · exact hexChar_small ((hh a n hn b).2 c (List.mem_of_mem_take hc))
      · simp only [List.mem_cons, List.not_mem_nil, or_false, or_self] at hc
        subst hc
        decide
    · exact hexChar_small ((hh a n hn b).2 c (List.mem_of_mem_drop hc))
  have ha := fileDigest_alg h
  simp only [List.mem_cons, List.not_mem_nil, or_false] at ha
  rcases ha with rfl | rfl | rfl | rfl | rfl | rfl | rfl | rfl | rfl | rfl
  · exact hraw (n := 128) (by decide) (by simpa [fileDigest] using h.symm)
  · exact hraw (n := 64) (by decide) (by simpa [fileDigest] using h.symm)
  · exact hraw (n := 40) (by decide) (by simpa [fileDigest] using h.symm)
  · exact hraw (n := 32) (by decide) (by simpa [fileDigest] using h.symm)
  · exact hraw (n := 128) (by decide) (by simpa [fileDigest] using h.symm)
  · exact hraw (n := 40) (by decide) (by simpa [fileDigest] using h.symm)
  · exact hraw (n := 64) (by decide) (by simpa [fileDigest] using h.symm)
  · exact hraw (n := 96) (by decide) (by simpa [fileDigest] using h.symm)
  · exact hspec (a := c!"sha512") (n := 128) (by decide) 15 (by simpa [fileDigest] using h.symm)
  · exact hspec (a := c!"sha256") (n := 64) (by decide) 6 (by simpa [fileDigest] using h.symm)

/-- The comparison of a computed digest with a recorded one. -/
theorem digestIs_iff {E : Env} (hE : HashLib E.raw) {s : FS} {p : Path} {alg x : Str} :
    (∃ d, digestAt E s p alg = .ok d ∧ d = normalizedDigest x alg) ↔ DigestIs E s p alg x := by
  unfold DigestIs
  constructor
  · rintro ⟨d, h, rfl⟩
    obtain ⟨b, hl, hd⟩ := digestAt_ok.mp h
    exact ⟨b, _, hl, hd, sameDigest_iff.mpr (fileDigest_normal hE hd)⟩
  · rintro ⟨b, d, hl, hd, hs⟩
    refine ⟨d, digestAt_ok.mpr ⟨b, hl, hd⟩, ?_⟩
    rw [← sameDigest_iff.mp hs]
    exact (fileDigest_normal hE hd).symm

theorem digestIs_normal {E : Env} {s : FS} {p : Path} {alg x : Str} :
    DigestIs E s p alg (normalizedDigest x alg) ↔ DigestIs E s p alg x := by
  unfold DigestIs
  simp only [sameDigest_iff, C05_idempotent]

namespace Validator

open W (Pass pass_ret pass_after pass_bind pass_unit_bind pass_err pass_warn pass_errUnless pass_py pass_log pass_ite
  pass_raised pass_abort pass_forEach pass_forM_nil pass_forM_cons)

section Content

variable {E : Env} {cfg : Config} {s : FS} {base : Path}

theorem rootFixity_spec {j : Json} (hwf : j.WF) {alg : Json} {cd : Str} {m : List (Str × List Str)} {vs : List (Str × Json)}
    {states : Str → List (Str × List Str)} {style : Option Nat} {n : Nat} (h : RulesWith false none j alg cd m vs states style n)
    {seen : List Str} :
    (∀ r, Pass (rootFixity j seen) r → ∀ x : Str × Str × Str, x ∈ r ↔ FixityLists j x.2.1 x.2.2 x.1) ∧
    ((∀ p ∈ listed m, p ∈ seen) → ∃ r, Pass (rootFixity j seen) r) := by
  obtain ⟨o, rfl, _⟩ := h.manifest
  obtain ⟨hk, hw⟩ := wf_obj hwf
  unfold rootFixity
  simp only [pass_bind, pass_py, pyIn_obj, Except.ok.injEq, exists_eq_left', Dict.has, pyIndex_obj]
  cases hg : Dict.get? o c!"fixity" with
  | none =>
    simp only [Option.isSome_none, if_true, pass_ret]
    refine ⟨?_, fun _ => ⟨[], rfl⟩⟩
    rintro r rfl x
    simp only [List.not_mem_nil, false_iff]
    rintro ⟨fx, fm, h1, _⟩
    rw [member_iff hk, hg] at h1
    cases h1
  | some fx =>
    have hfr := h.fixity fx ((member_iff hk).mpr hg)
    obtain ⟨blocks, hb, hbm⟩ := iterFixity_ok (hw _ _ hg) hfr
    have hall : ∀ x : Str × Str × Str, x ∈ blocks.flatMap (fun b => b.2.flatMap (fun e => e.2.map (fun p => (p, b.1, e.1)))) ↔
        FixityLists (.obj o) x.2.1 x.2.2 x.1 := by
      rintro ⟨p, a, d⟩
      simp only [List.mem_flatMap, List.mem_map, Prod.mk.injEq]
      constructor
      · rintro ⟨⟨a', fm⟩, hm, ⟨d', ps⟩, hm', p', hp', rfl, rfl, rfl⟩
        exact ⟨fx, fm, (member_iff hk).mpr hg, (hbm _ _).mp hm, ps, hm', hp'⟩
      · rintro ⟨fx', fm, h1, h2, ps, h3, h4⟩
        rw [member_iff hk, hg] at h1
        cases h1
        exact ⟨(a, fm), (hbm _ _).mpr h2, (d, ps), h3, p, h4, rfl, rfl, rfl⟩
    simp only [Option.isSome_some, Bool.true_eq_false, if_false, pass_bind, pass_py, Except.ok.injEq, exists_eq_left', hb, pass_ret,
      pass_forEach, pass_errUnless]
    constructor
    · rintro r ⟨_, h1, rfl⟩ x
      rw [List.mem_filter, hall]
      constructor
      · exact fun h => h.1
      · exact fun h => ⟨h, h1 x ((hall x).mpr h)⟩
    · intro hsub
      refine ⟨_, (), fun x hx => ?_, rfl⟩
      obtain ⟨fx', fm, h1, h2, h3⟩ := (hall x).mp hx
      rw [member_iff hk, hg] at h1
      cases h1
      obtain ⟨_, m', he, _, _, hp⟩ := hfr.block _ _ h2
      have := ofDigestMap_inj he
      subst this
      exact decide_eq_true (hsub _ (hp _ (lists_listed h3)))

/-- The digests recorded for a file are right. -/
def RecordOK (E : Env) (s : FS) (base : Path) (p : Str) (rec : Recorded) : Prop :=
  ∀ r ∈ rec, r.1 = p → DigestIs E s (FS.resolve base p) r.2.1 r.2.2

theorem pass_checkAdditional (hE : HashLib E.raw) {p code : Str} {rec : Recorded} {u : Unit} :
    Pass (checkAdditional E s base p code rec) u ↔ RecordOK E s base p rec := by
  unfold checkAdditional RecordOK
  rw [pass_forEach]
  refine forall₂_congr fun r _ => ?_
  rw [pass_ite]
  by_cases h : r.1 = p
  · simp only [h, true_and, not_true_eq_false, false_and, or_false, true_implies, pass_bind, pass_py, pass_errUnless, ← digestIs_iff hE,
      decide_eq_true_eq]
  · simp only [h, false_and, not_false_eq_true, true_and, false_or, false_implies, pass_ret]

/-- The digests of one file of the manifest are right. -/
def EntryOK (E : Env) (check : Bool) (s : FS) (base : Path) (alg : Str) (fixity : Recorded) (st : VState) (e : Str × Str) : Prop :=
  check = true → DigestIs E s (FS.resolve base e.2) alg e.1 ∧ RecordOK E s base e.2 fixity ∧ RecordOK E s base e.2 st.manifests ∧
    RecordOK E s base e.2 st.fixity

theorem pass_manifestFile (hE : HashLib E.raw) {alg : Str} {fixity : Recorded} {st : VState} {left left' : List Str} {e : Str × Str} :
    Pass (manifestFile E cfg s base alg fixity st left e) left' ↔
      e.2 ∈ left ∧ EntryOK E cfg.checkDigests s base alg fixity st e ∧ left' = left.filter (· ≠ e.2) := by
  unfold manifestFile EntryOK
  rw [pass_ite]
  by_cases h : e.2 ∈ left
  · simp only [h, not_true_eq_false, false_and, false_or, not_false_eq_true, true_and, pass_unit_bind, pass_ret]
    refine and_congr ?_ Iff.rfl
    rw [pass_ite]
    by_cases hc : cfg.checkDigests = true
    · simp only [hc, true_and, not_true_eq_false, false_and, or_false, true_implies, pass_bind, pass_py, pass_errUnless,
        pass_checkAdditional hE, ← digestIs_iff hE, decide_eq_true_eq]
      constructor
      · rintro ⟨d, hd, _, he, _, h1, _, h2, h3⟩
        exact ⟨⟨d, hd, he⟩, h1, h2, h3⟩
      · rintro ⟨⟨d, hd, he⟩, h1, h2, h3⟩
        exact ⟨d, hd, (), he, (), h1, (), h2, h3⟩
    · simp [hc, pass_ret]
  · simp [h, pass_bind, pass_err]

theorem pass_manifestFiles (hE : HashLib E.raw) {alg : Str} {fixity : Recorded} {st : VState} :
    ∀ {l : List (Str × Str)}, (l.map Prod.snd).Nodup → ∀ {left left' : List Str},
    (Pass (W.forM (manifestFile E cfg s base alg fixity st) l left) left' ↔
      (∀ e ∈ l, e.2 ∈ left ∧ EntryOK E cfg.checkDigests s base alg fixity st e) ∧ left' = left.filter (· ∉ l.map Prod.snd))
  | [], _, left, left' => by
    rw [pass_forM_nil]
    simp
  | e :: l, hn, left, left' => by
    rw [List.map_cons, List.nodup_cons] at hn
    rw [pass_forM_cons]
    simp only [pass_manifestFile hE, and_assoc, exists_and_left, exists_eq_left, pass_manifestFiles hE hn.2, List.mem_cons,
      forall_eq_or_imp]
    have hfilter : (left.filter (· ≠ e.2)).filter (· ∉ l.map Prod.snd) = left.filter (· ∉ (e :: l).map Prod.snd) := by
      rw [List.filter_filter]
      refine List.filter_congr fun x _ => ?_
      simp only [List.map_cons, List.mem_cons, not_or]
      by_cases h1 : x = e.2 <;> by_cases h2 : x ∈ l.map Prod.snd <;> simp [h1, h2]
    rw [hfilter]
    have hmem : ∀ x ∈ l, (x.2 ∈ left.filter (· ≠ e.2) ↔ x.2 ∈ left) := by
      intro x hx
      rw [List.mem_filter]
      constructor
      · exact fun h => h.1
      · refine fun h => ⟨h, decide_eq_true ?_⟩
        intro he
        exact hn.1 (he ▸ List.mem_map_of_mem hx)
    constructor
    · rintro ⟨h1, h2, h3, h4⟩
      exact ⟨h1, h2, fun x hx => ⟨(hmem x hx).mp (h3 x hx).1, (h3 x hx).2⟩, h4⟩
    · rintro ⟨h1, h2, h3, h4⟩
      exact ⟨h1, h2, fun x hx => ⟨(hmem x hx).mpr (h3 x hx).1, (h3 x hx).2⟩, h4⟩

theorem pass_manifestContent (hE : HashLib E.raw) {root : Root} (hwf : root.inv.WF) {m : List (Str × List Str)}
    (hm : Member root.inv c!"manifest" (ofDigestMap m)) (hu : PathsUnique m) {fixity : Recorded} {st : VState} {seen left : List Str} :
    Pass (manifestContent E cfg s base root fixity st seen) left ↔
      (∀ d p, Lists m d p → p ∈ seen ∧ EntryOK E cfg.checkDigests s base root.alg fixity st (d, p)) ∧
        left = seen.filter (· ∉ listed m) := by
  obtain ⟨o, ho, _⟩ := id hm
  unfold manifestContent
  rw [ho] at hwf hm ⊢
  obtain ⟨hk, hw⟩ := wf_obj hwf
  have hg := (member_iff hk).mp hm
  simp only [pass_bind, pass_py, pyIn_obj, Except.ok.injEq, exists_eq_left', Dict.has, pyIndex_obj, hg, Option.isSome_some,
    Bool.true_eq_false, if_false, iterBlock_map (nk_of_wf (hw _ _ hg))]
  have hsnd : (m.flatMap (fun e => e.2.map (fun p => (e.1, p)))).map Prod.snd = listed m := by
    unfold listed
    rw [List.map_flatMap, ← List.flatMap_def]
    congr 1
    funext e
    simp
  have hmem : ∀ d p, (d, p) ∈ m.flatMap (fun e => e.2.map (fun p => (e.1, p))) ↔ Lists m d p := by
    intro d p
    simp only [List.mem_flatMap, List.mem_map, Prod.mk.injEq]
    constructor
    · rintro ⟨⟨d', ps⟩, h1, p', h2, rfl, rfl⟩
      exact ⟨ps, h1, h2⟩
    · rintro ⟨ps, h1, h2⟩
      exact ⟨(d, ps), h1, p, h2, rfl, rfl⟩
  rw [pass_manifestFiles hE (by rw [hsnd]; exact hu), hsnd]
  refine and_congr ?_ Iff.rfl
  constructor
  · exact fun h d p hl => h (d, p) ((hmem d p).mpr hl)
  · rintro h ⟨d, p⟩ hx
    exact h d p ((hmem d p).mp hx)

/-- The rules for the content of the versions. -/
structure ContentRulesOK (E : Env) (check : Bool) (s : FS) (base : Path) (j : Json) (alg cd : Str) (m : List (Str × List Str))
    (names : List Str) (style : Option Nat) (n : Nat) : Prop where
  versionDirs : ∀ v ∈ names, FS.look s (base ++ [v]) = some .dir
  versionFiles : ∀ v ∈ names, ∀ w b, FS.look s (base ++ [v, w]) = some (.file b) →
    w = c!"inventory.json" ∨ w = cd ∨
      ∃ j' a, StoredJson E.lib s (base ++ [v, c!"inventory.json"]) j' ∧ InventoryAlg j' a ∧ w = c!"inventory.json." ++ a
  content : ∀ p, p ∈ listed m ↔ ∃ v ws b, v ∈ names ∧ ws ≠ [] ∧ p = pathOf (v :: cd :: ws) ∧
    FS.look s (base ++ v :: cd :: ws) = some (.file b) ∧
    ∀ j' a, StoredJson E.lib s (base ++ [v, c!"inventory.json"]) j' → InventoryAlg j' a → cd ≠ c!"inventory.json." ++ a
  noEmpty : ∀ v ∈ names, ∀ ws, ws ≠ [] → FS.look s (base ++ v :: cd :: ws) = some .dir →
    (∀ j' a, StoredJson E.lib s (base ++ [v, c!"inventory.json"]) j' → InventoryAlg j' a → cd ≠ c!"inventory.json." ++ a) →
    ∃ w, FS.look s (base ++ v :: cd :: ws ++ [w]) ≠ none
  digests : check = true → ∀ d ws, Lists m d (pathOf ws) → (∀ w ∈ ws, Safe w) → DigestIs E s (base ++ ws) alg d
  fixity : check = true → ∀ a d ws, FixityLists j a d (pathOf ws) → (∀ w ∈ ws, Safe w) → DigestIs E s (base ++ ws) a d
  priorDigests : check = true → ∀ i, 1 ≤ i → i < n → ∀ j' a m' d ws,
    StoredJson E.lib s (base ++ [styleName style i, c!"inventory.json"]) j' → InventoryAlg j' a →
    Member j' c!"manifest" (ofDigestMap m') → Lists m' d (pathOf ws) → (∀ w ∈ ws, Safe w) → pathOf ws ∈ listed m →
    DigestIs E s (base ++ ws) a d
  priorFixity : check = true → ∀ i, 1 ≤ i → i < n → ∀ j' a d ws,
    StoredJson E.lib s (base ++ [styleName style i, c!"inventory.json"]) j' →
    FixityLists j' a d (pathOf ws) → (∀ w ∈ ws, Safe w) → pathOf ws ∈ listed m → DigestIs E s (base ++ ws) a d

theorem pass_validateContent (hE : Libraries E) (hw : s.WF) {root : Root} (hwf : root.inv.WF)
    {idv sp : Str} {cd : Option Str} {m : List (Str × List Str)} {vs : List (Str × Json)}
    {states : Str → List (Str × List Str)} {style : Option Nat} {n : Nat}
    (hs : Says root.inv root.res idv sp root.alg cd m vs states style n) {st : VState} (hst : StateOK E s base style n st)
    (hnf : ∀ i, 1 ≤ i → i ≤ n → ∀ b, look s (base ++ [styleName style i]) ≠ some (.file b))
    (hni : ∀ i, 1 ≤ i → i ≤ n → look s (base ++ [styleName style i, c!"inventory.json"]) ≠ some .dir) {u : Unit} :
    Pass (validateContent E cfg s base root st (namesFrom style 1 n)) u ↔
      ContentRulesOK E cfg.checkDigests s base root.inv root.alg (cd.getD c!"content") m (namesFrom style 1 n) style n := by
  have hcdir : root.res.contentDirectory = cd.getD c!"content" := by rw [hs.result]; rfl
  have hname : ∀ v, v ∈ namesFrom style 1 n ↔ ∃ i, 1 ≤ i ∧ i ≤ n ∧ v = styleName style i := by
    intro v
    rw [mem_namesFrom]
    constructor
    · rintro ⟨i, h1, h2, h3⟩; exact ⟨i, h1, by omega, h3⟩
    · rintro ⟨i, h1, h2, h3⟩; exact ⟨i, h1, by omega, h3⟩
  unfold validateContent
  rw [hcdir]
  generalize hcd : cd.getD c!"content" = cdv
  have hrules := hs.rules
  rw [hcd] at hrules
  obtain ⟨hv1, hv2⟩ := pass_versionsContent (E := E) (cd := cdv) (df := st.digestFiles) hw (vds := namesFrom style 1 n)
    (by intro v hv; obtain ⟨i, _, _, rfl⟩ := (hname v).mp hv; exact styleName_safe _ _)
    (by intro v hv; obtain ⟨i, h1, h2, rfl⟩ := (hname v).mp hv; exact hnf i h1 h2)
    (by intro v hv; obtain ⟨i, h1, h2, rfl⟩ := (hname v).mp hv; exact hni i h1 h2)
  have hdf : ∀ v ∈ namesFrom style 1 n, ∀ x, Dict.get? st.digestFiles v = some x ↔
      ∃ j' a, StoredJson E.lib s (base ++ [v, c!"inventory.json"]) j' ∧ InventoryAlg j' a ∧ x = c!"inventory.json." ++ a := by
    intro v hv x
    obtain ⟨i, h1, h2, rfl⟩ := (hname v).mp hv
    exact hst.digestFiles i h1 h2 x
  have hdn : ∀ v ∈ namesFrom style 1 n, (Dict.get? st.digestFiles v ≠ some cdv ↔
      ∀ j' a, StoredJson E.lib s (base ++ [v, c!"inventory.json"]) j' → InventoryAlg j' a → cdv ≠ c!"inventory.json." ++ a) := by
    intro v hv
    rw [ne_eq, hdf v hv]
    push Not
    exact Iff.rfl
  have hunique := hrules.manifestRules.unique
  have hsafe : ∀ {v cd : Str} {ws : List Str} {nd : Node}, look s (base ++ v :: cd :: ws) = some nd → ∀ w ∈ v :: cd :: ws, SafeName w := by
    intro v cd ws nd hl w hwm
    exact look_names hw hl w (List.mem_append.mpr (.inr hwm))
  have hres : ∀ {ws : List Str}, (∀ w ∈ ws, Safe w) → FS.resolve base (pathOf ws) = base ++ ws := fun h => resolve_pathOf base h
  simp only [pass_bind, pass_errUnless, pass_manifestContent hE.hash hwf hrules.manifest hunique]
  constructor
  · rintro ⟨seen, hseen, fixity, hfix, left, ⟨hent, rfl⟩, hleft⟩
    obtain ⟨hdirs, hsm⟩ := hv1 seen hseen
    have hfx := (rootFixity_spec hwf hrules).1 fixity hfix
    have hleft := List.eq_nil_of_length_eq_zero (of_decide_eq_true hleft)
    have hsub : ∀ p ∈ seen, p ∈ listed m := by
      intro p hp
      by_contra hno
      have : p ∈ seen.filter (· ∉ listed m) := List.mem_filter.mpr ⟨hp, decide_eq_true hno⟩
      rw [hleft] at this
      cases this
    have hentry : ∀ ws, pathOf ws ∈ listed m → ∃ d, EntryOK E cfg.checkDigests s base root.alg fixity st (d, pathOf ws) := by
      intro ws hl
      obtain ⟨d, hd⟩ := listed_lists hl
      exact ⟨d, (hent d _ hd).2⟩
    refine ⟨fun v hv => (hdirs v hv).1, ?_, ?_, ?_, ?_, ?_, ?_, ?_⟩
    · intro v hv w b hl
      rcases (hdirs v hv).2.1 w b hl with h | h | h
      · exact .inl h
      · exact .inr (.inl h)
      · exact .inr (.inr ((hdf v hv w).mp h))
    · intro p
      constructor
      · intro hp
        obtain ⟨d, hd⟩ := listed_lists hp
        obtain ⟨v, hv, hne, ws, b, h1, h2, h3⟩ := (hsm p).mp (hent d p hd).1
        exact ⟨v, ws, b, hv, h1, h2, h3, (hdn v hv).mp hne⟩
      · rintro ⟨v, ws, b, hv, h1, h2, h3, h4⟩
        exact hsub p ((hsm p).mpr ⟨v, hv, (hdn v hv).mpr h4, ws, b, h1, h2, h3⟩)
    · intro v hv ws hne hd hj
      exact (hdirs v hv).2.2 ((hdn v hv).mpr hj) ws hne hd
    · intro hc d ws hl hsf
      have := ((hent d _ hl).2 hc).1
      rw [← hres hsf]
      exact this
    · intro hc a d ws hl hsf
      obtain ⟨fx, fm, h1, h2, h3⟩ := id hl
      obtain ⟨_, m', he, _, _, hp⟩ := (hrules.fixity fx h1).block _ _ h2
      have := ofDigestMap_inj he
      subst this
      obtain ⟨d', hd'⟩ := hentry ws (hp _ (lists_listed h3))
      rw [← hres hsf]
      exact (hd' hc).2.1 (pathOf ws, a, d) ((hfx _).mpr hl) rfl
    · intro hc i h1 h2 j' a m' d ws hj ha hm' hl hsf hin
      obtain ⟨d', hd'⟩ := hentry ws hin
      rw [← hres hsf]
      exact digestIs_normal.mp ((hd' hc).2.2.1 (pathOf ws, a, normalizedDigest d a)
        ((hst.manifests _).mpr ⟨i, j', a, m', d, h1, h2, hj, ha, hm', hl, rfl⟩) rfl)
    · intro hc i h1 h2 j' a d ws hj hl hsf hin
      obtain ⟨d', hd'⟩ := hentry ws hin
      rw [← hres hsf]
      exact digestIs_normal.mp ((hd' hc).2.2.2 (pathOf ws, a, normalizedDigest d a)
        ((hst.fixity _).mpr ⟨i, j', d, h1, h2, hj, hl, rfl⟩) rfl)
  · intro h
    obtain ⟨seen, hseen⟩ := hv2 (by
      intro v hv
      refine ⟨h.versionDirs v hv, ?_, ?_⟩
      · intro w b hl
        rcases h.versionFiles v hv w b hl with h | h | h
        · exact .inl h
        · exact .inr (.inl h)
        · exact .inr (.inr ((hdf v hv w).mpr h))
      · intro hne ws hne' hd
        exact h.noEmpty v hv ws hne' hd ((hdn v hv).mp hne))
    obtain ⟨_, hsm⟩ := hv1 seen hseen
    have hseenm : ∀ p, p ∈ seen ↔ p ∈ listed m := by
      intro p
      rw [hsm, h.content]
      constructor
      · rintro ⟨v, hv, hne, ws, b, h1, h2, h3⟩
        exact ⟨v, ws, b, hv, h1, h2, h3, (hdn v hv).mp hne⟩
      · rintro ⟨v, ws, b, hv, h1, h2, h3, h4⟩
        exact ⟨v, hv, (hdn v hv).mpr h4, ws, b, h1, h2, h3⟩
    obtain ⟨fixity, hfix⟩ := (rootFixity_spec hwf hrules).2 (fun p hp => (hseenm p).mpr hp)
    have hfx := (rootFixity_spec hwf hrules).1 fixity hfix
    refine ⟨seen, hseen, fixity, hfix, _, ⟨?_, rfl⟩, ?_⟩
    · intro d p hl
      have hin := lists_listed hl
      refine ⟨(hseenm p).mpr hin, fun hc => ?_⟩
      obtain ⟨v, ws, b, hv, h1, rfl, h3, h4⟩ := (h.content p).mp hin
      have hsf : ∀ w ∈ v :: cdv :: ws, Safe w := hsafe h3
      refine ⟨?_, ?_, ?_, ?_⟩
      · show DigestIs E s (FS.resolve base (pathOf (v :: cdv :: ws))) _ _
        rw [hres hsf]
        exact h.digests hc d _ hl hsf
      · rintro ⟨p', a, d'⟩ hr rfl
        show DigestIs E s (FS.resolve base (pathOf (v :: cdv :: ws))) _ _
        rw [hres hsf]
        exact h.fixity hc a d' _ ((hfx _).mp hr) hsf
      · rintro ⟨p', a, d'⟩ hr rfl
        show DigestIs E s (FS.resolve base (pathOf (v :: cdv :: ws))) _ _
        rw [hres hsf]
        obtain ⟨i, j', a', m', d'', g1, g2, g3, g4, g5, g6, g7⟩ := (hst.manifests _).mp hr
        obtain ⟨e1, e2⟩ := Prod.mk.inj g7
        subst e1 e2
        exact digestIs_normal.mpr (h.priorDigests hc i g1 g2 j' _ m' d'' _ g3 g4 g5 g6 hsf hin)
      · rintro ⟨p', a, d'⟩ hr rfl
        show DigestIs E s (FS.resolve base (pathOf (v :: cdv :: ws))) _ _
        rw [hres hsf]
        obtain ⟨i, j', d'', g1, g2, g3, g4, g5⟩ := (hst.fixity _).mp hr
        have g5 : d' = normalizedDigest d'' a := g5
        subst g5
        exact digestIs_normal.mpr (h.priorFixity hc i g1 g2 j' a d'' _ g3 g4 hsf hin)
    · refine decide_eq_true ?_
      rw [List.length_eq_zero_iff, List.filter_eq_nil_iff]
      intro p hp
      simpa using (hseenm p).mp hp

end Content

/-! ## All steps -/

/-- A step that gives up has logged an error. -/
def GivesUp {α : Type} (m : W α) : Prop := ∀ es, m = .abort es → IV.numErrors es ≠ 0

theorem givesUp_ret {α : Type} {a : α} : GivesUp (W.ret a) := by rintro es ⟨⟩

theorem givesUp_py {α : Type} {x : Py α} : GivesUp (W.py x) := by
  intro es h
  unfold W.py at h
  split at h <;> cases h

theorem givesUp_after {α : Type} {l : List Entry} {m : W α} (h : GivesUp m) : GivesUp (W.after l m) := by
  intro es he
  unfold W.after at he
  split at he
  · cases he
  · cases he
    have := h _ rfl
    rw [numErrors_append]
    omega
  · cases he

theorem givesUp_bind {α β : Type} {m : W α} {f : α → W β} (h : GivesUp m) (hf : ∀ a, GivesUp (f a)) : GivesUp (W.bind m f) := by
  intro es he
  unfold W.bind at he
  split at he
  · cases he
  · cases he
    exact h _ rfl
  · exact givesUp_after (hf _) es he

theorem givesUp_ite {α : Type} {p : Prop} [Decidable p] {m m' : W α} (h : GivesUp m) (h' : GivesUp m') : GivesUp (if p then m else m') := by
  split
  · exact h
  · exact h'

theorem givesUp_err {c : Str} : GivesUp (W.err c) := by rintro es ⟨⟩
theorem givesUp_warn {c : Str} : GivesUp (W.warn c) := by rintro es ⟨⟩
theorem givesUp_log {l : List Entry} : GivesUp (W.log l) := by rintro es ⟨⟩
theorem givesUp_raised {α : Type} {e : PyErr} : GivesUp (.raised e : W α) := by rintro es ⟨⟩
theorem givesUp_errUnless {c : Bool} {code : Str} : GivesUp (W.errUnless c code) := by
  unfold W.errUnless
  exact givesUp_ite givesUp_ret givesUp_err

theorem givesUp_forM {α σ : Type} {body : σ → α → W σ} (h : ∀ st x, GivesUp (body st x)) : ∀ (l : List α) (st : σ), GivesUp (W.forM body l st)
  | [], _ => givesUp_ret
  | x :: l, st => givesUp_bind (h st x) (fun st' => givesUp_forM h l st')

theorem givesUp_forEach {α : Type} {body : α → W Unit} (h : ∀ x, GivesUp (body x)) : ∀ l : List α, GivesUp (W.forEach body l)
  | [] => givesUp_ret
  | x :: l => givesUp_bind (h x) (fun _ => givesUp_forEach h l)

theorem givesUp_declaration (E : Env) (cfg : Config) (s : FS) (base : Path) (tvalues : List Str) :
    GivesUp (checkDeclaration E cfg s base tvalues) := by
  unfold checkDeclaration
  refine givesUp_ite (givesUp_bind givesUp_err fun _ => givesUp_ret) (givesUp_bind (givesUp_forM ?_ _ _) ?_)
  · intro st x
    unfold declStep
    split
    · exact givesUp_bind givesUp_err fun _ => givesUp_ret
    · exact givesUp_ite (givesUp_bind givesUp_py fun _ => givesUp_bind givesUp_errUnless fun _ => givesUp_ret) givesUp_ret
  · intro sv
    cases sv
    · exact givesUp_bind givesUp_err fun _ => givesUp_ret
    · exact givesUp_bind givesUp_errUnless fun _ => givesUp_ret

theorem givesUp_inventory (E : Env) (cfg : Config) (spec : Str) (s : FS) (base : Path) (file : Str) :
    GivesUp (validateInventory E cfg spec s base file) := by
  unfold validateInventory
  have habort : GivesUp (.abort [⟨true, c!"E033"⟩] : W (Json × IV.Result)) := by
    rintro es ⟨⟩
    decide
  repeat' split
  all_goals first | exact habort | (rintro es ⟨⟩)

theorem givesUp_digest (E : Env) (cfg : Config) (s : FS) (base : Path) (file alg : Str) :
    GivesUp (validateInventoryDigest E cfg s base file alg) := by
  unfold validateInventoryDigest validateDigestMatch
  dsimp only
  repeat' split
  all_goals first | exact givesUp_err | exact givesUp_ret | exact givesUp_errUnless | exact givesUp_raised

theorem givesUp_root (s : FS) (base : Path) (spec alg : Str) (vds already : List Str) :
    GivesUp (validateObjectRoot s base spec alg vds already) := by
  unfold validateObjectRoot
  dsimp only
  refine givesUp_bind givesUp_py fun _ => givesUp_forEach (fun x => ?_) _
  unfold rootEntry validateExtensionsDir
  refine givesUp_ite givesUp_errUnless (givesUp_ite givesUp_ret (givesUp_ite givesUp_ret (givesUp_ite ?_ (givesUp_ite givesUp_err givesUp_err))))
  exact givesUp_bind givesUp_py fun _ => givesUp_forEach
    (fun x => givesUp_ite (givesUp_ite givesUp_ret givesUp_warn) givesUp_err) _

theorem givesUp_prior (E : Env) (cfg : Config) (s : FS) (base : Path) (root : Root) (st : VState) (v : Str) :
    GivesUp (priorInventory E cfg s base root st v) := by
  unfold priorInventory
  dsimp only
  refine givesUp_bind (givesUp_inventory _ _ _ _ _ _) fun jr => givesUp_bind givesUp_py fun alg =>
    givesUp_bind (givesUp_digest _ _ _ _ _ _) fun _ => givesUp_bind ?_ fun _ => givesUp_bind givesUp_errUnless fun _ =>
    givesUp_bind givesUp_errUnless fun _ => givesUp_bind ?_ fun _ => givesUp_bind givesUp_py fun _ => givesUp_bind givesUp_log fun _ =>
    givesUp_bind ?_ fun _ => givesUp_ret
  · unfold checkSameId
    split
    · exact givesUp_ret
    · exact givesUp_ret
    · exact givesUp_bind givesUp_py fun _ => givesUp_ite givesUp_ret (givesUp_bind givesUp_py fun _ => givesUp_errUnless)
  · unfold recordManifest
    exact givesUp_bind givesUp_py fun _ => givesUp_ite givesUp_ret (givesUp_bind givesUp_py fun _ => givesUp_bind givesUp_py fun _ =>
      givesUp_bind givesUp_errUnless fun _ => givesUp_ret)
  · unfold recordFixity
    exact givesUp_bind givesUp_py fun _ => givesUp_ite givesUp_ret (givesUp_bind givesUp_py fun _ => givesUp_bind givesUp_py fun _ =>
      givesUp_ret)

theorem givesUp_versions (E : Env) (cfg : Config) (s : FS) (base : Path) (root : Root) (vds : List Str) :
    GivesUp (validateVersionInventories E cfg s base root vds) := by
  unfold validateVersionInventories
  refine givesUp_forM (fun st v => ?_) _ _
  unfold versionInventory
  dsimp only
  refine givesUp_ite (givesUp_bind givesUp_warn fun _ => givesUp_ret) (givesUp_bind (givesUp_ite ?_ (givesUp_prior _ _ _ _ _ _ _)) ?_)
  · unfold lastInventory
    dsimp only
    exact givesUp_bind givesUp_py fun _ => givesUp_bind (givesUp_ite (givesUp_digest _ _ _ _ _ _) givesUp_err) fun _ => givesUp_ret
  · rintro ⟨a, b⟩
    exact givesUp_bind givesUp_errUnless fun _ => givesUp_ret

theorem givesUp_content (E : Env) (cfg : Config) (s : FS) (base : Path) (root : Root) (st : VState) (vds : List Str) :
    GivesUp (validateContent E cfg s base root st vds) := by
  unfold validateContent
  refine givesUp_bind (givesUp_forM (fun seen v => ?_) _ _) fun seen => givesUp_bind ?_ fun _ => givesUp_bind ?_ fun _ => givesUp_errUnless
  · unfold versionContent
    split
    · exact givesUp_bind givesUp_err fun _ => givesUp_ret
    · exact givesUp_raised
    · refine givesUp_forM (fun seen e => ?_) _ _
      unfold versionEntry contentFiles
      refine givesUp_bind givesUp_py fun _ => givesUp_ite givesUp_ret (givesUp_ite (givesUp_bind ?_ fun _ => givesUp_ret)
        (givesUp_ite (givesUp_bind givesUp_warn fun _ => givesUp_ret) (givesUp_bind givesUp_err fun _ => givesUp_ret)))
      exact givesUp_bind givesUp_py fun _ => givesUp_bind (givesUp_forEach (fun _ => givesUp_errUnless) _) fun _ =>
        givesUp_bind (givesUp_ite givesUp_warn givesUp_ret) fun _ => givesUp_ret
  · unfold rootFixity
    exact givesUp_bind givesUp_py fun _ => givesUp_ite givesUp_ret (givesUp_bind givesUp_py fun _ => givesUp_bind givesUp_py fun _ =>
      givesUp_bind (givesUp_forEach (fun _ => givesUp_errUnless) _) fun _ => givesUp_ret)
  · unfold manifestContent
    refine givesUp_bind givesUp_py fun _ => givesUp_ite givesUp_ret (givesUp_bind givesUp_py fun _ => givesUp_bind givesUp_py fun _ =>
      givesUp_forM (fun left e => ?_) _ _)
    have hadd : ∀ p code rec, GivesUp (checkAdditional E s base p code rec) := fun p code rec =>
      givesUp_forEach (fun x => givesUp_ite (givesUp_bind givesUp_py fun _ => givesUp_errUnless) givesUp_ret) _
    unfold manifestFile
    exact givesUp_ite (givesUp_bind givesUp_err fun _ => givesUp_ret) (givesUp_bind (givesUp_ite (givesUp_bind givesUp_py fun _ =>
      givesUp_bind givesUp_errUnless fun _ => givesUp_bind (hadd _ _ _) fun _ => givesUp_bind (hadd _ _ _) fun _ => hadd _ _ _) givesUp_ret)
      fun _ => givesUp_ret)

theorem givesUp_rest (E : Env) (cfg : Config) (s : FS) (base : Path) (tvalues : List Str) (spec : Str) (jr : Json × IV.Result) (valid : Bool) :
    GivesUp (validateRest E cfg s base tvalues spec jr valid) := by
  unfold validateRest
  refine givesUp_bind givesUp_py fun alg => ?_
  dsimp only
  exact givesUp_bind (givesUp_digest _ _ _ _ _ _) fun _ => givesUp_bind (givesUp_root _ _ _ _ _ _) fun _ =>
    givesUp_bind (givesUp_versions _ _ _ _ _ _) fun _ => givesUp_ite (givesUp_content _ _ _ _ _ _ _) givesUp_ret

theorem givesUp_first (E : Env) (cfg : Config) (s : FS) (base : Path) (tvalues : List Str) :
    GivesUp (validateFirst E cfg s base tvalues) := by
  unfold validateFirst
  exact givesUp_bind (givesUp_declaration _ _ _ _ _) fun _ => givesUp_ite (givesUp_bind givesUp_err fun _ => givesUp_ret)
    (givesUp_bind (givesUp_inventory _ _ _ _ _ _) fun _ => givesUp_ret)

/-- The verdict without earlier errors is positive exactly when all steps pass. -/
theorem verdict_true {E : Env} {cfg : Config} {s : FS} {base : Path} :
    (∃ es, validateAt E cfg 0 s base = .ok (true, es)) ↔
      ∃ tvalues spec jr, findNamastes s base 0 [] 10 = .ok tvalues ∧ Pass (validateFirst E cfg s base tvalues) (some (spec, jr)) ∧
        Pass (validateRest E cfg s base tvalues spec jr true) () := by
  unfold validateAt
  cases hf : findNamastes s base 0 [] 10 with
  | error e => simp
  | ok tvalues =>
    simp only [Except.ok.injEq, exists_and_left, exists_eq_left']
    unfold validateSteps
    have hfirst := givesUp_first E cfg s base tvalues
    cases h1 : validateFirst E cfg s base tvalues with
    | raised e =>
      simp only [reduceCtorEq, exists_false, false_iff, not_exists]
      rintro spec jr ⟨⟨es, h, _⟩, _⟩
      cases h
    | abort es =>
      have := hfirst _ h1
      simp only [Except.ok.injEq, Prod.mk.injEq, Nat.zero_add, exists_and_left, exists_eq', and_true, decide_eq_true_eq]
      constructor
      · intro h; exact absurd h this
      · rintro ⟨spec, jr, ⟨es, h, _⟩, _⟩
        cases h
    | done r es =>
      cases r with
      | none =>
        have hbad : IV.numErrors es ≠ 0 := by
          intro h0
          have hp : Pass (validateFirst E cfg s base tvalues) none := ⟨es, h1, h0⟩
          unfold validateFirst at hp
          simp only [pass_bind, pass_ite, pass_err, pass_ret, false_and, and_false, exists_false, false_or, reduceCtorEq] at hp
        simp only [Except.ok.injEq, Prod.mk.injEq, Nat.zero_add, exists_and_left, exists_eq', and_true, decide_eq_true_eq]
        constructor
        · intro h; exact absurd h hbad
        · rintro ⟨spec, jr, ⟨es, h, _⟩, _⟩
          cases h
      | some r =>
        obtain ⟨spec, jr⟩ := r
        dsimp only
        have hpass : (∃ spec' jr', Pass (W.done (some (spec, jr)) es) (some (spec', jr')) ∧
            Pass (validateRest E cfg s base tvalues spec' jr' true) ()) ↔
            IV.numErrors es = 0 ∧ Pass (validateRest E cfg s base tvalues spec jr true) () := by
          constructor
          · rintro ⟨spec', jr', ⟨es', h, h0⟩, h2⟩
            cases h
            exact ⟨h0, h2⟩
          · rintro ⟨h0, h2⟩
            exact ⟨spec, jr, ⟨es, rfl, h0⟩, h2⟩
        rw [hpass]
        have hrest := givesUp_rest E cfg s base tvalues spec jr (decide (0 + IV.numErrors es = 0))
        by_cases h0 : IV.numErrors es = 0
        · simp only [h0, Nat.add_zero, decide_true] at hrest ⊢
          cases h2 : validateRest E cfg s base tvalues spec jr true with
          | raised e =>
            simp [W.after, W.Pass]
          | abort es' =>
            have := hrest _ h2
            simp [W.after, W.Pass, numErrors_append, h0, this]
          | done u es' =>
            simp [W.after, W.Pass, numErrors_append, h0]
        · simp only [h0, false_and, iff_false, not_exists]
          intro es'
          cases h2 : validateRest E cfg s base tvalues spec jr (decide (0 + IV.numErrors es = 0)) with
          | raised e =>
            simp [W.after]
          | abort es' =>
            simp [W.after, numErrors_append, h0]
          | done u es' =>
            simp [W.after, numErrors_append, h0]

end Validator
end Ocfl
