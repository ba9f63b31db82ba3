import Verif.Proofs.ValidatorIff
import Verif.Props.History
import Verif.Props.Crash

/-!
# C73, C39–C43: what the verdict on an object means

The verdict of `Validator.validate_object` on an object is that of the rules in `Verif.Spec.ValidObject`
(**C73**), from which the other properties follow. Lax digests are not considered.
-/

namespace Ocfl

open Spec FS Validator

/-- **C73.** A directory is reported valid exactly when it is there and the rules hold. -/
theorem C73 {E : Env} (hE : Libraries E) {cfg : Config} (hlax : cfg.lax = false) {s : FS} (hw : s.WF) {path : Str} :
    (∃ es, validateObject E cfg 0 s path = .ok (true, es)) ↔
      look s (absComps E.cwd path) = some .dir ∧ ValidObject E cfg.checkDigests s (absComps E.cwd path) := by
  unfold validateObject fswOpen
  dsimp only
  cases hl : look s (absComps E.cwd path) with
  | none =>
    have : isdir s (absComps E.cwd path) = false := by simp [isdir, hl]
    simp [this]
  | some nd =>
    cases nd with
    | file b =>
      have : isdir s (absComps E.cwd path) = false := by simp [isdir, hl]
      simp [this]
    | dir =>
      have : isdir s (absComps E.cwd path) = true := by simp [isdir, hl]
      simp only [this, if_true, true_and]
      exact validateAt_iff hE hlax hw hl

/-- The content files of an object with version directories `names` and content directory `cd`. -/
def ContentFiles (s : FS) (base : Path) (names : List Str) (cd : Str) (p : Str) : Prop :=
  ∃ v ws b, v ∈ names ∧ ws ≠ [] ∧ p = pathOf (v :: cd :: ws) ∧ look s (base ++ v :: cd :: ws) = some (.file b)

theorem contentDir_unique {j : Json} (hwf : j.WF) {a b : Str} (ha : ContentDir j a) (hb : ContentDir j b) : a = b := by
  rcases ha with ⟨ha, _⟩ | ⟨ha, rfl⟩ <;> rcases hb with ⟨hb, _⟩ | ⟨hb, rfl⟩
  · exact (Ocfl.member_str_unique hwf ha hb)
  · exact absurd ha (hb _)
  · exact absurd hb (ha _)
  · rfl

/-- The parts that the rules speak of are those of the inventory. -/
theorem ruled_parts {j : Json} (hwf : j.WF) {lax : Bool} {alg : Json} {cd : Str} {m : List (Str × List Str)} {vs : List (Str × Json)}
    {states : Str → List (Str × List Str)} {style : Option Nat} {n : Nat} (h : RulesWith lax none j alg cd m vs states style n)
    {cd' : Str} {m' : List (Str × List Str)} {vs' : List (Str × Json)} (hcd : ContentDir j cd')
    (hm : Member j c!"manifest" (ofDigestMap m')) (hv : Member j c!"versions" (.obj vs')) : cd' = cd ∧ m' = m ∧ vs' = vs :=
  ⟨contentDir_unique hwf hcd h.contentDirectory, ofDigestMap_inj (Validator.member_str_unique hwf hm h.manifest),
    Json.obj.inj (Validator.member_str_unique hwf hv h.versions)⟩

/-- A version directory whose sidecar is right has no directory with the name of the sidecar. -/
theorem not_sidecar {E : Env} {s : FS} {base : Path} {spec : Str} {j : Json} {alg cd : Str}
    {m : List (Str × List Str)} {vs : List (Str × Json)} {states : Str → List (Str × List Str)} {style : Option Nat} {n : Nat}
    (hE : Libraries E) (h : ObjectRules E true s base spec j alg cd m vs states style n) {v : Str} (hv : v ∈ vs.map Prod.fst)
    (hd : look s (base ++ [v, cd]) = some .dir) :
    ∀ j' a, StoredJson E.lib s (base ++ [v, c!"inventory.json"]) j' → InventoryAlg j' a → cd ≠ c!"inventory.json." ++ a := by
  rintro j' a hj ha rfl
  obtain ⟨i, h1, h2, rfl⟩ := (h.rules.names.2.2.2 v).mp hv
  have hne : look s (base ++ [styleName style i, c!"inventory.json"]) ≠ none := by
    obtain ⟨b, _, hb, _⟩ := id hj
    rw [hb]
    simp
  have hside : ∀ {a'}, a' = a → Sidecar E true s (base ++ [styleName style i]) a' → False := by
    rintro a' rfl ⟨_, hg⟩
    obtain ⟨b, _, _, _, hb, _⟩ := hg rfl
    rw [List.append_assoc] at hb
    simp only [List.cons_append, List.nil_append] at hb hd
    rw [hd] at hb
    cases hb
  by_cases hi : i = n
  · subst hi
    obtain ⟨he, hs⟩ := h.headInventory hne
    refine hside ?_ hs
    have hj2 : StoredJson E.lib s (base ++ [c!"inventory.json"]) j' := by
      obtain ⟨b, t, hb, hrest⟩ := hj
      exact ⟨b, t, he ▸ hb, hrest⟩
    have := storedJson_unique h.inventory hj2
    subst this
    exact (Ocfl.member_str_unique (storedJson_wf hE.json hj) h.rules.digestAlgorithm.1 ha)
  · obtain ⟨j2, hj2, hp⟩ := h.priorInventory i h1 (by omega) hne
    have := storedJson_unique hj hj2
    subst this
    obtain ⟨a', m', vs', st', sty', n', hr, hs⟩ := hp.rules
    exact hside ((Ocfl.member_str_unique (storedJson_wf hE.json hj) hr.digestAlgorithm.1 ha)) hs

theorem content_dir {s : FS} (hw : s.WF) {base : Path} {v cd : Str} {ws : List Str} (hne : ws ≠ []) {nd : Node}
    (hl : look s (base ++ v :: cd :: ws) = some nd) : look s (base ++ [v, cd]) = some .dir := by
  refine look_prefix hw (q := base ++ v :: cd :: ws) ⟨ws, by simp⟩ ?_ hl
  intro e
  have := congrArg List.length e
  simp at this
  exact hne this

theorem checked_content {E : Env} {s : FS} {base : Path} {spec : Str} {j : Json} {alg cd : Str}
    {m : List (Str × List Str)} {vs : List (Str × Json)} {states : Str → List (Str × List Str)} {style : Option Nat} {n : Nat}
    (hE : Libraries E) (hw : s.WF) (h : ObjectRules E true s base spec j alg cd m vs states style n) (p : Str) :
    p ∈ listed m ↔ ContentFiles s base (vs.map Prod.fst) cd p := by
  rw [h.content p]
  constructor
  · rintro ⟨v, ws, b, hv, h1, h2, h3, _⟩
    exact ⟨v, ws, b, hv, h1, h2, h3⟩
  · rintro ⟨v, ws, b, hv, h1, h2, h3⟩
    exact ⟨v, ws, b, hv, h1, h2, h3, not_sidecar hE h hv (content_dir hw h1 h3)⟩

/-- **C39** (partial): if an object is reported valid then the files below its content directories are
exactly the content paths of the manifest. Excluded: an object validated without digest checking whose
content directory has the name of a sidecar, see `C39_violated`. -/
theorem C39_partial {E : Env} (hE : Libraries E) {cfg : Config} (hlax : cfg.lax = false) {s : FS} (hw : s.WF) {path : Str}
    {es : List Entry} (hv : validateObject E cfg 0 s path = .ok (true, es)) :
    ∃ j, StoredJson E.lib s (absComps E.cwd path ++ [c!"inventory.json"]) j ∧
      ∀ cd m vs, ContentDir j cd → Member j c!"manifest" (ofDigestMap m) → Member j c!"versions" (.obj vs) →
        (cfg.checkDigests = true ∨ cd ∉ [c!"inventory.json.sha512", c!"inventory.json.sha256"]) →
        ∀ p, p ∈ listed m ↔ ContentFiles s (absComps E.cwd path) (vs.map Prod.fst) cd p := by
  obtain ⟨hd, spec, j, alg, cd, m, vs, states, style, n, h⟩ := (C73 hE hlax hw).mp ⟨es, hv⟩
  have hwf := storedJson_wf hE.json h.inventory
  refine ⟨j, h.inventory, fun cd' m' vs' hcd hm hvs hor p => ?_⟩
  obtain ⟨rfl, rfl, rfl⟩ := ruled_parts hwf h.rules hcd hm hvs
  by_cases hc : cfg.checkDigests = true
  · rw [hc] at h
    exact checked_content hE hw h p
  · have hcd2 := hor.resolve_left hc
    rw [h.content p]
    constructor
    · rintro ⟨v, ws, b, hv, h1, h2, h3, _⟩
      exact ⟨v, ws, b, hv, h1, h2, h3⟩
    · rintro ⟨v, ws, b, hv, h1, h2, h3⟩
      refine ⟨v, ws, b, hv, h1, h2, h3, ?_⟩
      rintro j' a hj ha rfl
      obtain ⟨i, g1, g2, rfl⟩ := (h.rules.names.2.2.2 v).mp hv
      have hne : look s (absComps E.cwd path ++ [styleName style i, c!"inventory.json"]) ≠ none := by
        obtain ⟨b, _, hb, _⟩ := id hj
        rw [hb]
        simp
      have halg : a = c!"sha512" ∨ a = c!"sha256" := by
        by_cases hi : i = n
        · subst hi
          have he := (h.headInventory hne).1
          have hj2 : StoredJson E.lib s (absComps E.cwd path ++ [c!"inventory.json"]) j' := by
            obtain ⟨b, t, hb, hrest⟩ := hj
            exact ⟨b, t, he ▸ hb, hrest⟩
          have := storedJson_unique h.inventory hj2
          subst this
          have := (Ocfl.member_str_unique hwf h.rules.digestAlgorithm.1 ha)
          subst this
          exact alg_of_rules h.rules
        · obtain ⟨j2, hj2, hp⟩ := h.priorInventory i g1 (by omega) hne
          have := storedJson_unique hj hj2
          subst this
          obtain ⟨a', m', vs', st', sty', n', hr, _⟩ := hp.rules
          have := (Ocfl.member_str_unique (storedJson_wf hE.json hj) hr.digestAlgorithm.1 ha)
          subst this
          exact alg_of_rules hr
      rcases halg with rfl | rfl
      · exact hcd2 (by decide)
      · exact hcd2 (by decide)

/-- **C40.** If an object is reported valid with digest checking, then every content file is listed in the
manifest with the digest it has, and has all the digests in the fixity block. -/
theorem C40 {E : Env} (hE : Libraries E) {cfg : Config} (hlax : cfg.lax = false) (hcheck : cfg.checkDigests = true) {s : FS} (hw : s.WF)
    {path : Str} {es : List Entry} (hv : validateObject E cfg 0 s path = .ok (true, es)) :
    ∃ j alg, StoredJson E.lib s (absComps E.cwd path ++ [c!"inventory.json"]) j ∧ InventoryAlg j alg ∧
      ∀ cd m vs, ContentDir j cd → Member j c!"manifest" (ofDigestMap m) → Member j c!"versions" (.obj vs) →
        ∀ v ∈ vs.map Prod.fst, ∀ ws b, ws ≠ [] → look s (absComps E.cwd path ++ v :: cd :: ws) = some (.file b) →
          (∃ d, Lists m d (pathOf (v :: cd :: ws))) ∧
          (∀ d, Lists m d (pathOf (v :: cd :: ws)) → ∃ x, fileDigest E.raw alg b = some x ∧ SameDigest alg x d) ∧
          (∀ a d, FixityLists j a d (pathOf (v :: cd :: ws)) → ∃ x, fileDigest E.raw a b = some x ∧ SameDigest a x d) := by
  obtain ⟨hd, spec, j, alg, cd, m, vs, states, style, n, h⟩ := (C73 hE hlax hw).mp ⟨es, hv⟩
  rw [hcheck] at h
  have hwf := storedJson_wf hE.json h.inventory
  refine ⟨j, alg, h.inventory, h.rules.digestAlgorithm.1, fun cd' m' vs' hcd hm hvs v hvm ws b hne hl => ?_⟩
  obtain ⟨rfl, rfl, rfl⟩ := ruled_parts hwf h.rules hcd hm hvs
  have hsafe : ∀ w ∈ v :: cd' :: ws, Safe w := fun w hwm => look_names hw hl w (List.mem_append.mpr (.inr hwm))
  refine ⟨listed_lists ((checked_content hE hw h _).mpr ⟨v, ws, b, hvm, hne, rfl, hl⟩), ?_, ?_⟩
  · intro d hld
    obtain ⟨b', x, hb, hx, hsame⟩ := h.digests rfl d _ hld hsafe
    rw [hl] at hb
    cases hb
    exact ⟨x, hx, hsame⟩
  · intro a d hld
    obtain ⟨b', x, hb, hx, hsame⟩ := h.fixity rfl a d _ hld hsafe
    rw [hl] at hb
    cases hb
    exact ⟨x, hx, hsame⟩

/-- **C40**, corruption: if the bytes of a content file of a valid object are replaced by others that do not
have the same digest, then the object is not reported valid any more. -/
theorem C40_corruption {E : Env} (hE : Libraries E) {cfg : Config} (hlax : cfg.lax = false) (hcheck : cfg.checkDigests = true)
    {s s' : FS} (hw : s.WF) (hw' : s'.WF) {path : Str} {es : List Entry} (hv : validateObject E cfg 0 s path = .ok (true, es))
    {j : Json} {alg cd v : Str} {vs : List (Str × Json)} {ws : List Str} {b b' : Bytes}
    (hj : StoredJson E.lib s (absComps E.cwd path ++ [c!"inventory.json"]) j) (ha : InventoryAlg j alg) (hcd : ContentDir j cd)
    (hvs : Member j c!"versions" (.obj vs)) (hvm : v ∈ vs.map Prod.fst) (hne : ws ≠ [])
    (hl : look s (absComps E.cwd path ++ v :: cd :: ws) = some (.file b))
    (hrep : ∀ q, look s' q = if q = absComps E.cwd path ++ v :: cd :: ws then some (.file b') else look s q)
    (hdig : fileDigest E.raw alg b' ≠ fileDigest E.raw alg b) (es' : List Entry) :
    validateObject E cfg 0 s' path ≠ .ok (true, es') := by
  intro hv'
  have hinv : absComps E.cwd path ++ [c!"inventory.json"] ≠ absComps E.cwd path ++ v :: cd :: ws := by
    intro e
    have := congrArg List.length e
    simp at this
  have hj' : StoredJson E.lib s' (absComps E.cwd path ++ [c!"inventory.json"]) j := by
    refine storedJson_congr ?_ hj
    rw [hrep, if_neg hinv]
  have hl' : look s' (absComps E.cwd path ++ v :: cd :: ws) = some (.file b') := by rw [hrep, if_pos rfl]
  have hwf := storedJson_wf hE.json hj
  obtain ⟨j1, a1, h1, h2, h3⟩ := C40 hE hlax hcheck hw hv
  obtain ⟨j2, a2, g1, g2, g3⟩ := C40 hE hlax hcheck hw' hv'
  have := storedJson_unique h1 hj
  subst this
  have := storedJson_unique g1 hj'
  subst this
  have := (Ocfl.member_str_unique hwf h2 ha)
  subst this
  have := (Ocfl.member_str_unique hwf g2 ha)
  subst this
  obtain ⟨_, spec, j3, alg, cd3, m, vs3, states, style, n, h⟩ := (C73 hE hlax hw).mp ⟨es, hv⟩
  have := storedJson_unique h.inventory hj
  subst this
  obtain ⟨⟨d, hd⟩, hx, _⟩ := h3 cd m vs hcd h.rules.manifest hvs v hvm ws b hne hl
  obtain ⟨x, hx1, hx2⟩ := hx d hd
  obtain ⟨_, gx, _⟩ := g3 cd m vs hcd h.rules.manifest hvs v hvm ws b' hne hl'
  obtain ⟨y, hy1, hy2⟩ := gx d hd
  rw [sameDigest_iff] at hx2 hy2
  have e1 := fileDigest_normal hE.hash hx1
  have e2 := fileDigest_normal hE.hash hy1
  apply hdig
  rw [hx1, hy1, ← e1, ← e2, hx2, hy2]

/-- **C41** (partial): if an object is reported valid with digest checking then the sidecar in the root
records the digest of the inventory there, and the inventory of the last version, if it has one, has the
same bytes and a right sidecar. Excluded: a last version without inventory, and a sidecar with other
blanks; see `C41_violated` and `C41_violated_sidecar`. -/
theorem C41_partial {E : Env} (hE : Libraries E) {cfg : Config} (hlax : cfg.lax = false) (hcheck : cfg.checkDigests = true) {s : FS} (hw : s.WF)
    {path : Str} {es : List Entry} (hv : validateObject E cfg 0 s path = .ok (true, es)) :
    ∃ j alg head, StoredJson E.lib s (absComps E.cwd path ++ [c!"inventory.json"]) j ∧ InventoryAlg j alg ∧
      Member j c!"head" (.str head) ∧ SidecarGood E s (absComps E.cwd path) alg ∧
      (look s (absComps E.cwd path ++ [head, c!"inventory.json"]) ≠ none →
        look s (absComps E.cwd path ++ [head, c!"inventory.json"]) = look s (absComps E.cwd path ++ [c!"inventory.json"]) ∧
        SidecarGood E s (absComps E.cwd path ++ [head]) alg) := by
  obtain ⟨hd, spec, j, alg, cd, m, vs, states, style, n, h⟩ := (C73 hE hlax hw).mp ⟨es, hv⟩
  refine ⟨j, alg, _, h.inventory, h.rules.digestAlgorithm.1, h.rules.head, h.sidecar.2 hcheck, fun hne => ?_⟩
  obtain ⟨h1, h2⟩ := h.headInventory hne
  exact ⟨h1, h2.2 hcheck⟩

/-- **C42.** If an object is reported valid then its root holds exactly one declaration, the inventory and
its sidecar, a directory for each version, maybe directories `extensions` and `logs`, and nothing else. -/
theorem C42 {E : Env} (hE : Libraries E) {cfg : Config} (hlax : cfg.lax = false) {s : FS} (hw : s.WF)
    {path : Str} {es : List Entry} (hv : validateObject E cfg 0 s path = .ok (true, es)) :
    ∃ spec j alg vs, spec ∈ Spec.supported ∧ StoredJson E.lib s (absComps E.cwd path ++ [c!"inventory.json"]) j ∧
      InventoryAlg j alg ∧ Member j c!"versions" (.obj vs) ∧
      (∀ w, (∃ b, look s (absComps E.cwd path ++ [w]) = some (.file b)) ↔
        w = c!"0=ocfl_object_" ++ spec ∨ w = c!"inventory.json" ∨ w = c!"inventory.json." ++ alg) ∧
      (∀ w, look s (absComps E.cwd path ++ [w]) = some .dir → w ∈ vs.map Prod.fst ∨ w = c!"logs" ∨ w = c!"extensions") ∧
      ∀ v ∈ vs.map Prod.fst, look s (absComps E.cwd path ++ [v]) = some .dir := by
  obtain ⟨hd, spec, j, alg, cd, m, vs, states, style, n, h⟩ := (C73 hE hlax hw).mp ⟨es, hv⟩
  refine ⟨spec, j, alg, vs, h.supported, h.inventory, h.rules.digestAlgorithm.1, h.rules.versions, fun w => ⟨?_, ?_⟩, h.dirs, h.versionDirs⟩
  · rintro ⟨b, hb⟩
    exact h.files w b hb
  · rintro (rfl | rfl | rfl)
    · obtain ⟨b, _, hb, _⟩ := h.declaration
      exact ⟨b, hb⟩
    · obtain ⟨b, _, hb, _⟩ := h.inventory
      exact ⟨b, hb⟩
    · obtain ⟨nd, hnd⟩ := Option.ne_none_iff_exists'.mp h.sidecar.1
      cases nd with
      | file b => exact ⟨b, hnd⟩
      | dir =>
        rcases h.dirs _ hnd with hm | hm | hm
        · obtain ⟨i, _, _, hi⟩ := (h.rules.names.2.2.2 _).mp hm
          exact absurd hi.symm (styleName_ne (by simp))
        · simp at hm
        · simp at hm

/-! ## One `Validator` for several objects -/

/-- Once an error has been logged every later verdict is negative. -/
theorem C43_sticky {E : Env} {cfg : Config} {errors : Nat} (he : errors ≠ 0) {s : FS} {path : Str} {ok : Bool} {es : List Entry}
    (h : validateObject E cfg errors s path = .ok (ok, es)) : ok = false := by
  unfold validateObject at h
  split at h
  · cases h; rfl
  · cases h
  · unfold validateAt at h
    split at h
    · cases h
    · split at h
      · cases h
      · have := (Prod.mk.inj (Except.ok.inj h)).1
        rw [← this]
        simp
        omega
      · have := (Prod.mk.inj (Except.ok.inj h)).1
        rw [← this]
        simp
        omega

theorem verdict_errors {E : Env} {cfg : Config} {s : FS} {path : Str} {es : List Entry}
    (h : validateObject E cfg 0 s path = .ok (true, es)) : IV.numErrors es = 0 := by
  unfold validateObject at h
  split at h
  · cases h
  · cases h
  · unfold validateAt at h
    split at h
    · cases h
    · split at h
      · cases h
      · obtain ⟨h1, rfl⟩ := Prod.mk.inj (Except.ok.inj h)
        simpa using h1
      · obtain ⟨h1, rfl⟩ := Prod.mk.inj (Except.ok.inj h)
        simpa using h1

/-- **C43** (partial): the verdict on an object is the same as that of a new `Validator` if all objects
validated before were valid. If one was not, the verdict is negative whatever the object is like, see
`C43_sticky` and `C43_violated`. -/
theorem C43_partial {E : Env} {cfg : Config} {s : FS} {path : Str} : ∀ {paths : List Str},
    (∀ p ∈ paths, ∃ es, validateObject E cfg 0 s p = .ok (true, es)) →
    validateAll E cfg s 0 (paths ++ [path]) =
      match validateObject E cfg 0 s path with
      | .error e => .error e
      | .ok (ok, _) => .ok (paths.map (fun _ => true) ++ [ok])
  | [], _ => by
    simp only [List.nil_append, validateAll, List.map_nil]
    cases validateObject E cfg 0 s path with
    | error e => rfl
    | ok r => rfl
  | p :: ps, h => by
    obtain ⟨es, hp⟩ := h p (by simp)
    have ih := C43_partial (path := path) (paths := ps) (fun q hq => h q (by simp [hq]))
    rw [List.cons_append, validateAll, hp]
    dsimp only
    rw [verdict_errors hp, Nat.add_zero, ih]
    cases validateObject E cfg 0 s path with
    | error e => rfl
    | ok r => rfl

/-! ## Examples and counterexamples -/

theorem demoSame_str (a b : Str) : demoEnv.same (some (.str a)) (some (.str b)) = true ↔ a = b := by
  show (PyJson.dump 0 (Json.str a).sortKeys == PyJson.dump 0 (Json.str b).sortKeys) = true ↔ a = b
  rw [beq_iff_eq]
  constructor
  · intro h
    have ha := pyJson_lawful.loads (.str a) .str
    have hb := pyJson_lawful.loads (.str b) .str
    have h' : pyJson.dumps (.str a) = pyJson.dumps (.str b) := h
    rw [h', hb] at ha
    exact Json.str.inj (Option.some.inj ha).symm
  · rintro rfl
    rfl

theorem demoBlank (c : Char) (h : Blank c) : demoEnv.isWord c = false := by
  have hb : ∀ n ∈ [9, 10, 11, 12, 13, 28, 29, 30, 31, 32, 0x85, 0xa0, 0x1680, 0x2000, 0x2001, 0x2002, 0x2003, 0x2004,
      0x2005, 0x2006, 0x2007, 0x2008, 0x2009, 0x200a, 0x2028, 0x2029, 0x202f, 0x205f, 0x3000], demoWord (Char.ofNat n) = false := by
    decide
  have := hb c.toNat h
  rwa [Char.ofNat_toNat] at this

theorem demoLibraries : Libraries demoEnv where
  json := demoEnv_lawful
  hash := demoRaw_hash
  word := demoWord_class
  blank := demoBlank
  same := demoSame_str
  buflen := by decide

theorem accepted_object {E : Env} {cfg : Config} {s : FS} {path : Str}
    (h : (match validateObject E cfg 0 s path with | .ok (b, _) => b | .error _ => false) = true) :
    ∃ es, validateObject E cfg 0 s path = .ok (true, es) := by
  cases hr : validateObject E cfg 0 s path with
  | error e => rw [hr] at h; cases h
  | ok r =>
    obtain ⟨b, es⟩ := r
    rw [hr] at h
    exact ⟨es, by rw [show b = true from h]⟩

/-- An object of two versions is valid, so all of the above applies to it. -/
example : look demoGrown (absComps demoEnv.cwd c!"obj") = some .dir ∧ ValidObject demoEnv true demoGrown (absComps demoEnv.cwd c!"obj") :=
  (C73 demoLibraries (cfg := {}) rfl demoGrown_wf).mp (accepted_object (by decide +kernel))

/-- With one byte changed it is not. -/
example : objectVerdict demoEnv c!"obj" (demoGrown.map (fun e =>
    if e.1 = [c!"w", c!"obj", c!"v1", c!"content", c!"d", c!"b"] then (e.1, .file [5]) else e)) = some false := by decide +kernel

/-- An inventory with a content directory that has the name of the sidecar. -/
def hiddenInv : Json :=
  .obj [(c!"contentDirectory", .str c!"inventory.json.sha512"), (c!"digestAlgorithm", .str c!"sha512"), (c!"head", .str c!"v1"),
    (c!"id", .str c!"info:x"), (c!"manifest", .obj []), (c!"type", .str c!"https://ocfl.io/1.1/spec/#inventory"),
    (c!"versions", .obj [(c!"v1", .obj [(c!"created", .str c!"2020-01-01T00:00:00Z"), (c!"state", .obj [])])])]

/-- An object with a file in its content directory that is in no manifest. -/
def hiddenFS : FS :=
  [([c!"w"], .dir), ([c!"w", c!"obj"], .dir), ([c!"w", c!"obj", c!"0=ocfl_object_1.1"], .file (utf8 c!"ocfl_object_1.1\n")),
    ([c!"w", c!"obj", c!"inventory.json"], .file (utf8 (pyJson.dumps hiddenInv))),
    ([c!"w", c!"obj", c!"inventory.json.sha512"], .file []), ([c!"w", c!"obj", c!"v1"], .dir),
    ([c!"w", c!"obj", c!"v1", c!"inventory.json"], .file (utf8 (pyJson.dumps hiddenInv))),
    ([c!"w", c!"obj", c!"v1", c!"inventory.json.sha512"], .dir),
    ([c!"w", c!"obj", c!"v1", c!"inventory.json.sha512", c!"extra"], .file [1])]

theorem hiddenFS_wf : hiddenFS.WF where
  nk := by decide +kernel
  noRoot := by decide +kernel
  parent := by decide +kernel
  names := by decide +kernel

theorem hiddenInv_writable : hiddenInv.Writable := by
  unfold hiddenInv
  refine .obj (by simp only [Dict.NK, List.map_cons, List.map_nil]; decide) ?_
  simp only [List.mem_cons, List.not_mem_nil, or_false, forall_eq_or_imp, forall_eq]
  refine ⟨.str, .str, .str, .str, .obj Dict.NK_nil (by simp), .str, .obj (by simp [Dict.NK]) ?_⟩
  simp only [List.mem_cons, List.not_mem_nil, or_false, forall_eq]
  refine .obj (by simp only [Dict.NK, List.map_cons, List.map_nil]; decide) ?_
  simp only [List.mem_cons, List.not_mem_nil, or_false, forall_eq_or_imp, forall_eq]
  exact ⟨.str, .obj Dict.NK_nil (by simp)⟩

/-- **C39** fails without digest checking: the content directory of this object has the name of the
sidecar and is taken for it, so that the file in it goes unnoticed. -/
theorem C39_violated : ∃ s : FS, s.WF ∧ (∃ es, validateObject demoEnv { checkDigests := false } 0 s c!"obj" = .ok (true, es)) ∧
    ∃ j cd m vs, StoredJson demoEnv.lib s [c!"w", c!"obj", c!"inventory.json"] j ∧ ContentDir j cd ∧
      Member j c!"manifest" (ofDigestMap m) ∧ Member j c!"versions" (.obj vs) ∧
      ∃ p, p ∉ listed m ∧ ContentFiles s [c!"w", c!"obj"] (vs.map Prod.fst) cd p := by
  refine ⟨hiddenFS, hiddenFS_wf, accepted_object (by decide +kernel), hiddenInv, c!"inventory.json.sha512", [], 
    [(c!"v1", .obj [(c!"created", .str c!"2020-01-01T00:00:00Z"), (c!"state", .obj [])])], ?_, ?_, ?_, ?_, ?_⟩
  · refine ⟨utf8 (pyJson.dumps hiddenInv), pyJson.dumps hiddenInv, by decide +kernel, utf8Decode_utf8 _, ?_⟩
    rw [univNewlines_of_noCR (pyJson_lawful.noCR _ hiddenInv_writable)]
    exact pyJson_lawful.loads _ hiddenInv_writable
  · exact .inl ⟨⟨_, rfl, by simp⟩, by decide, by decide, by decide⟩
  · exact ⟨_, rfl, by simp [ofDigestMap]⟩
  · exact ⟨_, rfl, by simp⟩
  · exact ⟨c!"v1/inventory.json.sha512/extra", by simp [listed], c!"v1", [c!"extra"], [1], by simp, by simp, by decide, by decide +kernel⟩

/-- The object of the examples without the inventory of its version. -/
def demoBare : FS := demoMade.filter (fun e =>
  decide (e.1 ≠ [c!"w", c!"obj", c!"v1", c!"inventory.json"] ∧ e.1 ≠ [c!"w", c!"obj", c!"v1", c!"inventory.json.sha256"]))

theorem demoBare_wf : demoBare.WF where
  nk := by decide +kernel
  noRoot := by decide +kernel
  parent := by decide +kernel
  names := by decide +kernel

/-- **C41** fails: the last version need not have an inventory (there is only a warning). -/
theorem C41_violated : ∃ s : FS, s.WF ∧ (∃ es, validateObject demoEnv {} 0 s c!"obj" = .ok (true, es)) ∧
    look s [c!"w", c!"obj", c!"v1", c!"inventory.json"] ≠ look s [c!"w", c!"obj", c!"inventory.json"] :=
  ⟨demoBare, demoBare_wf, accepted_object (by decide +kernel), by decide +kernel⟩

/-- The object of the examples with a blank at the end of the sidecar of its version. -/
def demoSpaced : FS := demoMade.map (fun e =>
  if e.1 = [c!"w", c!"obj", c!"v1", c!"inventory.json.sha256"] then
    match e.2 with
    | .file b => (e.1, .file (b ++ [32]))
    | .dir => e
  else e)

theorem demoSpaced_wf : demoSpaced.WF where
  nk := by decide +kernel
  noRoot := by decide +kernel
  parent := by decide +kernel
  names := by decide +kernel

/-- **C41** fails: the sidecar of the last version may have other bytes than that in the root. -/
theorem C41_violated_sidecar : ∃ s : FS, s.WF ∧ (∃ es, validateObject demoEnv {} 0 s c!"obj" = .ok (true, es)) ∧
    look s [c!"w", c!"obj", c!"v1", c!"inventory.json.sha256"] ≠ look s [c!"w", c!"obj", c!"inventory.json.sha256"] ∧
    look s [c!"w", c!"obj", c!"v1", c!"inventory.json.sha256"] ≠ none :=
  ⟨demoSpaced, demoSpaced_wf, accepted_object (by decide +kernel), by decide +kernel, by decide +kernel⟩

/-- **C43** fails: after a directory that is no object, a valid object is reported invalid. -/
theorem C43_violated : ∃ (s : FS) (p q : Str), s.WF ∧ validateAll demoEnv {} s 0 [q] = .ok [true] ∧
    validateAll demoEnv {} s 0 [p, q] = .ok [false, false] :=
  ⟨demoMade, c!"src", c!"obj", demoMade_wf, by decide +kernel, by decide +kernel⟩

/-- Two valid objects, or one twice. -/
example : validateAll demoEnv {} demoMade 0 [c!"obj", c!"obj"] = .ok [true, true] := by decide +kernel

end Ocfl
