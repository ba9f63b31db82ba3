import Verif.Proofs.PriorVersion
import Verif.Proofs.Reorder

/-!
# C29 to C38, C72: what the inventory validator accepts

`j.WF` says that no object in `j` has a key twice, which is true of every value Python's `json`
returns.
-/

namespace Ocfl
open IV V Spec

/-- `InventoryValidator.validate` returns `True`. -/
def Accepts (isWord : Char → Bool) (lax : Bool) (defaultSpec : Str) (force : Option Str) (j : Json) : Prop :=
  ∃ res es, validate isWord lax defaultSpec force j = .ok (res, true, es)

/-! ## A family of inventories for examples -/

/-- ASCII version of `\w`. -/
def isWordEx (c : Char) : Bool := c.isAlphanum || c = '_'

def ivDigest : Str := List.replicate 128 'a'

/-- An inventory with one version and one digest. -/
def ivEx (type digest : Str) (content logical : List Str) (fixity : List (Str × Json)) : Json :=
  .obj [(c!"id", .str c!"urn:x"), (c!"type", .str type), (c!"digestAlgorithm", .str c!"sha512"),
    (c!"head", .str c!"v1"), (c!"manifest", ofDigestMap [(digest, content)]),
    (c!"versions", .obj [(c!"v1", .obj [(c!"created", .str c!"2024-02-29T10:11:12Z"), (c!"state", ofDigestMap [(digest, logical)])])]),
    (c!"fixity", .obj fixity)]

/-- The verdict of the validator, `none` if it raises. -/
def verdict (j : Json) : Option Bool := (validate isWordEx false c!"1.1" none j).toOption.map (·.2.1)

theorem accepts_of_verdict {j : Json} (h : verdict j = some true) : Accepts isWordEx false c!"1.1" none j := by
  unfold verdict at h
  cases hv : validate isWordEx false c!"1.1" none j with
  | error e => rw [hv] at h; cases h
  | ok r =>
    obtain ⟨res, ok, es⟩ := r
    rw [hv] at h
    have : ok = true := by simpa [Except.toOption] using h
    subst this
    exact ⟨res, es, hv⟩

theorem raises_of_verdict {j : Json} (h : verdict j = none) : ∃ e, validate isWordEx false c!"1.1" none j = .error e := by
  unfold verdict at h
  cases hv : validate isWordEx false c!"1.1" none j with
  | error e => exact ⟨e, rfl⟩
  | ok r => rw [hv] at h; cases h

theorem wf_ofDigestMap {m : List (Str × List Str)} (h : (m.map Prod.fst).Nodup) : (ofDigestMap m).WF := by
  refine .obj ?_ ?_
  · unfold Dict.NK
    show (List.map Prod.fst (m.map (fun e => (e.1, Json.arr (e.2.map .str))))).Nodup
    rwa [List.map_map]
  · intro p hp
    obtain ⟨e, _, rfl⟩ := List.mem_map.mp hp
    refine .arr ?_
    intro x hx
    obtain ⟨s, _, rfl⟩ := List.mem_map.mp hx
    exact .str

theorem ivEx_wf {type digest : Str} {content logical : List Str} {fixity : List (Str × Json)} (h : (Json.obj fixity).WF) :
    (ivEx type digest content logical fixity).WF := by
  have hm : ∀ ps : List Str, (ofDigestMap [(digest, ps)]).WF := fun ps => wf_ofDigestMap (by simp)
  refine .obj (by simp [Dict.NK]) ?_
  intro p hp
  simp only [List.mem_cons, List.not_mem_nil, or_false] at hp
  rcases hp with rfl | rfl | rfl | rfl | rfl | rfl | rfl
  · exact .str
  · exact .str
  · exact .str
  · exact .str
  · exact hm _
  · refine .obj (by simp [Dict.NK]) ?_
    intro p hp
    rw [List.mem_singleton.mp hp]
    refine .obj (by simp [Dict.NK]) ?_
    intro p hp
    simp only [List.mem_cons, List.not_mem_nil, or_false] at hp
    rcases hp with rfl | rfl
    · exact .str
    · exact hm _
  · exact h

/-! ## C37 -/

/-- **C37**: the validator returns `True` exactly for the inventories that obey the declarative
rules, whatever the order of checking. -/
theorem C37 {isWord : Char → Bool} {lax : Bool} {ds : Str} {force : Option Str} {j : Json} (hwf : j.WF) :
    Accepts isWord lax ds force j ↔ ValidInventory lax force j := validate_iff hwf

/-- **C37**: the verdict does not depend on the order of keys in any of the JSON objects. -/
theorem C37_order {isWord : Char → Bool} {lax : Bool} {ds : Str} {force : Option Str} {j j' : Json} (hwf : j.WF)
    (h : Reorder j j') : Accepts isWord lax ds force j ↔ Accepts isWord lax ds force j' := by
  rw [C37 hwf, C37 (wf_reorder h hwf)]
  exact ⟨validInventory_reorder hwf h, validInventory_reorder (wf_reorder h hwf) h.symm⟩

/-- A valid inventory, accepted. -/
example : Accepts isWordEx false c!"1.1" none (ivEx (typeUri c!"1.1") ivDigest [c!"v1/content/a"] [c!"a"]
    [(c!"md5", ofDigestMap [(List.replicate 32 'b', [c!"v1/content/a"])])]) ∧
    (ivEx (typeUri c!"1.1") ivDigest [c!"v1/content/a"] [c!"a"]
    [(c!"md5", ofDigestMap [(List.replicate 32 'b', [c!"v1/content/a"])])]).WF :=
  ⟨accepts_of_verdict (by decide +kernel), ivEx_wf (.obj (by unfold Dict.NK; decide) (by
    intro p hp
    rw [List.mem_singleton.mp hp]
    exact wf_ofDigestMap (by simp)))⟩

/-- Not everything is accepted: here a digest is not in the manifest. -/
example : verdict (ivEx (typeUri c!"1.1") ivDigest [] [c!"a"] []) = some false := by decide +kernel

/-- A reordering. -/
example : Reorder (.obj [(c!"a", .null), (c!"b", .obj [(c!"x", .null), (c!"y", .str [])])])
    (.obj [(c!"b", .obj [(c!"y", .str []), (c!"x", .null)]), (c!"a", .null)]) :=
  .trans (.value (a := [(c!"a", .null)]) (b := []) (.members (List.Perm.swap ..))) (.members (List.Perm.swap ..))

/-! ## C29 -/

/-- **C29**: the version sequence check passes exactly when the names are those of versions `1` to
`n` in one style. The largest `n` is 999999 for unpadded names, and padded names of width `w` (2 to
10 digits) must start with a zero. -/
theorem C29 {j : Json} (hwf : j.WF) :
    (∃ r es, validateVersionSequence j = .done r es ∧ numErrors es = 0) ↔
      ∃ vs style n, j = .obj vs ∧ VersionNames (vs.map Prod.fst) style n := by
  have hk : ∀ vs, j = .obj vs → Dict.NK vs := by
    rintro vs rfl; exact (wf_obj hwf).1
  constructor
  · rintro ⟨r, es, h1, h2⟩
    obtain ⟨vs, style, n, h3, h4, _⟩ := (clean_validateVersionSequence hk).mp ⟨es, h1, h2⟩
    exact ⟨vs, style, n, h3, h4⟩
  · rintro ⟨vs, style, n, h3, h4⟩
    obtain ⟨es, h1, h2⟩ := (clean_validateVersionSequence hk).mpr ⟨vs, style, n, h3, h4, rfl⟩
    exact ⟨_, es, h1, h2⟩

/-- **C29**: in an accepted inventory `head` names the last version. -/
theorem C29_head {isWord : Char → Bool} {lax : Bool} {ds : Str} {force : Option Str} {j : Json} (hwf : j.WF)
    (h : Accepts isWord lax ds force j) :
    ∃ vs style n, Member j c!"versions" (.obj vs) ∧ VersionNames (vs.map Prod.fst) style n ∧
      Member j c!"head" (.str (styleName style n)) := by
  obtain ⟨alg, cd, m, vs, states, style, n, hr⟩ := (C37 hwf).mp h
  exact ⟨vs, style, n, hr.versions, hr.names, hr.head⟩

example : VersionNames [c!"v2", c!"v1", c!"v3"] none 3 := by
  refine ⟨by simp, by decide, by decide, fun v => ?_⟩
  constructor
  · intro h
    simp only [List.mem_cons, List.not_mem_nil, or_false] at h
    rcases h with rfl | rfl | rfl
    · exact ⟨2, by decide, by decide, by decide⟩
    · exact ⟨1, by decide, by decide, by decide⟩
    · exact ⟨3, by decide, by decide, by decide⟩
  · rintro ⟨i, h1, h2, rfl⟩
    have : i = 1 ∨ i = 2 ∨ i = 3 := by omega
    rcases this with rfl | rfl | rfl <;> decide

/-! ## C30 -/

/-- **C30**, except: if no specification version is forced the period in `ocfl.io` may be any
character and anything may follow the type; `contentDirectory` may be the empty string. -/
theorem C30_partial {isWord : Char → Bool} {lax : Bool} {ds : Str} {force : Option Str} {j : Json} (hwf : j.WF)
    (h : Accepts isWord lax ds force j) :
    (∃ s, s ≠ [] ∧ Member j c!"id" (.str s)) ∧
    (∃ t, Member j c!"type" (.str t) ∧ (∀ f, force = some f → f ≠ [] → t = typeUri f) ∧
      ∃ c v rest, v ∈ supported ∧ t = c!"https://ocfl" ++ [c] ++ c!"io/" ++ v ++ c!"/spec/#inventory" ++ rest) ∧
    (∃ alg, Member j c!"digestAlgorithm" alg ∧ (lax = false → alg = .str c!"sha512" ∨ alg = .str c!"sha256")) ∧
    (∀ x, Member j c!"contentDirectory" x → ∃ cd, x = .str cd ∧ (cd ≠ [] → Safe cd)) ∧
    (∃ m, Member j c!"manifest" (ofDigestMap m)) ∧
    (∃ vs, Member j c!"versions" (.obj vs) ∧ ∃ v b, (v, b) ∈ vs ∧ Member j c!"head" (.str v)) := by
  obtain ⟨alg, cd, m, vs, states, style, n, hr⟩ := (C37 hwf).mp h
  refine ⟨hr.id, ?_, ⟨alg, hr.digestAlgorithm.1, ?_⟩, ?_, ⟨m, hr.manifest⟩, vs, hr.versions, ?_⟩
  · obtain ⟨t, htm, hf, c, v, rest, hc, hv, ht⟩ := hr.type
    exact ⟨t, htm, hf, c, v, rest, hv, ht⟩
  · intro hl
    have := hr.digestAlgorithm.2
    unfold AlgRule at this
    simpa [hl] using this
  · intro x hx
    rcases hr.contentDirectory with ⟨h1, h2, h3, h4⟩ | ⟨h1, _⟩
    · obtain ⟨d, rfl, hd⟩ := id hx
      have hk := (wf_obj hwf).1
      rw [member_iff hk] at hx h1
      rw [h1] at hx
      cases hx
      exact ⟨cd, rfl, fun hne => ⟨hne, h3, h4, h2⟩⟩
    · exact absurd hx (h1 x)
  · have hn := (hr.names.2.2.2 (styleName style n)).mpr ⟨n, hr.names.2.1, le_refl _, rfl⟩
    obtain ⟨⟨v, b⟩, hvb, hv⟩ := List.mem_map.mp hn
    have hv : v = styleName style n := hv
    exact ⟨v, b, hvb, by rw [hv]; exact hr.head⟩

/-- The type is not checked exactly. -/
theorem C30_type_unchecked : ∃ t, t ∉ supported.map typeUri ∧
    Accepts isWordEx false c!"1.1" none (ivEx t ivDigest [c!"v1/content/a"] [c!"a"] []) :=
  ⟨c!"https://ocflXio/1.0/spec/#inventoryJUNK", by decide, accepts_of_verdict (by decide +kernel)⟩

/-- An empty content directory is accepted (with an empty manifest). -/
theorem C30_empty_contentDirectory : ∃ j, Member j c!"contentDirectory" (.str []) ∧ Accepts isWordEx false c!"1.1" none j :=
  ⟨.obj [(c!"contentDirectory", .str []), (c!"id", .str c!"urn:x"), (c!"type", .str (typeUri c!"1.0")),
    (c!"digestAlgorithm", .str c!"sha512"), (c!"head", .str c!"v1"), (c!"manifest", .obj []),
    (c!"versions", .obj [(c!"v1", .obj [(c!"created", .str c!"2024-02-29T10:11:12Z"), (c!"state", .obj [])])])],
    ⟨_, rfl, by simp⟩, accepts_of_verdict (by decide +kernel)⟩

/-! ## C31 -/

/-- The digest algorithm, manifest, version blocks and states of an inventory. -/
def Parts (j alg : Json) (m : List (Str × List Str)) (vs : List (Str × Json)) (states : Str → List (Str × List Str)) : Prop :=
  Member j c!"digestAlgorithm" alg ∧ View j m vs states

/-- An accepted inventory has these parts. -/
theorem parts_of_accepts {isWord : Char → Bool} {lax : Bool} {ds : Str} {force : Option Str} {j : Json} (hwf : j.WF)
    (h : Accepts isWord lax ds force j) : ∃ alg m vs states, Parts j alg m vs states := by
  obtain ⟨alg, cd, m, vs, states, style, n, hr⟩ := (C37 hwf).mp h
  exact ⟨alg, m, vs, states, hr.digestAlgorithm.1, view_of_rules hr⟩

/-- The rules, for given parts. -/
theorem rules_of_parts {isWord : Char → Bool} {lax : Bool} {ds : Str} {force : Option Str} {j : Json} (hwf : j.WF)
    (h : Accepts isWord lax ds force j) {alg : Json} {m : List (Str × List Str)} {vs : List (Str × Json)}
    {states : Str → List (Str × List Str)} (hp : Parts j alg m vs states) :
    ∃ cd states' style n, RulesWith lax force j alg cd m vs states' style n ∧ ∀ v ∈ vs.map Prod.fst, states v = states' v := by
  obtain ⟨alg', cd, m', vs', states', style, n, hr⟩ := (C37 hwf).mp h
  obtain ⟨ha, hv⟩ := hp
  obtain ⟨d, rfl, hd⟩ := id ha
  have hk := (wf_obj hwf).1
  have ha' := hr.digestAlgorithm.1
  rw [member_iff hk] at ha ha'
  rw [ha] at ha'
  cases ha'
  obtain ⟨rfl, rfl, hst⟩ := view_unique hwf hv (view_of_rules hr)
  exact ⟨cd, states', style, n, hr, hst⟩

/-- **C31**, except that a newline at the end of a digest is not noticed: digests are well formed up
to a final newline, no two digests of the manifest are the same up to case, no content path occurs
twice, and in no version a logical path occurs twice. -/
theorem C31_partial {isWord : Char → Bool} {lax : Bool} {ds : Str} {force : Option Str} {j : Json} (hwf : j.WF)
    (h : Accepts isWord lax ds force j) {alg : Json} {m : List (Str × List Str)} {vs : List (Str × Json)}
    {states : Str → List (Str × List Str)} (hp : Parts j alg m vs states) :
    (∀ e ∈ m, e.1.getLast? ≠ some '\n' → DigestForm (algName alg) e.1) ∧
    m.Pairwise (fun a b => ¬ SameDigest (algName alg) a.1 b.1) ∧
    PathsUnique m ∧ ∀ v ∈ vs.map Prod.fst, PathsUnique (states v) := by
  obtain ⟨cd, states', style, n, hr, hst⟩ := rules_of_parts hwf h hp
  refine ⟨?_, hr.manifestRules.distinct, hr.manifestRules.unique, ?_⟩
  · intro e he hn
    rcases hr.manifestRules.digests e he with hd | ⟨d', hd, _⟩
    · exact hd
    · rw [hd] at hn; simp at hn
  · intro v hv
    rw [hst v hv]
    obtain ⟨⟨v', b⟩, hvb, rfl⟩ := List.mem_map.mp hv
    exact (hr.versionRules _ _ hvb).unique

/-- A digest with a newline at the end is accepted. -/
theorem C31_newline : ¬ DigestForm c!"sha512" (ivDigest ++ ['\n']) ∧
    Accepts isWordEx false c!"1.1" none (ivEx (typeUri c!"1.1") (ivDigest ++ ['\n']) [c!"v1/content/a"] [c!"a"] []) := by
  refine ⟨?_, accepts_of_verdict (by decide +kernel)⟩
  intro h
  have := (h.1 128 (by decide)).1
  exact absurd this (by decide +kernel)

/-- The same digest in two cases is refused. -/
example : verdict (.obj [(c!"id", .str c!"urn:x"), (c!"type", .str (typeUri c!"1.1")), (c!"digestAlgorithm", .str c!"sha512"),
    (c!"head", .str c!"v1"), (c!"manifest", ofDigestMap [(ivDigest, [c!"v1/content/a"]), (List.replicate 128 'A', [c!"v1/content/b"])]),
    (c!"versions", .obj [(c!"v1", .obj [(c!"created", .str c!"2024-02-29T10:11:12Z"), (c!"state", ofDigestMap [(ivDigest, [c!"a"]), (List.replicate 128 'A', [c!"b"])])])])]) = some false := by
  decide +kernel

/-! ## C32 -/

/-- **C32**, except for content paths with a newline: a content path is
`<existing version>/<content directory>/<safe segments>`; a logical path is relative with safe
segments only. -/
theorem C32_partial {isWord : Char → Bool} {lax : Bool} {ds : Str} {force : Option Str} {j : Json} (hwf : j.WF)
    (h : Accepts isWord lax ds force j) {alg : Json} {m : List (Str × List Str)} {vs : List (Str × Json)}
    {states : Str → List (Str × List Str)} (hp : Parts j alg m vs states) :
    (∃ cd, ContentDir j cd ∧ ∀ p ∈ listed m, '\n' ∉ p → ∃ v ∈ vs.map Prod.fst, ∃ segs, segs ≠ [] ∧ Safe cd ∧
      (∀ s ∈ segs, Safe s) ∧ p = pathOf (v :: cd :: segs)) ∧
    ∀ v ∈ vs.map Prod.fst, ∀ p ∈ listed (states v), ∃ segs, segs ≠ [] ∧ (∀ s ∈ segs, Safe s) ∧ p = pathOf segs := by
  obtain ⟨cd, states', style, n, hr, hst⟩ := rules_of_parts hwf h hp
  refine ⟨⟨cd, hr.contentDirectory, ?_⟩, ?_⟩
  · intro p hp hn
    obtain ⟨v, hv, segs, h1, h2, h3, tail, h4, h5⟩ := hr.manifestRules.paths p hp
    refine ⟨v, hv, segs, h2, ?_, fun s hs => (h3 s hs).1, ?_⟩
    · rcases hr.contentDirectory with ⟨_, c1, c2, c3⟩ | ⟨_, rfl⟩
      · exact ⟨h1, c2, c3, c1⟩
      · exact ⟨h1, by decide, by decide, by decide⟩
    · rcases h5 with rfl | ⟨h5, _⟩
      · simpa using h4
      · exfalso
        apply hn
        rw [h4]
        exact List.mem_append_right _ (List.mem_of_mem_head? h5)
  · intro v hv p hp
    rw [hst v hv] at hp
    obtain ⟨⟨v', b⟩, hvb, rfl⟩ := List.mem_map.mp hv
    exact (hr.versionRules _ _ hvb).paths p hp

/-- A content path that leads out of the object is accepted if a newline comes first. -/
theorem C32_newline : Accepts isWordEx false c!"1.1" none
    (ivEx (typeUri c!"1.1") ivDigest [c!"v1/content/a\n/../../../../x"] [c!"a"] []) :=
  accepts_of_verdict (by decide +kernel)

/-- Without the newline it is refused. -/
example : verdict (ivEx (typeUri c!"1.1") ivDigest [c!"v1/content/a/../../../../x"] [c!"a"] []) = some false := by
  decide +kernel

/-! ## C33 -/

/-- **C33**, only for the directory in which a path lies: no content path and no logical path is the
directory of another. Directories further up are not checked. -/
theorem C33_partial {isWord : Char → Bool} {lax : Bool} {ds : Str} {force : Option Str} {j : Json} (hwf : j.WF)
    (h : Accepts isWord lax ds force j) {alg : Json} {m : List (Str × List Str)} {vs : List (Str × Json)}
    {states : Str → List (Str × List Str)} (hp : Parts j alg m vs states) :
    (∀ p q seg, p ∈ listed m → q ∈ listed m → '\n' ∉ q → '/' ∉ seg → q ≠ p ++ '/' :: seg) ∧
    ∀ v ∈ vs.map Prod.fst, ∀ p q seg, p ∈ listed (states v) → q ∈ listed (states v) → '/' ∉ seg → q ≠ p ++ '/' :: seg := by
  obtain ⟨cd, states', style, n, hr, hst⟩ := rules_of_parts hwf h hp
  have hlast : ∀ (p seg : Str), '/' ∉ seg → splitOn '/' (p ++ '/' :: seg) = splitOn '/' p ++ [seg] := by
    intro p seg hs
    have h1 : joinWith '/' (splitOn '/' p ++ [seg]) = p ++ '/' :: seg := by
      rw [joinWith_append (splitOn_ne_nil _ _) (by simp), joinWith_splitOn]
      rfl
    rw [← h1, splitOn_joinWith (by simp)]
    intro w hw
    rcases List.mem_append.mp hw with hw | hw
    · exact splitOn_no_sep hw
    · rw [List.mem_singleton.mp hw]; exact hs
  have hvf : ∀ v ∈ vs.map Prod.fst, '/' ∉ v := by
    intro v hv
    obtain ⟨i, _, _, rfl⟩ := (hr.names.2.2.2 v).mp hv
    exact (vform_styleName style i).no_slash
  refine ⟨?_, ?_⟩
  · rintro p q seg hpm hqm hn hseg rfl
    obtain ⟨v, hv, segs, hc⟩ := hr.manifestRules.paths _ hqm
    have hnc := hr.manifestRules.noConflict _ hqm v hv segs hc
    obtain ⟨h1, h2, h3, tail, h4, h5⟩ := hc
    rcases h5 with rfl | ⟨h5, _⟩
    · apply hnc
      rw [List.append_nil] at h4
      have hcd : '/' ∉ cd := by
        rcases hr.contentDirectory with ⟨_, c1, _⟩ | ⟨_, rfl⟩
        · exact c1
        · decide
      have hsp := congrArg (splitOn '/') h4
      rw [hlast _ _ hseg, splitOn_pathOf (by simp) (by
        intro s hs
        simp only [List.mem_cons] at hs
        rcases hs with rfl | rfl | hs
        · exact hvf _ hv
        · exact hcd
        · exact (h3 s hs).1.2.2.2)] at hsp
      have hdl := congrArg List.dropLast hsp
      rw [List.dropLast_concat] at hdl
      have : pathOf (splitOn '/' p) = p := pathOf_splitOn p
      rw [hdl] at this
      have hne : (v :: cd :: segs).dropLast = v :: cd :: segs.dropLast := by
        rw [List.dropLast_cons_of_ne_nil (by simp), List.dropLast_cons_of_ne_nil h2]
      rw [hne] at this
      rw [this]
      exact hpm
    · exact hn (by rw [h4]; exact List.mem_append_right _ (List.mem_of_mem_head? h5))
  · rintro v hv p q seg hpm hqm hseg rfl
    rw [hst v hv] at hpm hqm
    obtain ⟨⟨v', b⟩, hvb, rfl⟩ := List.mem_map.mp hv
    have hvr := hr.versionRules _ _ hvb
    obtain ⟨segs, hs⟩ := hvr.paths _ hqm
    apply hvr.noConflict _ hqm segs hs
    obtain ⟨h1, h2, h3⟩ := hs
    have hsp := congrArg (splitOn '/') h3
    rw [hlast _ _ hseg, splitOn_pathOf h1 (fun s hs => (h2 s hs).2.2.2)] at hsp
    have hdl := congrArg List.dropLast hsp
    rw [List.dropLast_concat] at hdl
    rw [← hdl, pathOf_splitOn]
    exact hpm

/-- A path that is also a directory further up is accepted, in the manifest and in the state. -/
theorem C33_deep_conflict : Accepts isWordEx false c!"1.1" none
    (ivEx (typeUri c!"1.1") ivDigest [c!"v1/content/a", c!"v1/content/a/b/c"] [c!"a", c!"a/b/c"] []) :=
  accepts_of_verdict (by decide +kernel)

/-- One level up the conflict is noticed. -/
example : verdict (ivEx (typeUri c!"1.1") ivDigest [c!"v1/content/a"] [c!"a", c!"a/b"] []) = some false := by decide +kernel

/-! ## C34 -/

/-- **C34**: every digest in a state is a digest of the manifest with content, and every digest of the
manifest with content is in a state. -/
theorem C34 {isWord : Char → Bool} {lax : Bool} {ds : Str} {force : Option Str} {j : Json} (hwf : j.WF)
    (h : Accepts isWord lax ds force j) {alg : Json} {m : List (Str × List Str)} {vs : List (Str × Json)}
    {states : Str → List (Str × List Str)} (hp : Parts j alg m vs states) :
    (∀ v ∈ vs.map Prod.fst, ∀ e ∈ states v, ∃ ps, ps ≠ [] ∧ (e.1, ps) ∈ m) ∧
    (∀ d ps, (d, ps) ∈ m → ps ≠ [] → ∃ v ∈ vs.map Prod.fst, ∃ ps', (d, ps') ∈ states v) := by
  obtain ⟨cd, states', style, n, hr, hst⟩ := rules_of_parts hwf h hp
  refine ⟨?_, ?_⟩
  · intro v hv e he
    rw [hst v hv] at he
    obtain ⟨⟨v', b⟩, hvb, rfl⟩ := List.mem_map.mp hv
    exact (hr.versionRules _ _ hvb).digests e he
  · intro d ps hd hne
    obtain ⟨v, hv, ps', hps⟩ := hr.used d ps hd hne
    exact ⟨v, hv, ps', by rw [hst v hv]; exact hps⟩

/-- The hypotheses of C31 to C34 can be met. -/
example : ∃ alg m vs states, m ≠ [] ∧
    Parts (ivEx (typeUri c!"1.1") ivDigest [c!"v1/content/a"] [c!"a"] []) alg m vs states ∧
    Accepts isWordEx false c!"1.1" none (ivEx (typeUri c!"1.1") ivDigest [c!"v1/content/a"] [c!"a"] []) :=
  ⟨.str c!"sha512", [(ivDigest, [c!"v1/content/a"])],
    [(c!"v1", .obj [(c!"created", .str c!"2024-02-29T10:11:12Z"), (c!"state", ofDigestMap [(ivDigest, [c!"a"])])])],
    fun _ => [(ivDigest, [c!"a"])], by simp,
    ⟨⟨_, rfl, by simp⟩, ⟨_, rfl, by simp⟩, ⟨_, rfl, by simp⟩, fun v b hb => by
      simp only [List.mem_cons, Prod.mk.injEq, List.not_mem_nil, or_false] at hb
      obtain ⟨rfl, rfl⟩ := hb
      exact ⟨_, rfl, by simp⟩⟩,
    accepts_of_verdict (by decide +kernel)⟩

/-! ## C35 -/

/-- **C35**, except that a path may be listed twice for one algorithm: paths in the fixity block are
content paths of the manifest, and no digest is repeated up to case for an algorithm the library
knows. -/
theorem C35_partial {isWord : Char → Bool} {lax : Bool} {ds : Str} {force : Option Str} {j : Json} (hwf : j.WF)
    (h : Accepts isWord lax ds force j) {alg : Json} {m : List (Str × List Str)} {vs : List (Str × Json)}
    {states : Str → List (Str × List Str)} (hp : Parts j alg m vs states) {fx : Json} (hfx : Member j c!"fixity" fx) :
    (∃ d, fx = .obj d) ∧ ∀ falg b, Member fx falg b → (lax = false → KnownAlg falg) ∧
      ∃ fm, b = ofDigestMap fm ∧ (∀ p ∈ listed fm, p ∈ listed m) ∧
        (KnownAlg falg → fm.Pairwise (fun x y => ¬ SameDigest falg x.1 y.1)) := by
  obtain ⟨cd, states', style, n, hr, hst⟩ := rules_of_parts hwf h hp
  obtain ⟨h1, h2⟩ := hr.fixity fx hfx
  refine ⟨h1, fun falg b hb => ?_⟩
  obtain ⟨h3, fm, h4, h5, h6, h7⟩ := h2 falg b hb
  exact ⟨h3, fm, h4, h7, h6⟩

/-- A path listed twice for one algorithm is accepted. -/
theorem C35_path_twice : Accepts isWordEx false c!"1.1" none (ivEx (typeUri c!"1.1") ivDigest [c!"v1/content/a"] [c!"a"]
    [(c!"md5", ofDigestMap [(List.replicate 32 'b', [c!"v1/content/a"]), (List.replicate 32 'c', [c!"v1/content/a", c!"v1/content/a"])])]) :=
  accepts_of_verdict (by decide +kernel)

/-! ## C36 -/

/-- **C36**, for documents that are objects with a manifest, whose version blocks are objects and
whose lists of paths are lists of strings: the validator gives a verdict. -/
theorem C36_partial {isWord : Char → Bool} {lax : Bool} {ds : Str} {force : Option Str} {j : Json} (hwf : j.WF)
    (h : Shape lax j) : ∃ res ok es, validate isWord lax ds force j = .ok (res, ok, es) := by
  obtain ⟨⟨res, ok, es⟩, hr⟩ := noRaise_validate (isWord := isWord) (ds := ds) (force := force) hwf h
  exact ⟨res, ok, es, hr⟩

/-- A document of that shape with nothing else right. -/
example : Shape false (.obj [(c!"manifest", .null), (c!"versions", .obj [(c!"v1", .obj [])]), (c!"fixity", .str [])]) ∧
    verdict (.obj [(c!"manifest", .null), (c!"versions", .obj [(c!"v1", .obj [])]), (c!"fixity", .str [])]) = some false := by
  refine ⟨⟨⟨.null, ⟨_, rfl, by simp⟩, ?_⟩, by simp, ?_, ?_, ?_⟩, by decide +kernel⟩
  · rintro d l ⟨_, h, _⟩; cases h
  · rintro vs v b ⟨d, hd, hm⟩ ⟨d', rfl, hm'⟩
    cases hd
    simp at hm
    subst hm
    simp at hm'
    exact ⟨[], hm'.2⟩
  · rintro vs v b st ⟨d, hd, hm⟩ ⟨d', rfl, hm'⟩ ⟨d'', rfl, hm''⟩
    cases hd
    simp at hm
    subst hm
    simp at hm'
    rw [hm'.2] at hm''
    simp at hm''
  · rintro fx alg b d l ⟨d1, hd, hm⟩ ⟨d', rfl, hm'⟩
    cases hd
    simp at hm

/-- The validator raises for `null`, ... -/
theorem C36_raises_null : ∃ e, validate isWordEx false c!"1.1" none .null = .error e := raises_of_verdict (by decide +kernel)

/-- ... if there is a state but no manifest, ... -/
theorem C36_raises_no_manifest : ∃ e, validate isWordEx false c!"1.1" none (.obj [(c!"versions", .obj [(c!"v1",
    .obj [(c!"state", ofDigestMap [(ivDigest, [c!"a"])])])])]) = .error e := raises_of_verdict (by decide +kernel)

/-- ... if a version block is a number, ... -/
theorem C36_raises_version : ∃ e, validate isWordEx false c!"1.1" none (.obj [(c!"manifest", .obj []), (c!"versions",
    .obj [(c!"v1", .num c!"1")])]) = .error e := raises_of_verdict (by decide +kernel)

/-- ... if a path is a number, ... -/
theorem C36_raises_path : ∃ e, validate isWordEx false c!"1.1" none (.obj [(c!"manifest",
    .obj [(ivDigest, .arr [.num c!"1"])])]) = .error e := raises_of_verdict (by decide +kernel)

/-- ... and with lax digests if `digestAlgorithm` is a list. -/
theorem C36_raises_alg : ∃ e, validate isWordEx true c!"1.1" none (.obj [(c!"digestAlgorithm", .arr []), (c!"manifest",
    .obj [(c!"d", .arr [])])]) = .error e := ⟨.typeError, rfl⟩

/-! ## C38 -/

/-- **C38**: for two inventories that were accepted by themselves, `validate_as_prior_version` gives a
verdict, and it is `True` exactly if the later inventory continues the history of the earlier one:
strictly more versions, and for each version of the earlier one the same logical paths, each with
at least the content files it had, and (for the same digest algorithm) the same digests. `same` is
Python's equality. -/
theorem C38 {isWord isWord' : Char → Bool} {lax lax' : Bool} {ds ds' : Str} {force force' : Option Str}
    {same : Option Json → Option Json → Bool} (hsame : ∀ a b : Str, same (some (.str a)) (some (.str b)) = true ↔ a = b)
    {later earlier : Json} (hwf : earlier.WF) (hwf' : later.WF) {res res' : Result} {es es' : List Entry}
    (h : validate isWord lax ds force earlier = .ok (res, true, es))
    (h' : validate isWord' lax' ds' force' later = .ok (res', true, es'))
    {a a' : Str} (ha : Member earlier c!"digestAlgorithm" (.str a)) (ha' : Member later c!"digestAlgorithm" (.str a')) :
    (∃ x, validateAsPriorVersion same (later, res') (earlier, res) = .ok x) ∧
    ((∃ ws, validateAsPriorVersion same (later, res') (earlier, res) = .ok (true, ws)) ↔ Continues later earlier) := by
  obtain ⟨m, vs, states, hacc⟩ := acc_of_accepted hwf h
  obtain ⟨m', vs', states', hacc'⟩ := acc_of_accepted hwf' h'
  refine ⟨prior_noRaise hacc hacc', ?_⟩
  have halg : res.digestAlgorithm = .str a := by
    have := hacc.alg
    obtain ⟨d, rfl, _⟩ := id ha
    rw [member_iff (wf_obj hwf).1] at ha this
    rw [ha] at this
    exact (Option.some.inj this).symm
  have halg' : res'.digestAlgorithm = .str a' := by
    have := hacc'.alg
    obtain ⟨d, rfl, _⟩ := id ha'
    rw [member_iff (wf_obj hwf').1] at ha' this
    rw [ha'] at this
    exact (Option.some.inj this).symm
  exact continues_of hsame hwf hwf' halg halg' hacc hacc'

/-- Inventories with two versions, the first of them like in `ivEx`. -/
def ivEx2 (logical1 logical2 : List Str) : Json :=
  .obj [(c!"id", .str c!"urn:x"), (c!"type", .str (typeUri c!"1.1")), (c!"digestAlgorithm", .str c!"sha512"),
    (c!"head", .str c!"v2"), (c!"manifest", ofDigestMap [(ivDigest, [c!"v1/content/a"])]),
    (c!"versions", .obj [
      (c!"v1", .obj [(c!"created", .str c!"2024-02-29T10:11:12Z"), (c!"state", ofDigestMap [(ivDigest, logical1)])]),
      (c!"v2", .obj [(c!"created", .str c!"2024-03-01T10:11:12Z"), (c!"state", ofDigestMap [(ivDigest, logical2)])])])]

/-- The verdict on `earlier` as a prior version of `later`. -/
def priorVerdict (later earlier : Json) : Option Bool :=
  match validate isWordEx false c!"1.1" none later, validate isWordEx false c!"1.1" none earlier with
  | .ok (r', true, _), .ok (r, true, _) =>
    (validateAsPriorVersion (fun a b => a.bind Json.str? = b.bind Json.str?) (later, r') (earlier, r)).toOption.map (·.1)
  | _, _ => none

example : priorVerdict (ivEx2 [c!"a"] [c!"b"]) (ivEx (typeUri c!"1.1") ivDigest [c!"v1/content/a"] [c!"a"] []) = some true := by
  decide +kernel

example : priorVerdict (ivEx2 [c!"c"] [c!"b"]) (ivEx (typeUri c!"1.1") ivDigest [c!"v1/content/a"] [c!"a"] []) = some false := by
  decide +kernel

/-! ## C72 -/

/-- **C72**, up to a newline at the end and the choice of decimal digits: in an accepted inventory
`created` of every version is the text of an existing date and time, to the second or finer, with a
time zone. -/
theorem C72_partial {isWord : Char → Bool} {lax : Bool} {ds : Str} {force : Option Str} {j : Json} (hwf : j.WF)
    (h : Accepts isWord lax ds force j) {vs : List (Str × Json)} (hvs : Member j c!"versions" (.obj vs)) :
    ∀ v b, (v, b) ∈ vs → ∃ t, Member b c!"created" (.str t) ∧ Timestamp t := by
  obtain ⟨alg, cd, m, vs', states, style, n, hr⟩ := (C37 hwf).mp h
  obtain ⟨d, rfl, _⟩ := id hvs
  have hk := (wf_obj hwf).1
  have h2 := hr.versions
  rw [member_iff hk] at hvs h2
  rw [hvs] at h2
  injection h2 with h2
  injection h2 with h2
  subst h2
  exact fun v b hb => (hr.versionRules v b hb).created

/-- A date that does not exist is refused. -/
example : verdict (.obj [(c!"id", .str c!"urn:x"), (c!"type", .str (typeUri c!"1.1")), (c!"digestAlgorithm", .str c!"sha512"),
    (c!"head", .str c!"v1"), (c!"manifest", .obj []),
    (c!"versions", .obj [(c!"v1", .obj [(c!"created", .str c!"2023-02-29T10:11:12Z"), (c!"state", .obj [])])])]) = some false := by
  decide +kernel

/-- A newline at the end is accepted. -/
theorem C72_newline : ∃ j b, Accepts isWordEx false c!"1.1" none j ∧ Member j c!"versions" (.obj [(c!"v1", b)]) ∧
    Member b c!"created" (.str c!"2024-02-29T10:11:12Z\n") :=
  ⟨.obj [(c!"id", .str c!"urn:x"), (c!"type", .str (typeUri c!"1.1")), (c!"digestAlgorithm", .str c!"sha512"),
    (c!"head", .str c!"v1"), (c!"manifest", .obj []),
    (c!"versions", .obj [(c!"v1", .obj [(c!"created", .str c!"2024-02-29T10:11:12Z\n"), (c!"state", .obj [])])])],
    .obj [(c!"created", .str c!"2024-02-29T10:11:12Z\n"), (c!"state", .obj [])],
    accepts_of_verdict (by decide +kernel), ⟨_, rfl, by simp⟩, ⟨_, rfl, by simp⟩⟩

end Ocfl
