import Verif.Props.SidecarTool
import Verif.Props.Missing
import Verif.Spec.Complete

/-!
# C87: what is valid can be extracted
-/

namespace Ocfl

open Spec FS Prog Ocfl.Inv Validator

/-- Version names of at most five digits are names that the library reads. -/
theorem style_of_short {style : Option Nat} {n : Nat} (hw : ∀ w, style = some w → 2 ≤ w ∧ w ≤ 10)
    (hn : n ≤ validatorLimit style) (hlen : (styleName style n).length ≤ 6) : StyleOK style ∧ n ≤ styleLimit style := by
  cases style with
  | none =>
    refine ⟨trivial, ?_⟩
    have e : styleName none n = 'v' :: natStr n := unpaddedName_eq n
    rw [e] at hlen
    have := (natStr_length_le_iff (n := n) (by decide : 0 < 5)).mp (by simpa using hlen)
    show n ≤ 99999
    omega
  | some w =>
    obtain ⟨h2, _⟩ := hw w rfl
    have e : styleName (some w) n = 'v' :: padStr w n := paddedName_eq w n
    rw [e] at hlen
    have hle : w ≤ (padStr w n).length := by
      unfold padStr
      simp
      omega
    simp only [List.length_cons] at hlen
    exact ⟨⟨h2, by omega⟩, hn⟩

/-- A valid inventory whose version names have at most five digits can be read. -/
theorem parse_short {E : Env} (hlib : E.lib.Lawful) {base : Path} {s : FS} {j : Json} {alg cd : Str} {m : DigestMap}
    {vs : List (Str × Json)} {states : Str → List (Str × List Str)} {style : Option Nat} {n : Nat}
    (hj : StoredJson E.lib s (base ++ [inventoryFilename]) j)
    (hr : RulesWith false none j (.str alg) cd m vs states style n) (hshort : ∀ v ∈ vs.map Prod.fst, v.length ≤ 6) :
    ∃ inv, parseInventory E base s = .ok inv ∧ ∃ l, inv.versionDirectories = .ok l := by
  obtain ⟨b, t, hl, ht, hjt⟩ := hj
  have hwf := hlib.wf _ j hjt
  have hread : readText s (FS.resolve base inventoryFilename) = .ok (univNewlines t) := by
    rw [look_inventory]
    unfold readText FS.read
    rw [hl]
    dsimp only
    rw [ht]
  obtain ⟨res, es, hv⟩ := (C37 (isWord := E.isWord) (ds := c!"1.1") hwf).mpr ⟨_, cd, m, vs, states, style, n, hr⟩
  obtain ⟨hg, _⟩ := good_of_rules hwf hr
  obtain ⟨n1, n2, n3, n4⟩ := hr.names
  obtain ⟨s1, s2⟩ := style_of_short n1 n3 (hshort _ ((n4 _).mpr ⟨n, n2, le_refl n, rfl⟩))
  obtain ⟨i, _, d, hd, _⟩ := hr.id
  subst hd
  have hvd : ∀ inv : Inv, Dict.keys inv.versionsD = vs.map Prod.fst → Dict.NK inv.versionsD →
      ∃ l, inv.versionDirectories = .ok l := by
    intro inv hk hnk
    exact ⟨_, versionDirectories_names s1 s2 hnk (by rw [hk]; exact n4)⟩
  have hp : ∃ inv, parseInventory E base s = .ok inv := by
    unfold parseInventory
    rw [hread]
    dsimp only
    rw [hjt]
    dsimp only
    rw [hv]
    dsimp only
    rw [accepted_alg hwf hv hg.algorithm]
    simp only [Validator.algStr]
    have hk : Dict.keys (Inv.ofJson (.obj d)).versionsD = vs.map Prod.fst := by
      rw [hg.versionsD]
      exact Dict.keys_map_val vs (fun e => VBlock.ofJson e.2)
    obtain ⟨l, hl⟩ := hvd _ hk (by rw [hg.versionsD]; exact hg.versionKeys)
    unfold Inv.normalizeDigests
    rw [hl]
    exact ⟨_, rfl⟩
  obtain ⟨inv, hp⟩ := hp
  refine ⟨inv, hp, ?_⟩
  obtain ⟨_, _, _, style', n', hpd⟩ := parse_parsed hlib hp
  exact ⟨_, versionDirectories_names hpd.styleOK hpd.limit (by rw [hpd.good.versionsD]; exact hpd.good.versionKeys)
    (by rw [hpd.good.versionsD]; exact hpd.good.names.2.2.2)⟩

/-- The rules in terms of the parts of the root inventory that the caller knows. -/
theorem ValidObject.view {E : Env} (hlib : E.lib.Lawful) {check : Bool} {s : FS} {base : Path} (h : ValidObject E check s base)
    {j : Json} {m : List (Str × List Str)} {vs : List (Str × Json)} {states : Str → List (Str × List Str)} {alg : Str}
    (hj : StoredJson E.lib s (base ++ [c!"inventory.json"]) j) (hview : View j m vs states)
    (halg : Member j c!"digestAlgorithm" (.str alg)) :
    ∃ spec cd states' style n, ObjectRules E check s base spec j alg cd m vs states' style n ∧
      ∀ v ∈ vs.map Prod.fst, states' v = states v := by
  obtain ⟨spec, j', alg', cd, m', vs', states', style, n, hr⟩ := h
  have := storedJson_unique hj hr.inventory
  subst this
  obtain ⟨_, _, _, _, hjt⟩ := hj
  have hwf := hlib.wf _ j hjt
  have hview' : View j m' vs' states' := ⟨hr.rules.manifest, hr.rules.versions, fun v b hvb => (hr.rules.versionRules v b hvb).state⟩
  obtain ⟨rfl, rfl, hst⟩ := sameView hwf hview' hview
  have := member_unique hwf halg hr.rules.digestAlgorithm.1
  cases this
  exact ⟨spec, cd, states', style, n, hr, hst⟩

/-- The content paths of a valid object are relative paths, and there are files at them. -/
theorem ObjectRules.contentFile {E : Env} {check : Bool} {s : FS} (hw : s.WF) {base : Path} {spec : Str} {j : Json} {alg cd : Str}
    {m : List (Str × List Str)} {vs : List (Str × Json)} {states : Str → List (Str × List Str)} {style : Option Nat} {n : Nat}
    (hr : ObjectRules E check s base spec j alg cd m vs states style n) {c : Str} (hc : c ∈ listed m) :
    ∃ ws b, LogicalPath ws c ∧ look s (base ++ ws) = some (.file b) := by
  obtain ⟨v, ws, b, hv, hne, rfl, hl, _⟩ := (hr.content c).mp hc
  exact ⟨_, b, ⟨by simp, fun w hm => look_names hw hl w (List.mem_append_right _ hm), rfl⟩, hl⟩

/-- What the beginning of an extraction finds in a valid object. -/
theorem ObjectRules.setup {E : Env} (hlib : E.lib.Lawful) {check : Bool} {s : FS} (hw : s.WF) {objdir : Str} {spec : Str} {j : Json} {alg cd : Str}
    {m : List (Str × List Str)} {vs : List (Str × Json)} {states : Str → List (Str × List Str)} {style : Option Nat} {n : Nat}
    (hd : look s (absComps E.cwd objdir) = some .dir)
    (hr : ObjectRules E check s (absComps E.cwd objdir) spec j alg cd m vs states style n)
    (hshort : ∀ v ∈ vs.map Prod.fst, v.length ≤ 6) {version v : Str} (hsel : Selects j vs version v) :
    ∃ inv, extractSetup E objdir version s = .ok (absComps E.cwd objdir, inv, v) ∧
      Extractable inv.manifestD (inv.stateOf v) ∧
      (∀ p c, Resolves inv.manifestD (inv.stateOf v) p c ↔ Resolves m (states v) p c) ∧
      (∀ p, p ∈ listed (inv.stateOf v) ↔ p ∈ listed (states v)) ∧
      (∀ c, c ∈ listed inv.manifestD ↔ c ∈ listed m) := by
  obtain ⟨inv, hp, l, hl⟩ := parse_short hlib hr.inventory hr.rules hshort
  have hset : ∃ v', extractSetup E objdir version s = .ok (absComps E.cwd objdir, inv, v') := by
    unfold extractSetup
    rw [openObj_dir hd]
    dsimp only
    rw [hp]
    dsimp only
    split
    · exact ⟨_, rfl⟩
    · rename_i hne
      rw [hl]
      dsimp only
      have : version ∈ l := by
        rcases hsel.2 with rfl | ⟨h, _⟩
        · obtain ⟨j', alg', m0, vs0, states0, m1, vs1, style1, n1, hst, hrf, hpd⟩ := parse_readFrom hlib hp
          rw [look_inventory] at hst
          have := storedJson_unique hr.inventory hst
          subst this
          obtain ⟨_, _, _, hrules⟩ := hrf.rules
          have := member_unique hrf.wf hrules.versions hr.rules.versions
          cases this
          rw [(versionDirectories_ok hl).1.mem_iff, hpd.good.versionsD, hrf.versions]
          exact hsel.1
        · exact absurd h hne
      rw [if_pos this]
      exact ⟨_, rfl⟩
  obtain ⟨v', hset⟩ := hset
  obtain ⟨_, _, j', m0, vs0, states0, hst, hview, hsel', hx, hres, hlst, hlm, _, _⟩ := extractSetup_ok hlib hset
  have := storedJson_unique hr.inventory hst
  subst this
  obtain ⟨_, _, _, _, hjt⟩ := hst
  have hwf := hlib.wf _ j hjt
  have hview' : View j m vs states := ⟨hr.rules.manifest, hr.rules.versions, fun v b hvb => (hr.rules.versionRules v b hvb).state⟩
  obtain ⟨rfl, rfl, hsts⟩ := sameView hwf hview hview'
  have hnoHead : ∀ u ∈ vs0.map Prod.fst, u ≠ c!"head" := by
    rintro u hu rfl
    obtain ⟨i, _, _, hi⟩ := (hr.rules.names.2.2.2 _).mp hu
    have := styleName_head style i
    rw [← hi] at this
    exact absurd this (by decide)
  have hv : v' = v := by
    rcases hsel.2 with h | ⟨h, h1⟩ <;> rcases hsel'.2 with h' | ⟨h', h1'⟩
    · rw [← h, ← h']
    · exact absurd (h.symm.trans h') (hnoHead v hsel.1)
    · exact absurd (h'.symm.trans h) (hnoHead v' hsel'.1)
    · have := member_unique hwf h1 h1'
      cases this
      rfl
  subst hv
  rw [hsts v' hsel'.1] at hres hlst
  exact ⟨inv, hset, hx, hres, hlst, hlm⟩

theorem listed_segs {E : Env} {check : Bool} {s : FS} {base : Path} {spec : Str} {j : Json} {alg cd : Str}
    {m : List (Str × List Str)} {vs : List (Str × Json)} {states : Str → List (Str × List Str)} {style : Option Nat} {n : Nat}
    (hr : ObjectRules E check s base spec j alg cd m vs states style n) {v : Str} (hv : v ∈ vs.map Prod.fst) :
    ∀ p ∈ listed (states v), ∃ segs, LogicalPath segs p := by
  obtain ⟨⟨v', b⟩, hvb, rfl⟩ := List.mem_map.mp hv
  exact (hr.rules.versionRules v' b hvb).paths

theorem pathOf_append {a b : List Str} (ha : a ≠ []) (hb : b ≠ []) : pathOf (a ++ b) = pathOf a ++ '/' :: pathOf b := by
  rw [← joinWith_eq_pathOf, ← joinWith_eq_pathOf, ← joinWith_eq_pathOf, joinWith_append ha hb]

/-- **C87**: a version of an object that passes validation can be extracted to any place outside the object where there is
nothing yet. The directory then holds the files of the version and no others, and if digests were checked, each file has the
digest that the inventory records for it. Nothing else changes. This holds for every object, whoever made it. What is missing:
version numbers of more than five digits (`C87_violated_number`) and logical paths inside other logical paths
(`C87_violated_nested`), which validation accepts. -/
theorem C87_partial {E : Env} (hE : Libraries E) (hcwd : ∀ w ∈ E.cwd, SafeName w) {cfg : Config} (hlax : cfg.lax = false) {s : FS} (hw : s.WF)
    {objdir : Str} {es : List Entry} (hvalid : validateObject E cfg 0 s objdir = .ok (true, es))
    {j : Json} {m : List (Str × List Str)} {vs : List (Str × Json)} {states : Str → List (Str × List Str)} {alg : Str}
    (hj : StoredJson E.lib s (absComps E.cwd objdir ++ [c!"inventory.json"]) j) (hview : View j m vs states)
    (halg : Member j c!"digestAlgorithm" (.str alg)) {version v : Str} (hsel : Selects j vs version v)
    (hshort : ∀ v ∈ vs.map Prod.fst, v.length ≤ 6) (hnest : NoNesting (states v))
    {dstdir : Str} (hout : ¬ absComps E.cwd objdir <+: absComps E.cwd dstdir)
    (hp : look s (dstParent E dstdir) = some .dir) (hvac : Vacant s (absComps E.cwd dstdir)) :
    ∃ s' md, run (extract E objdir version dstdir) s = (s', .ok md) ∧
      HoldsVersion E cfg.checkDigests alg s' (absComps E.cwd dstdir) (states v) ∧
      ∀ q, ¬ absComps E.cwd dstdir <+: q → look s' q = look s q := by
  obtain ⟨hd, hvo⟩ := (C73 hE hlax hw).mp ⟨es, hvalid⟩
  obtain ⟨spec, cd, states', style, n, hr, hst⟩ := ValidObject.view hE.json hvo hj hview halg
  obtain ⟨inv, hset, hx, hres, hlst, hlm⟩ := ObjectRules.setup hE.json hw hd hr hshort hsel
  rw [hst v hsel.1] at hres hlst
  have hsegs := listed_segs hr hsel.1
  rw [hst v hsel.1] at hsegs
  have hcp : PlainContent E.lib s (absComps E.cwd objdir ++ [inventoryFilename]) := by
    intro j' m' c h1 h2 h3
    have := storedJson_unique hj h1
    subst this
    obtain ⟨_, _, _, _, hjt⟩ := h1
    have hmm : m = m' := by
      have := sameView (hE.json.wf _ j hjt) hview ⟨h2, hview.versions, hview.state⟩
      exact this.1
    subst hmm
    obtain ⟨ws, b, h4, _⟩ := ObjectRules.contentFile hw hr h3
    exact ⟨ws, h4⟩
  obtain ⟨s', md, hrun⟩ := extract_succeeds hE.json hcwd hw hset hout
    (fun c hc => by
      obtain ⟨ws, b, h4, _⟩ := ObjectRules.contentFile hw hr ((hlm c).mp hc)
      exact ⟨ws, h4⟩) hp hvac
    (by
      rintro p c ⟨d, _, h⟩
      obtain ⟨ws, b, h4, h5⟩ := ObjectRules.contentFile hw hr ((hlm c).mp (mem_listed.mpr ⟨d, h⟩))
      rw [(logical_resolve h4 _).1]
      exact ⟨b, h5⟩)
    (by
      intro p hpl q hql ps qs hps hqs hpre
      by_contra hne
      obtain ⟨t, rfl⟩ := hpre
      have ht : t ≠ [] := by
        rintro rfl
        exact hne (by simp)
      rw [hqs.2.2, pathOf_append hps.1 ht, ← hps.2.2] at hql
      exact hnest p ((hlst p).mp hpl) _ ((hlst _).mp hql))
  obtain ⟨hw', inv2, v2, hset2, hitems, j2, m2, vs2, states2, hst2, hview2, hsel2, _, hlst2, hex⟩ := run_extract hE.json hcwd hw hout hcp hrun
  rw [hset] at hset2
  cases hset2
  have := storedJson_unique hj hst2
  subst this
  obtain ⟨_, _, _, _, hjt⟩ := hj
  obtain ⟨rfl, rfl, hsts⟩ := sameView (hE.json.wf _ j hjt) hview hview2
  rw [← hsts v hsel.1] at hex
  refine ⟨s', md, hrun, ⟨?_, ?_⟩, hex.untouched⟩
  · intro p hpl
    obtain ⟨r, b, rfl, hl⟩ := hex.complete p hpl
    refine ⟨r, b, rfl, ?_, hl⟩
    rintro rfl
    rw [List.append_nil, hex.root] at hl
    cases hl
  · intro r b hf
    obtain ⟨ws, ⟨d, h1, h2⟩, h3⟩ := hex.files r b hf.2
    refine ⟨d, h1, fun hc => ?_⟩
    have hsafe : ∀ w ∈ ws, Safe w := fun w hm => look_names hw h3 w (List.mem_append_right _ hm)
    obtain ⟨b', x, h4, h5, h6⟩ := hr.digests hc d ws h2 hsafe
    rw [h3] at h4
    cases h4
    exact ⟨x, h5, h6⟩

/-- **C87** for `extract_file`: every file of a version of a valid object can be extracted, also where logical paths are nested.
The file in the destination then has the digest that the inventory records for it. -/
theorem C87_file {E : Env} (hE : Libraries E) (hcwd : ∀ w ∈ E.cwd, SafeName w) {cfg : Config} (hlax : cfg.lax = false) {s : FS} (hw : s.WF)
    {objdir : Str} {es : List Entry} (hvalid : validateObject E cfg 0 s objdir = .ok (true, es))
    {j : Json} {m : List (Str × List Str)} {vs : List (Str × Json)} {states : Str → List (Str × List Str)} {alg : Str}
    (hj : StoredJson E.lib s (absComps E.cwd objdir ++ [c!"inventory.json"]) j) (hview : View j m vs states)
    (halg : Member j c!"digestAlgorithm" (.str alg)) {version v : Str} (hsel : Selects j vs version v)
    (hshort : ∀ v ∈ vs.map Prod.fst, v.length ≤ 6)
    {dstdir : Str} (hout : ¬ absComps E.cwd objdir <+: absComps E.cwd dstdir)
    (hp : look s (absComps E.cwd (osPathSplit dstdir).1) = some .dir)
    (hdst : look s (absComps E.cwd dstdir) = none ∨ look s (absComps E.cwd dstdir) = some .dir)
    {segs : Path} {w : Str} (hf : pathOf (segs ++ [w]) ∈ listed (states v)) (hsafe : ∀ x ∈ segs ++ [w], SafeName x)
    (hfree : look s (absComps E.cwd dstdir ++ [w]) ≠ some .dir) :
    ∃ s' md b d, run (extractFile E objdir version dstdir (pathOf (segs ++ [w]))) s = (s', .ok md) ∧
      look s' (absComps E.cwd dstdir ++ [w]) = some (.file b) ∧ Lists (states v) d (pathOf (segs ++ [w])) ∧
      (cfg.checkDigests = true → HasDigest E alg b d) ∧
      ∀ q, q ≠ absComps E.cwd dstdir → q ≠ absComps E.cwd dstdir ++ [w] → look s' q = look s q := by
  obtain ⟨hd, hvo⟩ := (C73 hE hlax hw).mp ⟨es, hvalid⟩
  obtain ⟨spec, cd, states', style, n, hr, hst⟩ := ValidObject.view hE.json hvo hj hview halg
  obtain ⟨inv, hset, hx, hres, hlst, hlm⟩ := ObjectRules.setup hE.json hw hd hr hshort hsel
  rw [hst v hsel.1] at hres hlst
  obtain ⟨_, _, _, _, _, _, _, _, _, _, _, _, _, _, md, hmd⟩ := extractSetup_ok hE.json hset
  obtain ⟨c, hc⟩ : ∃ c, (c, pathOf (segs ++ [w])) ∈ extractItems inv.manifestD (inv.stateOf v) := by
    have hpl := (hlst _).mpr hf
    rw [← extractItems_snd inv.manifestD] at hpl
    obtain ⟨⟨c, p⟩, h1, h2⟩ := List.mem_map.mp hpl
    exact ⟨c, by dsimp only at h2; rw [← h2]; exact h1⟩
  have hfind := extractItems_first hx hc
  obtain ⟨d, hl1, hl2⟩ := (hres _ _).mp (hx.item hc).2
  obtain ⟨ws, b, hws, hcontent⟩ := ObjectRules.contentFile hw hr (mem_listed.mpr ⟨d, hl2⟩)
  have hrc := (logical_resolve hws (absComps E.cwd objdir)).1
  have hsw : SafeName w := hsafe w (by simp)
  have hb : osBasename (pathOf (segs ++ [w])) = w := by
    rw [← joinWith_eq_pathOf]
    exact osBasename_join (fun x hx' => SafeName.isComp (hsafe x (by simp [hx']))) (SafeName.isComp hsw)
  obtain ⟨s1, h1⟩ := run_openObjCreate_ok hcwd hw hp
  obtain ⟨-, hw1, _, _, hl⟩ := run_openObjCreate hcwd hw h1
  have hne : FS.resolve (absComps E.cwd objdir) c ≠ absComps E.cwd dstdir ++ [w] := by
    rw [hrc]
    intro he
    have hpre : absComps E.cwd objdir <+: absComps E.cwd dstdir ++ [w] := by rw [← he]; exact List.prefix_append _ _
    rcases prefix_concat.mp hpre with h | h
    · exact hfree (by rw [← h]; exact hd)
    · exact hout h
  have hlook1 : look s1 (FS.resolve (absComps E.cwd objdir) c) = some (.file b) := by
    rw [hrc, hl, if_neg (by rintro ⟨_, he⟩; rw [hcontent] at he; cases he)]
    exact hcontent
  have hdst1 : look s1 (absComps E.cwd dstdir) = some .dir := by
    rw [hl]
    rcases hdst with h | h
    · rw [if_pos ⟨rfl, h⟩]
    · rw [if_neg (by rintro ⟨_, he⟩; rw [h] at he; cases he)]; exact h
  have hfree1 : look s1 (absComps E.cwd dstdir ++ [w]) ≠ some .dir := by
    rw [hl, if_neg (by rintro ⟨he, _⟩; have := congrArg List.length he; simp at this)]
    exact hfree
  obtain ⟨s2, h2⟩ : ∃ s2, FS.exec (.write (absComps E.cwd dstdir ++ [w]) b) s1 = (s2, .ok ()) :=
    ⟨_, FS.exec_write hfree1 (by rw [List.dropLast_concat]; exact hdst1)⟩
  have hrun : run (extractFile E objdir version dstdir (pathOf (segs ++ [w]))) s = (s2, .ok md) := by
    unfold extractFile
    rw [run_bind_ok (s1 := s) (a := (absComps E.cwd objdir, inv, v)) (by rw [run_look, hset]), run_bind_ok h1]
    dsimp only
    rw [hfind, run_bind_ok (s1 := s1) (a := c) rfl, hb, resolve_name _ hsw, run_bind_ok (s1 := s2) (a := ())
      (by rw [run_copyfile hne hlook1]; exact h2), hmd]
    rfl
  obtain ⟨_, _, _, hs'⟩ := exec_write_ok h2
  have hne2 : absComps E.cwd dstdir ++ [w] ≠ [] := by simp
  refine ⟨s2, md, b, d, hrun, ?_, hl1, fun hck => ?_, fun q hq1 hq2 => ?_⟩
  · rw [hs', look_set hne2, if_pos rfl]
  · rw [hws.2.2] at hl2
    obtain ⟨b', x, h4, h5, h6⟩ := hr.digests hck d ws hl2 hws.2.1
    rw [hcontent] at h4
    cases h4
    exact ⟨x, h5, h6⟩
  · rw [hs', look_set hne2, if_neg hq2, hl, if_neg (fun h => hq1 h.1)]

end Ocfl
