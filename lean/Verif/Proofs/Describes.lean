import Verif.Proofs.FirstVersion
import Verif.Proofs.Recode

/-!
# Inventories that describe a list of file trees
-/

namespace Ocfl

open Spec FS Ocfl.Inv

/-- What every tree of files is like. -/
structure Spec.Tree.OK (t : Tree) : Prop where
  names : ∀ r b, t r b → r ≠ [] ∧ ∀ w ∈ r, SafeName w
  functional : ∀ r b b', t r b → t r b' → b = b'
  apart : ∀ r r' b b', t r b → t r' b' → r <+: r' → r = r'

theorem treeOK_below {s : FS} (hw : s.WF) (src : Path) : Tree.OK (FileBelow s src) where
  names r b h := ⟨h.1, fun w hm => look_names hw h.2 w (List.mem_append_right _ hm)⟩
  functional r b b' h h' := by
    have := h.2.symm.trans h'.2
    cases this
    rfl
  apart r r' b b' h h' hp := by
    by_contra hne
    have : look s (src ++ r) = some .dir :=
      look_prefix hw ((List.prefix_append_right_inj _).mpr hp) (fun e => hne (List.append_cancel_left e)) h'.2
    rw [h.2] at this
    cases this

/-- The state of a version. -/
def stateIn (vs : Dict Str VBlock) (v : Str) : DigestMap := ((Dict.get? vs v).bind (·.state)).getD []

theorem Good.stateIn {inv : Inv} {alg : Str} {m : DigestMap} {vs : Dict Str VBlock} {style : Option Nat} {n : Nat}
    (h : Good inv alg m vs style n) (v : Str) : inv.stateOf v = Ocfl.stateIn vs v := by
  rw [stateOf_versionsD, h.versionsD]
  rfl

/-- Every path of the manifest lies in a version and has a file, of one of the trees, with the digest. -/
def ContentOK (E : Env) (s : FS) (base : Path) (alg cd : Str) (m : DigestMap) (names : List Str) (trees : List Tree) : Prop :=
  ∀ d c, Lists m d c → ∃ v ws b, v ∈ names ∧ ws ≠ [] ∧ (∀ w ∈ ws, SafeName w ∧ '\n' ∉ w) ∧ c = pathOf (v :: cd :: ws) ∧
    look s (base ++ v :: cd :: ws) = some (.file b) ∧ fileDigest E.raw alg b = some d ∧ InTrees trees b

/-- The `k`-th version has the paths and digests of the `k`-th tree. -/
def StatesOK (E : Env) (alg : Str) (vs : Dict Str VBlock) (trees : List Tree) : Prop :=
  ∀ k t, trees[k]? = some t → (∀ e ∈ stateIn vs (styleName none (k + 1)), e.2 ≠ []) ∧
    ∀ d p, Lists (stateIn vs (styleName none (k + 1))) d p ↔ ∃ r b, t r b ∧ p = pathOf r ∧ fileDigest E.raw alg b = some d

/-- The fixity blocks have the digests of content files. -/
def FixityContent (E : Env) (s : FS) (base : Path) (fixity : Option (Dict Str DigestMap)) : Prop :=
  ∀ fx a fm, fixity = some fx → (a, fm) ∈ fx → ∀ d c, Lists fm d c → ∃ segs b, segs ≠ [] ∧ (∀ w ∈ segs, SafeName w) ∧ c = pathOf segs ∧
    look s (base ++ segs) = some (.file b) ∧ fileDigest E.raw a b = some d

/-- The inventory describes the trees, one version each, and the content is there. -/
structure Describes (E : Env) (s : FS) (base : Path) (trees : List Tree) (inv : Inv) (alg : Str) (m : DigestMap)
    (vs : Dict Str VBlock) : Prop where
  parsed : Parsed inv alg m vs none trees.length
  contentDirectory : inv.contentDirectoryToUse ≠ []
  content : ContentOK E s base alg inv.contentDirectoryToUse m (Dict.keys vs) trees
  states : StatesOK E alg vs trees
  fixity : FixityContent E s base inv.fixity
  ok : ∀ t ∈ trees, t.OK

theorem Good.contentDirName {inv : Inv} {alg : Str} {m : DigestMap} {vs : Dict Str VBlock} {style : Option Nat} {n : Nat}
    (h : Good inv alg m vs style n) : ContentDirName inv.contentDirectoryToUse := by
  unfold Inv.contentDirectoryToUse
  cases hc : inv.contentDirectory with
  | none => exact ⟨by decide, by decide, by decide⟩
  | some cd => exact h.contentDirectory cd hc

theorem Describes.cdSafe {E : Env} {s : FS} {base : Path} {trees : List Tree} {inv : Inv} {alg : Str} {m : DigestMap}
    {vs : Dict Str VBlock} (h : Describes E s base trees inv alg m vs) : SafeName inv.contentDirectoryToUse :=
  ⟨h.contentDirectory, h.parsed.good.contentDirName.2.1, h.parsed.good.contentDirName.2.2, h.parsed.good.contentDirName.1⟩

/-- The names that make up a content path. -/
theorem Describes.segs {E : Env} {s : FS} {base : Path} {trees : List Tree} {inv : Inv} {alg : Str} {m : DigestMap}
    {vs : Dict Str VBlock} (h : Describes E s base trees inv alg m vs) {d c : Str} (hl : Lists m d c) :
    ∃ v ws b, v ∈ Dict.keys vs ∧ ws ≠ [] ∧ (∀ w ∈ v :: inv.contentDirectoryToUse :: ws, SafeName w) ∧
      c = pathOf (v :: inv.contentDirectoryToUse :: ws) ∧ FS.resolve base c = base ++ v :: inv.contentDirectoryToUse :: ws ∧
      look s (FS.resolve base c) = some (.file b) ∧ fileDigest E.raw alg b = some d ∧ InTrees trees b := by
  obtain ⟨v, ws, b, h1, h2, h3, h4, h5, h6, h7⟩ := h.content d c hl
  have hsafe : ∀ w ∈ v :: inv.contentDirectoryToUse :: ws, SafeName w := by
    intro w hw
    rcases List.mem_cons.mp hw with rfl | hw
    · obtain ⟨i, _, _, rfl⟩ := (h.parsed.good.names.2.2.2 _).mp h1
      exact styleName_safe _ _
    · rcases List.mem_cons.mp hw with rfl | hw
      · exact h.cdSafe
      · exact (h3 w hw).1
  have hres : FS.resolve base c = base ++ v :: inv.contentDirectoryToUse :: ws := by rw [h4, resolve_pathOf base hsafe]
  exact ⟨v, ws, b, h1, h2, hsafe, h4, hres, by rw [hres]; exact h5, h6, h7⟩

/-- Adding a version from a source directory gives an inventory that describes one more tree. -/
theorem describes_new {E : Env} (hhash : HashLib E.raw) {s s' : FS} (hw : s.WF) {base src : Path} {trees : List Tree} {nv0 nv : NV}
    {alg : Str} {m : DigestMap} {vs : Dict Str VBlock} {b : VBlock} {srcs : List Str}
    (g : Ground nv0 alg m vs none trees.length b) (hcd : nv0.inv.contentDirectoryToUse ≠ [])
    (hcontent : ContentOK E s' base alg nv0.inv.contentDirectoryToUse m (Dict.keys vs) trees)
    (hstates : StatesOK E alg vs trees) (hfix : FixityContent E s' base nv0.inv.fixity) (hok : ∀ t ∈ trees, t.OK)
    (hsource : SourceOf s src srcs) (ha : NV.Added (srcEnv E s src) nv0 (styleName none (trees.length + 1)) srcs nv)
    (hnl : nv0.norm = none → ∀ p ∈ srcs, '\n' ∉ p) (hst : srcs ≠ [] ∨ ∃ st, b.state = some st)
    (hfiles : ∀ e ∈ nv.filesToCopy, ∃ x, look s (FS.resolve src e.1) = some (.file x) ∧ look s' (FS.resolve base e.2) = some (.file x)) :
    Describes E s' base (trees ++ [FileBelow s src]) nv.inv alg nv.inv.manifestD
      (Dict.set vs (styleName none (trees.length + 1))
        { b with state := some (nv.inv.stateOf (styleName none (trees.length + 1))) }) := by
  have hx := hexNames_srcEnv hhash s src
  have hparsed := g.good ha hsource.names hx (goodDigests_src hhash g.algName s src) hcd hnl hst
  have halg : nv0.inv.digestAlgorithm.getD [] = alg := by rw [g.algorithm]; rfl
  have hcdeq := ha.head.2.2
  have htree : ∀ p ∈ srcs, ∃ r b, FileBelow s src r b ∧ p = joinWith '/' r ∧ FS.resolve src p = src ++ r := by
    intro p hp
    obtain ⟨r, b, hf, rfl⟩ := (hsource.files p).mp hp
    exact ⟨r, b, hf, rfl, resolve_join src ((treeOK_below hw src).names r b hf).2⟩
  obtain ⟨f, hf1, _⟩ := g.queueSegs ha hsource.names hx hcd
  refine ⟨by rw [List.length_append]; exact hparsed, by rw [hcdeq]; exact hcd, ?_, ?_, by rw [ha.keeps.2.2.2]; exact hfix, ?_⟩
  · intro d c hl
    rw [hcdeq]
    rw [ha.paths, g.manifestD, halg] at hl
    rcases hl with hl | ⟨p, hp, hdg⟩
    · obtain ⟨v, ws, x, h1, h2, h3, h4, h5, h6, t, h7, h8⟩ := hcontent d c hl
      exact ⟨v, ws, x, Dict.mem_keys_set.mpr (Or.inr h1), h2, h3, h4, h5, h6, t, List.mem_append_left _ h7, h8⟩
    · obtain ⟨a1, a2, a3, a4⟩ := hf1 _ hp
      obtain ⟨x, k1, k2⟩ := hfiles _ hp
      obtain ⟨r, y, hr, _, hres⟩ := htree p (ha.queueDone _ hp)
      have hpx : digestAt E s (FS.resolve src p) alg = .ok d := hdg
      obtain ⟨z, z1, z2⟩ := digestAt_ok.mp hpx
      have k1 : look s (FS.resolve src p) = some (.file x) := k1
      rw [k1] at z1
      cases z1
      have hsafe : ∀ w ∈ styleName none (trees.length + 1) :: nv0.inv.contentDirectoryToUse :: f c, SafeName w := by
        intro w hw
        rcases List.mem_cons.mp hw with rfl | hw
        · exact styleName_safe _ _
        · rcases List.mem_cons.mp hw with rfl | hw
          · exact ⟨hcd, g.contentDirName.2.1, g.contentDirName.2.2, g.contentDirName.1⟩
          · exact a2 w hw
      refine ⟨styleName none (trees.length + 1), f c, x, Dict.mem_keys_set.mpr (Or.inl rfl), a1,
        fun w hw => ⟨a2 w hw, a4 (fun hn => hnl hn _ (ha.queueDone _ hp)) w hw⟩, a3, ?_, z2, FileBelow s src, by simp, r, hr.1, ?_⟩
      · have k2 : look s' (FS.resolve base c) = some (.file x) := k2
        have a3' : c = pathOf (styleName none (trees.length + 1) :: nv0.inv.contentDirectoryToUse :: f c) := a3
        rw [show FS.resolve base c = _ from (congrArg (FS.resolve base) a3').trans (resolve_pathOf base hsafe)] at k2
        exact k2
      · rw [hres] at k1
        exact k1
  · intro k t hk
    unfold stateIn
    rw [Dict.get?_set]
    by_cases hlt : k < trees.length
    · rw [if_neg (by intro e; have := styleName_inj e; omega)]
      rw [List.getElem?_append_left hlt] at hk
      exact hstates k t hk
    · rw [List.getElem?_append_right (by omega)] at hk
      have hk0 : k - trees.length = 0 := by
        by_contra hne
        rw [List.getElem?_eq_none (by simp; omega)] at hk
        cases hk
      rw [hk0] at hk
      have ht : FileBelow s src = t := by simpa using hk
      subst ht
      have hkk : k = trees.length := by omega
      subst hkk
      rw [if_pos rfl]
      refine ⟨?_, fun d p => ?_⟩
      · intro e he h0
        have := ha.stateNonempty e he h0
        rw [g.stateOf] at this
        cases this
      show Lists (nv.inv.stateOf (styleName none (trees.length + 1))) d p ↔ _
      rw [ha.state, g.stateOf, halg]
      constructor
      · rintro (hl | ⟨hp, hdg⟩)
        · exact absurd hl (Lists_nil _ _)
        · obtain ⟨r, y, hr, rfl, hres⟩ := htree p hp
          obtain ⟨z, z1, z2⟩ := (srcDigest_iff ((treeOK_below hw src).names r y hr).2).mp hdg
          exact ⟨r, z, ⟨hr.1, z1⟩, by rw [joinWith_eq_pathOf], z2⟩
      · rintro ⟨r, y, hr, rfl, hdg⟩
        right
        rw [← joinWith_eq_pathOf]
        exact ⟨(hsource.files _).mpr ⟨r, y, hr, rfl⟩,
          (srcDigest_iff ((treeOK_below hw src).names r y hr).2).mpr ⟨y, hr.2, hdg⟩⟩
  · intro t ht
    rcases List.mem_append.mp ht with ht | ht
    · exact hok t ht
    · rw [List.mem_singleton.mp ht]
      exact treeOK_below hw src

/-- What is described stays so when the content files stay. -/
theorem ContentOK.frame {E : Env} {s s' : FS} {base : Path} {alg cd : Str} {m : DigestMap} {names : List Str} {trees : List Tree}
    (h : ContentOK E s base alg cd m names trees)
    (hf : ∀ v ws b, v ∈ names → look s (base ++ v :: ws) = some (.file b) → pathOf (v :: ws) ∈ listed m → look s' (base ++ v :: ws) = some (.file b)) :
    ContentOK E s' base alg cd m names trees := by
  intro d c hl
  obtain ⟨v, ws, b, h1, h2, h3, h4, h5, h6⟩ := h d c hl
  exact ⟨v, ws, b, h1, h2, h3, h4, hf v _ b h1 h5 (by rw [← h4]; exact mem_listed.mpr ⟨d, hl⟩), h6⟩

theorem lists_sorted {m : DigestMap} {d p : Str} : Lists (Dict.sorted m) d p ↔ Lists m d p := by
  constructor
  · rintro ⟨ps, h1, h2⟩; exact ⟨ps, (Dict.sorted_perm m).mem_iff.mp h1, h2⟩
  · rintro ⟨ps, h1, h2⟩; exact ⟨ps, (Dict.sorted_perm m).mem_iff.mpr h1, h2⟩

theorem sorted_contentDirectory (inv : Inv) : inv.sorted.contentDirectoryToUse = inv.contentDirectoryToUse := rfl

theorem stateIn_sorted {vs : Dict Str VBlock} (hk : Dict.NK vs) (v d p : Str) :
    Lists (stateIn (Dict.sorted (vs.map (fun e => (e.1, e.2.sorted)))) v) d p ↔ Lists (stateIn vs v) d p := by
  unfold stateIn
  rw [Dict.get?_sorted (Dict.NK_map_val hk (fun e => e.2.sorted)), Dict.get?_map_val vs VBlock.sorted v]
  cases hv : Dict.get? vs v with
  | none => exact Iff.rfl
  | some b =>
    show Lists ((b.sorted.state).getD []) d p ↔ Lists (b.state.getD []) d p
    cases hb : b.state with
    | none => simp [VBlock.sorted, hb]
    | some st =>
      simp only [VBlock.sorted, hb, Option.map_some, Option.getD_some]
      exact lists_sorted

theorem mem_stateIn_sorted {vs : Dict Str VBlock} (hk : Dict.NK vs) {v d : Str} {ps : List Str}
    (h : (d, ps) ∈ stateIn (Dict.sorted (vs.map (fun e => (e.1, e.2.sorted)))) v) : ∃ ps', (d, ps') ∈ stateIn vs v ∧ ps = ps' := by
  unfold stateIn at h ⊢
  rw [Dict.get?_sorted (Dict.NK_map_val hk (fun e => e.2.sorted)), Dict.get?_map_val vs VBlock.sorted v] at h
  cases hv : Dict.get? vs v with
  | none => rw [hv] at h; cases h
  | some b =>
    rw [hv] at h
    have h : (d, ps) ∈ (b.sorted.state).getD [] := h
    show ∃ ps', (d, ps') ∈ b.state.getD [] ∧ ps = ps'
    cases hb : b.state with
    | none => simp [VBlock.sorted, hb] at h
    | some st =>
      simp only [VBlock.sorted, hb, Option.map_some, Option.getD_some] at h
      exact ⟨ps, (Dict.sorted_perm st).mem_iff.mp h, rfl⟩

/-- The order of the entries does not matter. -/
theorem Describes.sorted {E : Env} {s : FS} {base : Path} {trees : List Tree} {inv : Inv} {alg : Str} {m : DigestMap}
    {vs : Dict Str VBlock} (h : Describes E s base trees inv alg m vs) :
    Describes E s base trees inv.sorted alg (Dict.sorted m) (Dict.sorted (vs.map (fun e => (e.1, e.2.sorted)))) := by
  refine ⟨h.parsed.sorted, h.contentDirectory, ?_, ?_, ?_, h.ok⟩
  · intro d c hl
    obtain ⟨v, ws, b, h1, h2⟩ := h.content d c (lists_sorted.mp hl)
    refine ⟨v, ws, b, ?_, h2⟩
    have hp : (Dict.keys (Dict.sorted (vs.map (fun e => (e.1, e.2.sorted))))).Perm (Dict.keys vs) := by
      rw [← Dict.keys_map_val vs (fun e => e.2.sorted)]
      exact (Dict.sorted_perm _).map _
    exact hp.mem_iff.mpr h1
  · intro k t hk
    refine ⟨?_, fun d p => ?_⟩
    · rintro ⟨d, ps⟩ he h0
      obtain ⟨ps', h1, h2⟩ := mem_stateIn_sorted h.parsed.good.versionKeys he
      exact (h.states k t hk).1 _ h1 (by rw [← h2]; exact h0)
    rw [stateIn_sorted h.parsed.good.versionKeys]
    exact (h.states k t hk).2 d p
  · intro fx a fm hfx hm d c hl
    have hfx : (inv.fixity.map (fun fx => Dict.sorted (fx.map (fun e => (e.1, Dict.sorted e.2))))) = some fx := hfx
    cases hf : inv.fixity with
    | none => rw [hf] at hfx; cases hfx
    | some fx0 =>
      rw [hf] at hfx
      cases hfx
      obtain ⟨e, he, heq⟩ := List.mem_map.mp ((Dict.sorted_perm _).mem_iff.mp hm)
      obtain ⟨e1, e2⟩ := Prod.mk.inj heq
      subst e1 e2
      exact h.fixity fx0 e.1 e.2 hf he d c (lists_sorted.mp hl)

theorem fileDigest_known (raw : Str → Bytes → Str) {alg : Str} (h : alg = c!"sha512" ∨ alg = c!"sha256") (b : Bytes) :
    fileDigest raw alg b = some (raw alg b) := by
  unfold fileDigest
  rcases h with rfl | rfl <;> rw [if_pos (by decide)]

theorem noCollision_digest {raw : Str → Bytes → Str} {files : Bytes → Prop} (h : NoCollision raw files) {alg : Str}
    (ha : alg = c!"sha512" ∨ alg = c!"sha256") {b b' : Bytes} (hb : files b) (hb' : files b')
    (e : fileDigest raw alg b = fileDigest raw alg b') : b = b' := by
  rw [fileDigest_known raw ha, fileDigest_known raw ha] at e
  exact h alg ha b b' hb hb' (Option.some.inj e)

/-- Files of the trees are told apart by the digests. -/
theorem Describes.tellsApart {E : Env} {s : FS} {base : Path} {trees : List Tree} {inv : Inv} {alg : Str} {m : DigestMap}
    {vs : Dict Str VBlock} (h : Describes E s base trees inv alg m vs) (hno : NoCollision E.raw (InTrees trees)) {newAlg : Str}
    (hnew : newAlg = c!"sha512" ∨ newAlg = c!"sha256") : TellsApart E s base newAlg m := by
  intro d c d' c' b b' h1 h2 h3 h4 h5
  obtain ⟨_, _, x, _, _, _, _, _, k1, k2, k3⟩ := h.segs h1
  obtain ⟨_, _, x', _, _, _, _, _, k1', k2', k3'⟩ := h.segs h2
  rw [h3] at k1
  rw [h4] at k1'
  cases k1
  cases k1'
  have : b = b' := noCollision_digest hno hnew k3 k3' h5 
  subst this
  rw [k2] at k2'
  cases k2'
  rfl

/-- After a change of the algorithm the inventory describes the same trees. -/
theorem Describes.recode {E : Env} (hhash : HashLib E.raw) {s : FS} {base : Path} {trees : List Tree} {inv0 inv1 : Inv} {alg newAlg : Str}
    {m : DigestMap} {vs : Dict Str VBlock} {fixity : Option (List Str)} (h : Describes E s base trees inv0 alg m vs)
    (hno : NoCollision E.raw (InTrees trees)) (hnew : newAlg = c!"sha512" ∨ newAlg = c!"sha256")
    (hch : changeDigest E s base alg newAlg (changeFixity { inv0 with digestAlgorithm := some newAlg } alg newAlg fixity) = .ok inv1) :
    ∃ m1 vs1, Describes E s base trees inv1 newAlg m1 vs1 ∧ listed m1 = listed m ∧ Dict.keys vs1 = Dict.keys vs ∧
      inv1.contentDirectory = inv0.contentDirectory ∧ inv1.type = inv0.type ∧ inv1.id = inv0.id := by
  obtain ⟨f, m1, vs1, hp, hrec, hid, hren, hcd, hty, hid'⟩ := changeDigest_parsed hhash h.parsed hch hnew (fun _ => h.tellsApart hno hnew)
  have hcd' : inv1.contentDirectoryToUse = inv0.contentDirectoryToUse := by unfold Inv.contentDirectoryToUse; rw [hcd]
  have hk : Dict.keys vs1 = Dict.keys vs := by rw [hrec.versions]; exact Dict.keys_map_val vs (fun e => recodeBlock f e.2)
  -- the new digest of a content file
  have hdig : ∀ d c b, Lists m d c → look s (FS.resolve base c) = some (.file b) → fileDigest E.raw newAlg b = some (f d) := by
    intro d c b hl hlk
    by_cases he : newAlg = alg
    · rw [hid he, he]
      obtain ⟨_, _, x, _, _, _, _, _, k1, k2, _⟩ := h.segs hl
      rw [hlk] at k1
      cases k1
      exact k2
    · obtain ⟨ps, h1, h2⟩ := hl
      obtain ⟨b', h3, h4⟩ := digestAt_ok.mp ((newDigest_ok.mp (hren he _ h1)).2 c h2)
      rw [hlk] at h3
      cases h3
      exact h4
  refine ⟨m1, vs1, ⟨hp, by rw [hcd']; exact h.contentDirectory, ?_, ?_, ?_, h.ok⟩, ?_, hk, hcd, hty, hid'⟩
  · intro d' c hl
    rw [hrec.manifest] at hl
    obtain ⟨d, e, hm⟩ := lists_recode.mp hl
    subst e
    clear hl
    have hl := hm
    obtain ⟨v, ws, b, h1, h2, h3, h4, h5, h6, h7⟩ := h.content d c hl
    refine ⟨v, ws, b, by rw [hk]; exact h1, h2, h3, by rw [hcd']; exact h4, by rw [hcd']; exact h5, ?_, h7⟩
    refine hdig d c b hl ?_
    have hsafe : ∀ w ∈ v :: inv0.contentDirectoryToUse :: ws, SafeName w := by
      intro w hw
      rcases List.mem_cons.mp hw with rfl | hw
      · obtain ⟨i, _, _, rfl⟩ := (h.parsed.good.names.2.2.2 _).mp h1
        exact styleName_safe _ _
      · rcases List.mem_cons.mp hw with rfl | hw
        · exact h.cdSafe
        · exact (h3 w hw).1
    rw [h4, resolve_pathOf base hsafe]
    exact h5
  · intro k t hkt
    have hst : stateIn vs1 (styleName none (k + 1)) = (stateIn vs (styleName none (k + 1))).map (fun x => (f x.1, x.2)) := hrec.state _
    refine ⟨?_, fun d' p => ?_⟩
    · intro e he
      rw [hst] at he
      obtain ⟨e', h1, rfl⟩ := List.mem_map.mp he
      exact (h.states k t hkt).1 e' h1
    rw [hst, lists_recode]
    -- a digest of the state and its file
    have key : ∀ d r b, Lists (stateIn vs (styleName none (k + 1))) d (pathOf r) → t r b → fileDigest E.raw alg b = some d →
        fileDigest E.raw newAlg b = some (f d) := by
      intro d r b hl ht hd
      by_cases he : newAlg = alg
      · rw [hid he, he]; exact hd
      · have hkey := h.parsed.good.stateKeys hl
        obtain ⟨ps, hps⟩ := Dict.exists_of_mem_keys hkey
        have hps := Dict.mem_of_get? hps
        obtain ⟨n1, n2⟩ := newDigest_ok.mp (hren he _ hps)
        obtain ⟨c, hc⟩ := List.exists_mem_of_ne_nil _ n1
        obtain ⟨_, _, x, _, _, _, _, _, k1, k2, k3⟩ := h.segs (⟨ps, hps, hc⟩ : Lists m d c)
        have hb : b = x := noCollision_digest hno h.parsed.good.algName ⟨t, List.mem_of_getElem? hkt, r, ht⟩ k3 (by rw [hd, k2])
        rw [hb]
        exact hdig d c x ⟨ps, hps, hc⟩ k1
    constructor
    · rintro ⟨d, rfl, hl⟩
      obtain ⟨r, b, h1, rfl, h3⟩ := ((h.states k t hkt).2 d p).mp hl
      exact ⟨r, b, h1, rfl, key d r b hl h1 h3⟩
    · rintro ⟨r, b, h1, rfl, h3⟩
      have hd := fileDigest_known E.raw h.parsed.good.algName b
      generalize E.raw alg b = d at hd
      have hl := ((h.states k t hkt).2 d _).mpr ⟨r, b, h1, rfl, hd⟩
      have := key d r b hl h1 hd
      rw [h3] at this
      cases this
      exact ⟨d, rfl, hl⟩
  · have hfx : inv1.fixity = (changeFixity { inv0 with digestAlgorithm := some newAlg } alg newAlg fixity).fixity := by
      rw [(changeDigest_ok hch).1]
    rw [hfx]
    unfold changeFixity
    cases fixity with
    | none =>
      dsimp only
      split
      · intro fx a fm hfx hm d c hl
        have hfx : some (Dict.set inv0.fixityD alg m) = some fx := by
          have e : (({ inv0 with digestAlgorithm := some newAlg } : Inv).manifestD) = m := h.parsed.good.manifestD
          have : some (Dict.set inv0.fixityD alg ((some ({ inv0 with digestAlgorithm := some newAlg } : Inv).manifestD).getD [])) = some fx := hfx
          rw [e] at this
          exact this
        cases hfx
        rcases Dict.mem_set_imp hm with hm | hm
        · unfold Inv.fixityD at hm
          cases hf : inv0.fixity with
          | none => rw [hf] at hm; cases hm
          | some fx0 => rw [hf] at hm; exact h.fixity fx0 a fm hf hm d c hl
        · obtain ⟨rfl, rfl⟩ := Prod.mk.inj hm
          obtain ⟨v, ws, b, _, _, h3, h4, h5, h6, h7, _⟩ := h.segs hl
          exact ⟨_, b, by simp, h3, h4, by rw [← h5]; exact h6, h7⟩
      · exact h.fixity
    | some l =>
      dsimp only
      intro fx' a fm hfx' hm
      cases hf : inv0.fixity with
      | none => rw [hf] at hfx'; cases hfx'
      | some fx0 =>
        rw [hf] at hfx'
        cases hfx'
        exact h.fixity fx0 a fm hf (List.mem_of_mem_filter hm)
  · rw [hrec.manifest]
    exact listed_map_key f m

end Ocfl
