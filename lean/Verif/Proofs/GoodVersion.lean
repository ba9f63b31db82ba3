import Verif.Proofs.Rehash
import Verif.Proofs.UpdateDigest

/-!
# An inventory with one more version made from a source directory
-/

namespace Ocfl

open Spec FS Ocfl.Inv

/-- What a version with number `n + 1` is added to: versions `1` to `n` that are in order, maybe none,
and a block for the new version without files. -/
structure Ground (nv : NV) (alg : Str) (m : DigestMap) (vs : Dict Str VBlock) (style : Option Nat) (n : Nat) (b : VBlock) :
    Prop where
  id : ∃ s, s ≠ [] ∧ nv.inv.id = some s
  type : ∃ t, nv.inv.type = some t ∧ TypeRule none t
  algorithm : nv.inv.digestAlgorithm = some alg
  algName : alg = c!"sha512" ∨ alg = c!"sha256"
  contentDirectory : ∀ cd, nv.inv.contentDirectory = some cd → '/' ∉ cd ∧ cd ≠ c!"." ∧ cd ≠ c!".."
  manifest : nv.inv.manifest = some m
  manifestKeys : Dict.NK m
  manifestRules : ManifestRules alg nv.inv.contentDirectoryToUse (Dict.keys vs) m
  normal : ∀ d ∈ Dict.keys m, normalizedDigest d alg = d
  versions : nv.inv.versions = some (Dict.set vs (styleName style (n + 1)) b)
  versionKeys : Dict.NK vs
  styleOK : StyleOK style
  limit : n + 1 ≤ styleLimit style
  names : ∀ v, v ∈ Dict.keys vs ↔ ∃ i, 1 ≤ i ∧ i ≤ n ∧ v = styleName style i
  head : nv.inv.head = some (styleName style (n + 1))
  blocks : ∀ v b, (v, b) ∈ vs → ∃ st, GoodBlock m b st
  used : ∀ d ps, (d, ps) ∈ m → ps ≠ [] → ∃ v b st, (v, b) ∈ vs ∧ b.state = some st ∧ d ∈ Dict.keys st
  fixity : ∀ fx, nv.inv.fixity = some fx → Dict.NK fx ∧ ∀ a fm, (a, fm) ∈ fx →
    KnownAlg a ∧ Dict.NK fm ∧ (∀ e ∈ fm, DigestText a e.1) ∧ fm.Pairwise (fun x y => ¬ SameDigest a x.1 y.1) ∧
      ∀ p ∈ listed fm, p ∈ listed m
  created : ∃ t, b.created = some t ∧ Timestamp t
  user : ∀ u, b.user = some u → ∃ n, u.name = some n
  state : b.state.getD [] = []
  queue : nv.filesToCopy = []

theorem Ground.fresh {nv : NV} {alg : Str} {m : DigestMap} {vs : Dict Str VBlock} {style : Option Nat} {n : Nat} {b : VBlock}
    (h : Ground nv alg m vs style n b) : styleName style (n + 1) ∉ Dict.keys vs := by
  intro hm
  obtain ⟨i, h1, h2, he⟩ := (h.names _).mp hm
  have := styleName_inj he
  omega

theorem Ground.versionsD {nv : NV} {alg : Str} {m : DigestMap} {vs : Dict Str VBlock} {style : Option Nat} {n : Nat} {b : VBlock}
    (h : Ground nv alg m vs style n b) : nv.inv.versionsD = Dict.set vs (styleName style (n + 1)) b := by
  unfold Inv.versionsD; rw [h.versions]; rfl

theorem Ground.manifestD {nv : NV} {alg : Str} {m : DigestMap} {vs : Dict Str VBlock} {style : Option Nat} {n : Nat} {b : VBlock}
    (h : Ground nv alg m vs style n b) : nv.inv.manifestD = m := by
  unfold Inv.manifestD; rw [h.manifest]; rfl

theorem Ground.versionData {nv : NV} {alg : Str} {m : DigestMap} {vs : Dict Str VBlock} {style : Option Nat} {n : Nat} {b : VBlock}
    (h : Ground nv alg m vs style n b) : nv.inv.versionData (styleName style (n + 1)) = some b := by
  unfold Inv.versionData
  rw [h.versionsD, Dict.get?_set, if_pos rfl]

theorem Ground.stateOf {nv : NV} {alg : Str} {m : DigestMap} {vs : Dict Str VBlock} {style : Option Nat} {n : Nat} {b : VBlock}
    (h : Ground nv alg m vs style n b) : nv.inv.stateOf (styleName style (n + 1)) = [] := by
  unfold Inv.stateOf
  rw [h.versionData]
  exact h.state

theorem Ground.building {nv : NV} {alg : Str} {m : DigestMap} {vs : Dict Str VBlock} {style : Option Nat} {n : Nat} {b : VBlock}
    (h : Ground nv alg m vs style n b) : Building nv (styleName style (n + 1)) where
  head_eq := h.head
  block := by rw [h.versionData]; rfl
  stateKeys := by rw [h.stateOf]; exact Dict.NK_nil
  statePaths := by rw [h.stateOf]; exact List.nodup_nil
  manifestKeys := by rw [h.manifestD]; exact h.manifestKeys

/-- A content path lies in the directory of its version. -/
theorem contentPath_dir {cd v head : Str} {segs : List Str} {p : Str} (hc : ContentPath cd v segs p) (hv : '/' ∉ v) (hh : '/' ∉ head)
    (hd : InDir head p) : v = head := by
  obtain ⟨_, hne, _, tail, hp, _⟩ := hc
  obtain ⟨rest, hr⟩ := hd
  have e1 : (splitOn '/' p).head? = some v := by
    rw [hp, ← joinWith_eq_pathOf, joinWith_cons _ _ (by simp), List.append_assoc, List.cons_append, splitOn_append_sep hv]
    rfl
  have e2 : (splitOn '/' p).head? = some head := by
    rw [hr]
    have : head ++ c!"/" ++ rest = head ++ '/' :: rest := by simp
    rw [this, splitOn_append_sep hh]
    rfl
  rw [e1] at e2
  exact Option.some.inj e2

theorem Ground.free {nv : NV} {alg : Str} {m : DigestMap} {vs : Dict Str VBlock} {style : Option Nat} {n : Nat} {b : VBlock}
    (h : Ground nv alg m vs style n b) : ∀ c ∈ listed nv.inv.manifestD, ¬ InDir (styleName style (n + 1)) c := by
  intro c hc hd
  rw [h.manifestD] at hc
  obtain ⟨v, hv, segs, hp⟩ := h.manifestRules.paths c hc
  obtain ⟨i, h1, h2, rfl⟩ := (h.names v).mp hv
  have e := contentPath_dir hp (styleName_safe _ _).2.2.2 (styleName_safe _ _).2.2.2 hd
  have := styleName_inj e
  omega

theorem Ground.contentDirName {nv : NV} {alg : Str} {m : DigestMap} {vs : Dict Str VBlock} {style : Option Nat} {n : Nat} {b : VBlock}
    (h : Ground nv alg m vs style n b) : ContentDirName nv.inv.contentDirectoryToUse := by
  unfold Inv.contentDirectoryToUse
  cases hc : nv.inv.contentDirectory with
  | none => exact ⟨by decide, by decide, by decide⟩
  | some cd => exact h.contentDirectory cd hc

/-- The names of the new content files. -/
theorem Ground.queueSegs {nv0 nv : NV} {alg : Str} {m : DigestMap} {vs : Dict Str VBlock} {style : Option Nat} {n : Nat} {b : VBlock}
    (h : Ground nv0 alg m vs style n b) {EN : NVEnv} {srcs : List Str}
    (ha : NV.Added EN nv0 (styleName style (n + 1)) srcs nv) (hs : NV.SourceNames srcs) (hx : HexNames EN.md5hex)
    (hcd : nv0.inv.contentDirectoryToUse ≠ []) :
    ∃ f : Str → List Str, (∀ x ∈ nv.filesToCopy, f x.2 ≠ [] ∧ (∀ w ∈ f x.2, SafeName w) ∧
        x.2 = pathOf (styleName style (n + 1) :: nv0.inv.contentDirectoryToUse :: f x.2) ∧
        ((nv0.norm = none → '\n' ∉ x.1) → ∀ w ∈ f x.2, '\n' ∉ w)) ∧
      ∀ x ∈ nv.filesToCopy, ∀ y ∈ nv.filesToCopy, f x.2 <+: f y.2 → x = y := by
  obtain ⟨f, h1, h2⟩ := ha.queueSegs hs (styleName_safe _ _) h.contentDirName hx h.free
  refine ⟨f, ?_, h2⟩
  intro x hxm
  obtain ⟨a1, a2, a3, a4⟩ := h1 x hxm
  refine ⟨a1, a2, ?_, a4⟩
  have e : NV.cdSegs nv0.inv.contentDirectoryToUse = [nv0.inv.contentDirectoryToUse] := by
    unfold NV.cdSegs; rw [if_neg hcd]
  rw [e] at a3
  rw [← joinWith_eq_pathOf]
  exact a3

theorem pathOf_inj {a b : List Str} (ha : a ≠ []) (hb : b ≠ []) (h1 : ∀ w ∈ a, '/' ∉ w) (h2 : ∀ w ∈ b, '/' ∉ w)
    (h : pathOf a = pathOf b) : a = b := by
  rw [← joinWith_eq_pathOf, ← joinWith_eq_pathOf] at h
  rw [← splitOn_joinWith ha h1, ← splitOn_joinWith hb h2, h]

theorem pathOf_two (v cd : Str) {segs : List Str} (h : segs ≠ []) : pathOf (v :: cd :: segs) = v ++ '/' :: (cd ++ '/' :: pathOf segs) := by
  rw [← joinWith_eq_pathOf, ← joinWith_eq_pathOf, joinWith_cons _ _ (by simp), joinWith_cons _ _ h]

theorem pathOf_noNewline {segs : List Str} (h : ∀ w ∈ segs, '\n' ∉ w) : '\n' ∉ pathOf segs := by
  induction segs with
  | nil => simp [pathOf, List.intercalate]
  | cons w ws ih =>
    by_cases hw : ws = []
    · subst hw
      rw [← joinWith_eq_pathOf]
      exact h w (by simp)
    · rw [← joinWith_eq_pathOf, joinWith_cons _ _ hw]
      intro hm
      rcases List.mem_append.mp hm with hm | hm
      · exact h w (by simp) hm
      · rcases List.mem_cons.mp hm with hm | hm
        · cases hm
        · rw [joinWith_eq_pathOf] at hm
          exact ih (fun x hx => h x (by simp [hx])) hm

theorem pathOf_cons_dir (v : Str) {segs : List Str} (h : segs ≠ []) : InDir v (pathOf (v :: segs)) := by
  refine ⟨pathOf segs, ?_⟩
  rw [← joinWith_eq_pathOf, ← joinWith_eq_pathOf, joinWith_cons _ _ h]
  simp

theorem inDir_unique {a b p : Str} (ha : '/' ∉ a) (hb : '/' ∉ b) (h1 : InDir a p) (h2 : InDir b p) : a = b := by
  obtain ⟨r, rfl⟩ := h1
  obtain ⟨r', h⟩ := h2
  have e1 : splitOn '/' (a ++ c!"/" ++ r) = a :: splitOn '/' r := by
    have : a ++ c!"/" ++ r = a ++ '/' :: r := by simp
    rw [this, splitOn_append_sep ha]
  have e2 : splitOn '/' (b ++ c!"/" ++ r') = b :: splitOn '/' r' := by
    have : b ++ c!"/" ++ r' = b ++ '/' :: r' := by simp
    rw [this, splitOn_append_sep hb]
  rw [h, e2] at e1
  exact (List.cons.inj e1).1.symm

theorem contentPath_inDir {cd v : Str} {segs : List Str} {p : Str} (hc : ContentPath cd v segs p) : InDir v p := by
  obtain ⟨_, hne, _, tail, hp, _⟩ := hc
  obtain ⟨r, hr⟩ := pathOf_cons_dir v (segs := cd :: segs) (by simp)
  exact ⟨r ++ tail, by rw [hp, hr, List.append_assoc]⟩

/-- Names of a content path without newlines. -/
theorem contentPath_segs {cd v : Str} {segs segs' : List Str} (hne : segs' ≠ []) (hs : ∀ w ∈ segs', SafeName w ∧ '\n' ∉ w)
    (hc : ContentPath cd v segs (pathOf (v :: cd :: segs'))) : segs = segs' := by
  obtain ⟨_, hne2, hsafe, tail, hp, ht⟩ := hc
  rw [pathOf_two v cd hne, pathOf_two v cd hne2] at hp
  have hp : pathOf segs' = pathOf segs ++ tail := by simpa [List.append_assoc] using hp
  have htl : tail = [] := by
    rcases ht with h | ⟨h, _⟩
    · exact h
    · exfalso
      have : '\n' ∈ tail := by
        cases tail with
        | nil => cases h
        | cons c t => simp at h; simp [h]
      refine pathOf_noNewline (fun w hw => (hs w hw).2) ?_
      rw [hp]; simp [this]
  rw [htl, List.append_nil] at hp
  exact (pathOf_inj hne hne2 (fun w hw => (hs w hw).1.2.2.2) (fun w hw => (hsafe w hw).1.2.2.2) hp).symm

/-- The digests that are computed have the form of digests. -/
def GoodDigests (EN : NVEnv) (alg : Str) : Prop :=
  ∀ p d, EN.srcDigest alg p = .ok d → DigestForm alg d ∧ normalizedDigest d alg = d

theorem goodDigests_src {E : Env} (h : HashLib E.raw) {alg : Str} (ha : alg = c!"sha512" ∨ alg = c!"sha256") (s : FS) (src : Path) :
    GoodDigests (srcEnv E s src) alg := by
  intro p d hd
  have hd : digestAt E s (FS.resolve src p) alg = .ok d := hd
  obtain ⟨b, _, hb⟩ := digestAt_ok.mp hd
  exact digestForm_raw h ha hb

/-- The inventory with the new version obeys the rules. -/
theorem Ground.good {nv0 nv : NV} {alg : Str} {m : DigestMap} {vs : Dict Str VBlock} {style : Option Nat} {n : Nat} {b : VBlock}
    (h : Ground nv0 alg m vs style n b) {EN : NVEnv} {srcs : List Str}
    (ha : NV.Added EN nv0 (styleName style (n + 1)) srcs nv) (hs : NV.SourceNames srcs) (hx : HexNames EN.md5hex)
    (hd : GoodDigests EN alg) (hcd : nv0.inv.contentDirectoryToUse ≠ []) (hnl : nv0.norm = none → ∀ p ∈ srcs, '\n' ∉ p)
    (hst : srcs ≠ [] ∨ ∃ st, b.state = some st) :
    Parsed nv.inv alg nv.inv.manifestD
      (Dict.set vs (styleName style (n + 1)) { b with state := some (nv.inv.stateOf (styleName style (n + 1))) }) style (n + 1) := by
  obtain ⟨f, hf1, hf2⟩ := h.queueSegs ha hs hx hcd
  have hsh : '/' ∉ styleName style (n + 1) := (styleName_safe _ _).2.2.2
  have hfree := h.free
  rw [h.manifestD] at hfree
  have hnlq : ∀ x ∈ nv.filesToCopy, ∀ w ∈ f x.2, SafeName w ∧ '\n' ∉ w := by
    intro x hxm w hw
    obtain ⟨_, a2, _, a4⟩ := hf1 x hxm
    exact ⟨a2 w hw, a4 (fun hn => hnl hn _ (ha.queueDone x hxm)) w hw⟩
  have hkeep : nv.inv.id = nv0.inv.id ∧ nv.inv.type = nv0.inv.type ∧ nv.inv.contentDirectory = nv0.inv.contentDirectory ∧
      nv.inv.fixity = nv0.inv.fixity := by
    by_cases hne : srcs = []
    · rw [ha.none_done hne]; exact ⟨rfl, rfl, rfl, rfl⟩
    · rw [ha.inv hne]
      refine ⟨?_, ?_, ?_, ?_⟩ <;> (simp only [Inv.setState, h.versionData])
  have hhd := ha.head
  have hman : nv.inv.manifest = some nv.inv.manifestD := by
    obtain ⟨m', hm'⟩ := ha.manifest
    unfold Inv.manifestD
    rw [hm']; rfl
  have hver : nv.inv.versions = some (Dict.set vs (styleName style (n + 1))
      { b with state := some (nv.inv.stateOf (styleName style (n + 1))) }) := by
    by_cases hne : srcs = []
    · rw [ha.none_done hne, h.versions, h.stateOf]
      rcases hst with hst | ⟨st, hst⟩
      · exact absurd hne hst
      · have e := h.state
        rw [hst] at e
        have e : st = [] := e
        subst e
        rw [← hst]
    · have e := congrArg Inv.versions (ha.inv hne)
      simp only [Inv.setState, h.versionData] at e
      rw [h.versionsD, Dict.set_set] at e
      exact e
  have halg : nv0.inv.digestAlgorithm.getD [] = alg := by rw [h.algorithm]; rfl
  have hlists : ∀ d c, Lists nv.inv.manifestD d c ↔ Lists m d c ∨ ∃ p, (p, c) ∈ nv.filesToCopy ∧ EN.srcDigest alg p = .ok d := by
    intro d c
    rw [ha.paths, h.manifestD, halg]
  have hlisted : ∀ c, c ∈ listed nv.inv.manifestD ↔ c ∈ listed m ∨ ∃ p, (p, c) ∈ nv.filesToCopy := by
    intro c
    constructor
    · intro hc
      obtain ⟨d, hl⟩ := mem_listed.mp hc
      rcases (hlists d c).mp hl with hl | ⟨p, hp, _⟩
      · exact Or.inl (mem_listed.mpr ⟨d, hl⟩)
      · exact Or.inr ⟨p, hp⟩
    · rintro (hc | ⟨p, hp⟩)
      · obtain ⟨d, hl⟩ := mem_listed.mp hc
        exact mem_listed.mpr ⟨d, (hlists d c).mpr (Or.inl hl)⟩
      · obtain ⟨d, hdg, _⟩ := ha.digests p (ha.queueDone _ hp)
        rw [halg] at hdg
        exact mem_listed.mpr ⟨d, (hlists d c).mpr (Or.inr ⟨p, hp, hdg⟩)⟩
  have hkey : ∀ e ∈ nv.inv.manifestD, e.1 ∈ Dict.keys m ∨ ∃ p ∈ srcs, EN.srcDigest alg p = .ok e.1 := by
    rintro ⟨d, ps⟩ he
    by_cases hps : ps = []
    · have := ha.manifestNonempty _ he hps
      rw [h.manifestD] at this
      exact Or.inl (Dict.mem_keys_of_mem this)
    · obtain ⟨c, hc⟩ := List.exists_mem_of_ne_nil _ hps
      rcases (hlists d c).mp ⟨ps, he, hc⟩ with ⟨ps', h1, _⟩ | ⟨p, hp, hdg⟩
      · exact Or.inl (Dict.mem_keys_of_mem h1)
      · exact Or.inr ⟨p, ha.queueDone _ hp, hdg⟩
  have hkeep' : ∀ d c, Lists nv.inv.manifestD d c → ∃ ps, ps ≠ [] ∧ (d, ps) ∈ nv.inv.manifestD := by
    rintro d c ⟨ps, h1, h2⟩
    exact ⟨ps, List.ne_nil_of_mem h2, h1⟩
  have htrans : ∀ d ps, ps ≠ [] → (d, ps) ∈ m → ∃ ps', ps' ≠ [] ∧ (d, ps') ∈ nv.inv.manifestD := by
    intro d ps hne hm
    obtain ⟨c, hc⟩ := List.exists_mem_of_ne_nil _ hne
    exact hkeep' d c ((hlists d c).mpr (Or.inl ⟨ps, hm, hc⟩))
  have hnormal : ∀ d ∈ Dict.keys nv.inv.manifestD, normalizedDigest d alg = d := by
    intro d hdm
    obtain ⟨ps, hps⟩ := Dict.exists_of_mem_keys hdm
    rcases hkey _ (Dict.mem_of_get? hps) with hk | ⟨p, _, hdg⟩
    · exact h.normal d hk
    · exact (hd p d hdg).2
  have hkeys : ∀ v, v ∈ Dict.keys (Dict.set vs (styleName style (n + 1))
      { b with state := some (nv.inv.stateOf (styleName style (n + 1))) }) ↔ v = styleName style (n + 1) ∨ v ∈ Dict.keys vs :=
    fun v => Dict.mem_keys_set
  have hinq : ∀ x ∈ nv.filesToCopy, InDir (styleName style (n + 1)) x.2 := by
    intro x hxm
    rw [(hf1 x hxm).2.2.1]
    exact pathOf_cons_dir _ (by simp)
  have hstate : ∀ d p, Lists (nv.inv.stateOf (styleName style (n + 1))) d p ↔ p ∈ srcs ∧ EN.srcDigest alg p = .ok d := by
    intro d p
    rw [ha.state, h.stateOf, halg]
    simp [Lists_nil]
  have hslisted : ∀ p, p ∈ listed (nv.inv.stateOf (styleName style (n + 1))) → p ∈ srcs := by
    intro p hp
    obtain ⟨d, hl⟩ := mem_listed.mp hp
    exact ((hstate d p).mp hl).1
  have hsafe2 : ∀ segs : List Str, (∀ w ∈ segs, SafeName w) → ∀ w ∈ styleName style (n + 1) :: nv0.inv.contentDirectoryToUse :: segs,
      '/' ∉ w := by
    intro segs hsg w hw
    rcases List.mem_cons.mp hw with rfl | hw
    · exact hsh
    · rcases List.mem_cons.mp hw with rfl | hw
      · exact h.contentDirName.1
      · exact (hsg w hw).2.2.2
  have hsty := h.styleOK
  have hlim := h.limit
  have hgood : Good nv.inv alg nv.inv.manifestD
      (Dict.set vs (styleName style (n + 1)) { b with state := some (nv.inv.stateOf (styleName style (n + 1))) }) style (n + 1) := by
    refine ⟨by rw [hkeep.1]; exact h.id, by rw [hkeep.2.1]; exact h.type, by rw [hhd.2.1]; exact h.algorithm, h.algName,
      by rw [hkeep.2.2.1]; exact h.contentDirectory, hman, ha.manifestKeys, ?_, hver, Dict.NK_set h.versionKeys _ _, ?_,
      by rw [hhd.1]; exact h.head, ?_, ?_, ?_⟩
    · -- the manifest
      rw [hhd.2.2]
      refine ⟨?_, distinct_of_normal ha.manifestKeys hnormal, ?_, ha.unique (by rw [h.manifestD]; exact h.manifestRules.unique), ?_⟩
      · intro e he
        rcases hkey e he with hk | ⟨p, _, hdg⟩
        · obtain ⟨ps, hps⟩ := Dict.exists_of_mem_keys hk
          exact h.manifestRules.digests (e.1, ps) (Dict.mem_of_get? hps)
        · exact Or.inl (hd p _ hdg).1
      · intro p hp
        rcases (hlisted p).mp hp with hp | ⟨q, hq⟩
        · obtain ⟨v, hv, segs, hc⟩ := h.manifestRules.paths p hp
          exact ⟨v, (hkeys v).mpr (Or.inr hv), segs, hc⟩
        · obtain ⟨a1, a2, a3, a4⟩ := hf1 _ hq
          refine ⟨_, (hkeys _).mpr (Or.inl rfl), f p, hcd, a1, fun w hw => ⟨(hnlq _ hq w hw).1, (hnlq _ hq w hw).2⟩, [], ?_, Or.inl rfl⟩
          rw [List.append_nil]; exact a3
      · intro p hp v hv segs hc hin
        have hdirv := contentPath_inDir hc
        have hvs : '/' ∉ v := by
          rcases (hkeys v).mp hv with rfl | hv
          · exact hsh
          · obtain ⟨i, _, _, rfl⟩ := (h.names v).mp hv
            exact (styleName_safe _ _).2.2.2
        rcases (hlisted p).mp hp with hp | ⟨q, hq⟩
        · -- a path of an earlier version
          obtain ⟨v0, hv0, segs0, hc0⟩ := h.manifestRules.paths p hp
          have hv0s : '/' ∉ v0 := by
            obtain ⟨i, _, _, rfl⟩ := (h.names v0).mp hv0
            exact (styleName_safe _ _).2.2.2
          have hvv : v = v0 := inDir_unique hvs hv0s hdirv (contentPath_inDir hc0)
          subst hvv
          rcases (hlisted _).mp hin with hin | ⟨y, hy⟩
          · exact h.manifestRules.noConflict p hp v hv0 segs hc hin
          · have hv : v = styleName style (n + 1) :=
              inDir_unique hvs hsh (pathOf_cons_dir v (by simp)) (hinq _ hy)
            exact h.fresh (hv ▸ hv0)
        · -- a new path
          obtain ⟨a1, a2, a3, a4⟩ := hf1 _ hq
          have hv : v = styleName style (n + 1) := inDir_unique hvs hsh hdirv (hinq _ hq)
          subst hv
          have a3 : p = pathOf (styleName style (n + 1) :: nv0.inv.contentDirectoryToUse :: f p) := a3
          rw [a3] at hc
          have hseg := contentPath_segs a1 (hnlq _ hq) hc
          subst hseg
          rcases (hlisted _).mp hin with hin | ⟨y, hy⟩
          · exact hfree _ hin (pathOf_cons_dir _ (by simp))
          · obtain ⟨b1, b2, b3, b4⟩ := hf1 _ hy
            generalize hz : pathOf (styleName style (n + 1) :: nv0.inv.contentDirectoryToUse :: (f p).dropLast) = z at hy b1 b2 b3 b4
            have b3 : z = pathOf (styleName style (n + 1) :: nv0.inv.contentDirectoryToUse :: f z) := b3
            rw [← hz] at b3
            have e := pathOf_inj (by simp) (by simp) (hsafe2 _ (fun w hw => a2 w (List.dropLast_subset _ hw)))
              (hsafe2 _ (by rw [hz]; exact b2)) b3
            have e : (f p).dropLast = f z := by
              have := (List.cons.inj (List.cons.inj e).2).2
              rw [hz] at this; exact this
            have hxy := hf2 _ hy _ hq (by
              show f z <+: f p
              rw [← e]; exact List.dropLast_prefix _)
            have hzp : z = p := (Prod.mk.inj hxy).2
            rw [hzp] at e
            have e1 := congrArg List.length e
            rw [List.length_dropLast] at e1
            have e2 : 0 < (f p).length := List.length_pos_iff.mpr a1
            omega
    · -- the names
      refine ⟨?_, by omega, ?_, ?_⟩
      · intro w hw
        subst hw
        have : 2 ≤ w ∧ w ≤ 5 := hsty
        omega
      · cases style with
        | none =>
          have : n + 1 ≤ 99999 := hlim
          show n + 1 ≤ 999999
          omega
        | some w => exact hlim
      · intro v
        have : v ∈ List.map Prod.fst (Dict.set vs (styleName style (n + 1))
          { b with state := some (nv.inv.stateOf (styleName style (n + 1))) }) ↔ _ := hkeys v
        rw [hkeys, h.names]
        constructor
        · rintro (rfl | ⟨i, h1, h2, rfl⟩)
          · exact ⟨n + 1, by omega, le_refl _, rfl⟩
          · exact ⟨i, h1, by omega, rfl⟩
        · rintro ⟨i, h1, h2, rfl⟩
          by_cases hi : i = n + 1
          · left; rw [hi]
          · right; exact ⟨i, h1, by omega, rfl⟩
    · -- the blocks
      intro v b' hvb
      rcases (Dict.mem_set_imp hvb) with hold | hnew
      · obtain ⟨st, hg⟩ := h.blocks v b' hold
        refine ⟨st, hg.created, hg.state, hg.keys, hg.user, ?_, hg.paths, hg.unique, hg.noConflict⟩
        intro e he
        obtain ⟨ps, hne, hm⟩ := hg.digests e he
        exact htrans e.1 ps hne hm
      · obtain ⟨rfl, rfl⟩ := Prod.mk.inj hnew
        refine ⟨_, h.created, rfl, ha.stateKeys, h.user, ?_, ?_, ha.statePaths, ?_⟩
        · rintro ⟨d, ps⟩ he
          have hps : ps ≠ [] := by
            intro hps
            have := ha.stateNonempty _ he hps
            rw [h.stateOf] at this
            cases this
          obtain ⟨p, hp⟩ := List.exists_mem_of_ne_nil _ hps
          obtain ⟨h1, h2⟩ := (hstate d p).mp ⟨ps, he, hp⟩
          obtain ⟨d', h3, c, hc⟩ := ha.digests p h1
          rw [halg, h2] at h3
          cases h3
          exact hkeep' d c hc
        · intro p hp
          obtain ⟨r, h1, h2, h3⟩ := hs.names p (hslisted p hp)
          exact ⟨r, h1, h2, by rw [h3, joinWith_eq_pathOf]⟩
        · intro p hp segs hlp hin
          obtain ⟨h1, h2, h3⟩ := hlp
          have hp1 := hslisted p hp
          have hp2 := hslisted _ hin
          rw [h3, ← joinWith_eq_pathOf] at hp1
          rw [← joinWith_eq_pathOf] at hp2
          have hne : segs.dropLast ≠ [] := by
            intro e
            rw [e] at hp2
            obtain ⟨r, r1, r2, r3⟩ := hs.names _ hp2
            exact joinWith_ne_nil r1 (fun w hw => SafeName.isComp (r2 w hw)) r3.symm
          have := hs.apart _ _ hne h2 hp2 hp1 (List.dropLast_prefix _)
          have := congrArg List.length this
          rw [List.length_dropLast] at this
          have := List.length_pos_iff.mpr h1
          omega
    · -- every digest is used
      intro d ps hm hne
      rcases hkey _ hm with hk | ⟨p, hp, hdg⟩
      · obtain ⟨c, hc⟩ := List.exists_mem_of_ne_nil _ hne
        rcases (hlists d c).mp ⟨ps, hm, hc⟩ with ⟨ps', h1, h2⟩ | ⟨p, hp, hdg⟩
        · obtain ⟨v, b', st, h3, h4, h5⟩ := h.used d ps' h1 (List.ne_nil_of_mem h2)
          refine ⟨v, b', st, ?_, h4, h5⟩
          refine (Dict.mem_set h.versionKeys).mpr (Or.inr ⟨?_, h3⟩)
          intro e
          exact h.fresh (e ▸ Dict.mem_keys_of_mem h3)
        · obtain ⟨ps2, h6, _⟩ := (hstate d p).mpr ⟨ha.queueDone _ hp, hdg⟩
          exact ⟨_, _, _, (Dict.mem_set h.versionKeys).mpr (Or.inl rfl), rfl, Dict.mem_keys_of_mem h6⟩
      · obtain ⟨ps2, h6, _⟩ := (hstate d p).mpr ⟨hp, hdg⟩
        exact ⟨_, _, _, (Dict.mem_set h.versionKeys).mpr (Or.inl rfl), rfl, Dict.mem_keys_of_mem h6⟩
    · -- fixity
      intro fx hfx
      rw [hkeep.2.2.2] at hfx
      obtain ⟨k1, k2⟩ := h.fixity fx hfx
      refine ⟨k1, fun a fm hfm => ?_⟩
      obtain ⟨q1, q2, q3, q4, q5⟩ := k2 a fm hfm
      exact ⟨q1, q2, q3, q4, fun p hp => (hlisted p).mpr (Or.inl (q5 p hp))⟩
  exact ⟨hgood, hnormal, hsty, hlim⟩

end Ocfl
