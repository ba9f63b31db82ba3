import Verif.Proofs.BuildSound
import Verif.Props.LibraryValid
import Verif.Props.Metadata
import Verif.Props.StoreObjects

/-!
# C80: building an object from directories of versions
-/

namespace Ocfl

open Spec FS Prog Validator

/-- If `build` succeeds, the version directories are numbered from 1 without gaps. -/
theorem build_numbered {E : Env} (hcwd : ∀ w ∈ E.cwd, SafeName w) {o : Obj} {srcdir objdir : Str} {metadata : Nat → VBlock} {s s' : FS} (hw : s.WF)
    (hplain : ∀ w m, VersionSource s (absComps E.cwd srcdir) w m → w = unpaddedName m)
    (hout : ¬ absComps E.cwd srcdir <+: absComps E.cwd objdir) (hfile : ∃ r b, FileBelow s (absComps E.cwd srcdir ++ [c!"v1"]) r b)
    {inv : Option Inv} (hr : run (build E o srcdir metadata (some objdir)) s = (s', .ok inv)) :
    ∃ n, VersionSources s (absComps E.cwd srcdir) n := by
  have hdir1 : look s (absComps E.cwd srcdir ++ [c!"v1"]) = some .dir := by
    obtain ⟨r, b, h1, h2⟩ := hfile
    exact look_above hw r h1 h2
  have hsd : look s (absComps E.cwd srcdir) = some .dir := look_above hw _ (by simp) hdir1
  have hr' := hr
  unfold build at hr'
  split at hr'
  · cases hr'
  obtain ⟨s1, b1, h1, hr'⟩ := run_bind_inv hr'
  obtain ⟨s1', b1', h1', h1''⟩ := run_bind_inv h1
  obtain ⟨hb, w1, _, _, l1⟩ := run_openObjCreate hcwd hw h1'
  have e1 : (s1', (Except.ok (some b1') : Py (Option Path))) = (s1, .ok b1) := h1''
  cases e1
  have k1 : ∀ q, look s1 (absComps E.cwd srcdir ++ q) = look s (absComps E.cwd srcdir ++ q) := by
    intro q
    rw [l1, if_neg]
    rintro ⟨he, _⟩
    rw [hb] at he
    exact hout (by rw [← he]; exact List.prefix_append _ _)
  obtain ⟨s2, vs, h2, _⟩ := run_bind_inv hr'
  rw [run_look] at h2
  obtain ⟨hs2, hvs⟩ := Prod.mk.inj h2
  subst hs2
  have hsd1 : look s1 (absComps E.cwd srcdir) = some .dir := by
    have := k1 []
    rw [List.append_nil] at this
    rw [this]; exact hsd
  unfold fswOpen at hvs
  dsimp only at hvs
  rw [if_pos (by rw [isdir_iff]; exact hsd1)] at hvs
  obtain ⟨n, h⟩ := sources_of_versionDirs w1 hsd1 (by
    intro w m hv
    refine hplain w m ?_
    unfold VersionSource at hv ⊢
    rw [← k1]
    exact hv) hvs
  refine ⟨n, fun w => ?_⟩
  rw [← h w]
  unfold VersionSource
  rw [k1]

/-- **C80**: `build` makes an object that has one version for each version directory of the source, with exactly the files
of that directory and with the metadata given for its number. Validation accepts the object if it was declared with version
1.1 of the specification or has at most two versions. Nothing is changed elsewhere.

Missing from the full statement: names of version directories with leading zeros, see `C80_violated` and
`C80_violated_first`; and sources without version directories, see `C80_violated_empty`. -/
theorem C80_partial {E : Env} (hE : Libraries E) (hcwd : ∀ w ∈ E.cwd, SafeName w) {o : Obj} (ho : GoodSettings o) {srcdir objdir id : Str}
    (hid : o.id = some id) {metadata : Nat → VBlock} {s s' : FS} (hw : s.WF)
    (hplain : ∀ w m, VersionSource s (absComps E.cwd srcdir) w m → w = unpaddedName m)
    (hmeta : ∀ w m, VersionSource s (absComps E.cwd srcdir) w m → GoodMeta (some (metadata m)))
    (hvac : Vacant s (absComps E.cwd objdir)) (hout : ¬ absComps E.cwd srcdir <+: absComps E.cwd objdir)
    (hfile : ∃ r b, FileBelow s (absComps E.cwd srcdir ++ [c!"v1"]) r b)
    (hnames : ∀ w m, VersionSource s (absComps E.cwd srcdir) w m → NamesAllowed o (FileBelow s (absComps E.cwd srcdir ++ [w])))
    (hno : NoCollision E.raw (fun b => ∃ w m r, VersionSource s (absComps E.cwd srcdir) w m ∧ FileBelow s (absComps E.cwd srcdir ++ [w]) r b))
    {inv : Option Inv} (hr : run (build E o srcdir metadata (some objdir)) s = (s', .ok inv)) :
    ∃ n, (∀ w m, VersionSource s (absComps E.cwd srcdir) w m ↔ w = unpaddedName m ∧ 1 ≤ m ∧ m ≤ n) ∧
      (o.specVersion = c!"1.1" ∨ n ≤ 2 → ∀ cfg : Config, cfg.lax = false → ∃ es, validateObject E cfg 0 s' objdir = .ok (true, es)) ∧
      (∀ m version dstdir, 1 ≤ m → m ≤ n → version = unpaddedName m ∨ (version = c!"head" ∧ m = n) →
        ¬ absComps E.cwd objdir <+: absComps E.cwd dstdir → look s' (dstParent E dstdir) = some .dir → Vacant s' (absComps E.cwd dstdir) →
        ∃ s'' md, run (extract E objdir version dstdir) s' = (s'', .ok md) ∧
          (∀ r b, FileBelow s'' (absComps E.cwd dstdir) r b ↔ FileBelow s (absComps E.cwd srcdir ++ [unpaddedName m]) r b) ∧
          md = { id := some id, created := (metadata m).created, message := (metadata m).message, name := (metadata m).user.bind (·.name),
                 address := (metadata m).user.bind (·.address), version := some (unpaddedName m) }) ∧
      ∀ q, ¬ absComps E.cwd objdir <+: q → look s' q = look s q := by
  obtain ⟨n, hn⟩ := build_numbered hcwd hw hplain hout hfile hr
  have hlen := versionTrees_length s (absComps E.cwd srcdir) n
  have hblocks : ∀ k < n, GoodMeta (some (metadata (k + 1))) := fun k hk => hmeta _ _ (hn.dir hk)
  have hnames' : ∀ t ∈ versionTrees s (absComps E.cwd srcdir) n, NamesAllowed o t := by
    intro t ht
    obtain ⟨k, hk, rfl⟩ := List.mem_map.mp ht
    exact hnames _ _ (hn.dir (List.mem_range.mp hk))
  have hist : DatedHistory E (absComps E.cwd objdir) id _ s' := .build hw ho hn hblocks hid rfl hvac hout hfile hnames' hr
  have hmap : ((versionTrees s (absComps E.cwd srcdir) n).zip ((List.range n).map (fun k => metadata (k + 1)))).map Prod.fst =
      versionTrees s (absComps E.cwd srcdir) n := List.map_fst_zip (by simp [versionTrees])
  have hno' : NoCollision E.raw (InTrees (versionTrees s (absComps E.cwd srcdir) n)) := by
    refine NoCollision.mono hno ?_
    rintro b ⟨t, ht, r, hb⟩
    obtain ⟨k, hk, rfl⟩ := List.mem_map.mp ht
    exact ⟨_, _, r, hn.dir (List.mem_range.mp hk), hb⟩
  obtain ⟨recs, rl, _, _, hsound, _, _, hrest⟩ := sound_build hE.hash hE.word hcwd ho hw hn hblocks hvac hout hfile hnames' hr
  refine ⟨n, fun w m => ⟨fun h => hn.number h, ?_⟩, ?_, ?_, hrest⟩
  · rintro ⟨rfl, h1, h2⟩
    have := hn.dir (k := m - 1) (by omega)
    rwa [Nat.sub_add_cancel h1] at this
  · intro hv cfg hlax
    have hh := hist.history
    rw [hmap] at hh
    refine (C74 hE hcwd hh hno' (by rw [hlen]; exact hn.limit) hlax).mpr ?_
    rcases hv with hv | hv
    · left
      have hd := hsound.declaration
      rw [hv] at hd
      rw [show c!"0=ocfl_object_1.1" = declarationName c!"1.1" from rfl, hd]
      simp
    · right
      rw [hlen]; exact hv
  · intro m version dstdir h1 h2 hversion hoo hp hvd
    obtain ⟨k, rfl⟩ : ∃ k, m = k + 1 := ⟨m - 1, by omega⟩
    have hr1 : (List.range n)[k]? = some k := List.getElem?_range (by omega)
    have hkt : (versionTrees s (absComps E.cwd srcdir) n)[k]? = some (FileBelow s (absComps E.cwd srcdir ++ [unpaddedName (k + 1)])) := by
      unfold versionTrees
      rw [List.getElem?_map, hr1]
      rfl
    have hkb : ((List.range n).map (fun k => metadata (k + 1)))[k]? = some (metadata (k + 1)) := by
      rw [List.getElem?_map, hr1]
      rfl
    have hh := hist.history
    rw [hmap] at hh
    obtain ⟨s'', md, he, hf, _⟩ := C22_partial hE.json hE.hash hE.word hcwd hh hno' (by rw [hlen]; exact hn.limit) hkt
      (by rw [hlen]; exact hversion) hoo hp hvd
    refine ⟨s'', md, he, hf, ?_⟩
    have hzip : ((versionTrees s (absComps E.cwd srcdir) n).zip ((List.range n).map (fun k => metadata (k + 1)))).length = n := by
      rw [← List.length_map (f := Prod.fst), hmap, hlen]
    exact C76 hE.json hE.hash hE.word hcwd hist (by rw [hmap]; exact hno') (by rw [hzip]; exact hn.limit)
      (List.getElem?_zip_eq_some.mpr ⟨hkt, hkb⟩) (by rw [hzip]; exact hversion) he

/-- **C80**, missing numbers: if a number is missing below the number of some version directory, then `build` raises
`ObjectException`. Nothing but the object directory itself can have been created. -/
theorem C80_gap {E : Env} (hcwd : ∀ w ∈ E.cwd, SafeName w) {o : Obj} (hid : o.id ≠ none) {srcdir : Str} {objdir : Option Str}
    {metadata : Nat → VBlock} {s : FS} (hw : s.WF) (hout : ∀ d, objdir = some d → ¬ absComps E.cwd srcdir <+: absComps E.cwd d)
    (hparent : ∀ d, objdir = some d → look s (absComps E.cwd (osPathSplit d).1) = some .dir)
    {w : Str} {m j : Nat} (h : VersionSource s (absComps E.cwd srcdir) w m) (h1 : 1 ≤ j) (hj : j < m)
    (hno : ∀ w', ¬ VersionSource s (absComps E.cwd srcdir) w' j) :
    ∃ s', run (build E o srcdir metadata objdir) s = (s', .error .objectException) ∧
      ∀ q, (∀ d, objdir = some d → q = absComps E.cwd d → look s q ≠ none) → look s' q = look s q := by
  have hsd : look s (absComps E.cwd srcdir) = some .dir := look_above hw _ (by simp) h.1
  -- the rest of the run, from a state with the same source
  have rest : ∀ (s1 : FS), s1.WF → (∀ q, look s1 (absComps E.cwd srcdir ++ q) = look s (absComps E.cwd srcdir ++ q)) →
      ∀ k : List (Nat × Str) → Prog (Option Inv), run (Prog.bind (Prog.look (fun s =>
        match fswOpen E.cwd srcdir s with
        | .error e => .error e
        | .ok src => versionDirs s src)) k) s1 = (s1, .error .objectException) := by
    intro s1 w1 k1 k
    have hsd1 : look s1 (absComps E.cwd srcdir) = some .dir := by
      have := k1 []
      rw [List.append_nil] at this
      rw [this]; exact hsd
    have hg := versionDirs_gap w1 hsd1 (w := w) (m := m) (j := j) ⟨by rw [k1]; exact h.1, h.2⟩ h1 hj (by
      rintro w' ⟨a, b⟩
      rw [k1] at a
      exact hno w' ⟨a, b⟩)
    refine run_bind_error ?_
    rw [run_look]
    unfold fswOpen
    dsimp only
    rw [if_pos (by rw [isdir_iff]; exact hsd1)]
    dsimp only
    rw [hg]
  unfold build
  rw [if_neg hid]
  cases objdir with
  | none => exact ⟨s, rest s hw (fun _ => rfl) _, fun _ _ => rfl⟩
  | some d =>
    obtain ⟨s1, hopen⟩ := run_openObjCreate_ok hcwd hw (hparent d rfl)
    obtain ⟨hb, w1, _, _, l1⟩ := run_openObjCreate hcwd hw hopen
    refine ⟨s1, ?_, ?_⟩
    · have e : run (Prog.bind (openObjCreate E d) (fun b => .ret (.ok (some b)))) s = (s1, .ok (some (absComps E.cwd d))) := by
        rw [run_bind_ok hopen]; rfl
      rw [run_bind_ok e]
      refine rest s1 w1 ?_ _
      intro q
      rw [l1, if_neg]
      rintro ⟨he, _⟩
      exact hout d rfl (by rw [← he]; exact List.prefix_append _ _)
    · intro q hq
      rw [l1, if_neg]
      rintro ⟨he, hn⟩
      exact hq d rfl he hn

/-- The loop of `build` without an object directory changes nothing. -/
theorem buildLoop_dry (E : Env) (o : Obj) (srcdir : Str) (metadata : Nat → VBlock) : ∀ (l : List (Nat × Str)) (inv : Option Inv) (s : FS),
    (run (buildLoop E o srcdir metadata none l inv) s).1 = s
  | [], _, _ => rfl
  | (n, vdir) :: rest, inv, s => by
    unfold buildLoop
    rw [run_bind, run_look]
    cases buildPrepare E o srcdir vdir (metadata n) inv s with
    | error e => rfl
    | ok r => exact buildLoop_dry E o srcdir metadata rest (some r.2.inv) s

/-- **C80**, without an object directory: `build` changes nothing, whether it raises an exception or not. -/
theorem C80_dry (E : Env) (o : Obj) (srcdir : Str) (metadata : Nat → VBlock) (s : FS) : (run (build E o srcdir metadata none) s).1 = s := by
  unfold build
  split
  · rfl
  · dsimp only
    rw [run_bind]
    show (run (Prog.bind _ _) s).1 = s
    rw [run_bind, run_look]
    split
    · rename_i s1 vs heq
      cases (Prod.mk.inj heq).1
      rw [run_bind]
      have := buildLoop_dry E o srcdir metadata vs none s
      cases h : run (buildLoop E o srcdir metadata none vs none) s with
      | mk s1 r =>
        rw [h] at this
        cases this
        cases r <;> rfl
    · rename_i s1 e heq
      cases (Prod.mk.inj heq).1
      rfl

/-! ## Examples -/

theorem failed_with {α : Type} {r : FS × Py α} {e : PyErr} (h : (match r.2 with | .error e' => decide (e' = e) | .ok _ => false) = true) :
    r.2 = .error e := by
  obtain ⟨s, r⟩ := r
  cases r with
  | ok a => cases h
  | error e' => rw [of_decide_eq_true h]

/-- Directories of three versions, and one that is not a version. -/
def buildFS : FS :=
  [([c!"w"], .dir), ([c!"w", c!"vs"], .dir), ([c!"w", c!"vs", c!"v1"], .dir), ([c!"w", c!"vs", c!"v1", c!"a"], .file [1, 2, 3]),
    ([c!"w", c!"vs", c!"v2"], .dir), ([c!"w", c!"vs", c!"v2", c!"b"], .file [1, 2, 3]), ([c!"w", c!"vs", c!"v2", c!"c"], .file [4]),
    ([c!"w", c!"vs", c!"v3"], .dir), ([c!"w", c!"vs", c!"v3", c!"c"], .file [1, 2, 3]),
    ([c!"w", c!"vs", c!"notes"], .dir), ([c!"w", c!"vs", c!"notes", c!"n"], .file [7])]

theorem buildFS_wf : buildFS.WF where
  nk := by decide +kernel
  noRoot := by decide +kernel
  parent := by decide +kernel
  names := by decide +kernel

/-- A different date for the second version. -/
def buildMeta (n : Nat) : VBlock := if n = 2 then talkMeta else demoMeta

theorem buildMeta_good (n : Nat) : GoodMeta (some (buildMeta n)) := by
  unfold buildMeta
  split
  · exact talkMeta_good
  · exact demoMeta_good

/-- The same with another name of a directory. -/
def renamedFS (a b : Str) : FS := buildFS.map (fun e => (e.1.map (fun w => if w = a then b else w), e.2))

/-- The names of the directories in `src`. -/
def subdirNames (s : FS) (src : Path) : List Str := s.filterMap (fun e => if e.2 = .dir ∧ e.1.dropLast = src then e.1.getLast? else none)

theorem mem_subdirNames {s : FS} {src : Path} {w : Str} (h : look s (src ++ [w]) = some .dir) : w ∈ subdirNames s src := by
  have hne : src ++ [w] ≠ [] := by simp
  unfold FS.look at h
  rw [if_neg hne] at h
  refine List.mem_filterMap.mpr ⟨(src ++ [w], .dir), Dict.mem_of_get? h, ?_⟩
  simp

theorem build_sources {w : Str} {m : Nat} (h : VersionSource buildFS (absComps demoEnv.cwd c!"vs") w m) :
    (w, m) ∈ [(c!"v1", 1), (c!"v2", 2), (c!"v3", 3)] := by
  have hm := mem_subdirNames h.1
  rw [show subdirNames buildFS (absComps demoEnv.cwd c!"vs") = [c!"v1", c!"v2", c!"v3", c!"notes"] by decide +kernel] at hm
  have hp := versionNo_iff.mp h.2
  simp only [List.mem_cons, List.not_mem_nil, or_false] at hm
  rcases hm with rfl | rfl | rfl | rfl
  · cases (show Except.ok 1 = Except.ok m from hp); simp
  · cases (show Except.ok 2 = Except.ok m from hp); simp
  · cases (show Except.ok 3 = Except.ok m from hp); simp
  · cases (show Except.error _ = Except.ok m from hp)

/-- The object that is built. -/
def builtFS : FS := (run (build demoEnv demoObj c!"vs" buildMeta (some c!"obj")) buildFS).1

/-- An object of three versions is built and is valid. -/
example : (∃ es, validateObject demoEnv {} 0 builtFS c!"obj" = .ok (true, es)) ∧
    ∃ s'' md, run (extract demoEnv c!"obj" c!"v2" c!"out") builtFS = (s'', .ok md) ∧ md.message = talkMeta.message ∧
      ∀ r b, FileBelow s'' (absComps demoEnv.cwd c!"out") r b ↔ FileBelow buildFS (absComps demoEnv.cwd c!"vs" ++ [c!"v2"]) r b := by
  obtain ⟨inv, hr⟩ := succeeded_ok (r := run (build demoEnv demoObj c!"vs" buildMeta (some c!"obj")) buildFS) (by decide +kernel)
  have hbytes : ∀ w m, VersionSource buildFS (absComps demoEnv.cwd c!"vs") w m → ∀ r b,
      FileBelow buildFS (absComps demoEnv.cwd c!"vs" ++ [w]) r b → b ∈ [[1, 2, 3], ([4] : Bytes)] := by
    intro w m h r b hb
    have hsub : ∀ x ∈ [(c!"v1", 1), (c!"v2", 2), (c!"v3", 3)], ∀ b ∈ filesBelow buildFS (absComps demoEnv.cwd c!"vs" ++ [x.1]),
        b ∈ [[1, 2, 3], ([4] : Bytes)] := by decide +kernel
    exact hsub _ (build_sources h) b (mem_filesBelow hb)
  obtain ⟨n, hn, hv, hx, hrest⟩ := C80_partial demoLibraries demoEnv_cwd demoObj_good (objdir := c!"obj") (id := c!"info:x") rfl buildFS_wf
    (by
      intro w m h
      have := build_sources h
      simp only [List.mem_cons, List.not_mem_nil, or_false, Prod.mk.injEq] at this
      rcases this with ⟨rfl, rfl⟩ | ⟨rfl, rfl⟩ | ⟨rfl, rfl⟩ <;> decide)
    (fun _ m _ => buildMeta_good m) (vacant_of buildFS_wf (by decide +kernel)) (by decide +kernel)
    ⟨[c!"a"], [1, 2, 3], by decide, by decide +kernel⟩ (fun _ _ _ h => by cases h)
    (by
      have hc : ∀ alg ∈ [c!"sha512", c!"sha256"], ∀ b ∈ [[1, 2, 3], ([4] : Bytes)], ∀ b' ∈ [[1, 2, 3], ([4] : Bytes)],
          demoEnv.raw alg b = demoEnv.raw alg b' → b = b' := by decide +kernel
      rintro alg ha b b' ⟨w, m, r, h1, h2⟩ ⟨w', m', r', h1', h2'⟩
      exact hc alg (by rcases ha with rfl | rfl <;> simp) b (hbytes w m h1 r b h2) b' (hbytes w' m' h1' r' b' h2'))
    hr
  have h2 : 2 ≤ n := ((hn c!"v2" 2).mp ⟨by decide +kernel, versionNo_iff.mpr rfl⟩).2.2
  have hl : ∀ {q r}, FS.look buildFS q = r → ¬ absComps demoEnv.cwd c!"obj" <+: q → FS.look builtFS q = r := fun h hq => (hrest _ hq).trans h
  refine ⟨hv (Or.inl rfl) {} rfl, ?_⟩
  obtain ⟨s'', md, h3, h4, h5⟩ := hx 2 c!"v2" c!"out" (by decide) h2 (Or.inl (by decide)) (by decide +kernel)
    (hl (by decide +kernel) (by decide +kernel))
    ⟨Or.inl (hl (by decide +kernel) (by decide +kernel)), fun r _ => hl
      (look_below_none buildFS_wf (p := absComps demoEnv.cwd c!"out") (List.prefix_append _ _) (by simpa) (by decide +kernel)) (by
        rintro ⟨t, ht⟩
        have := congrArg (fun l : Path => l[1]?) ht
        cases this)⟩
  exact ⟨s'', md, h3, by rw [h5]; rfl, h4⟩

/-- A version is missing. -/
example : ∃ s', run (build demoEnv demoObj c!"vs" buildMeta (some c!"obj")) (renamedFS c!"v2" c!"v4") = (s', .error .objectException) := by
  have hw : (renamedFS c!"v2" c!"v4").WF := ⟨by decide +kernel, by decide +kernel, by decide +kernel, by decide +kernel⟩
  obtain ⟨s', h, _⟩ := C80_gap demoEnv_cwd (o := demoObj) (by decide) (srcdir := c!"vs") (objdir := some c!"obj") (metadata := buildMeta)
    hw (by rintro d ⟨⟩; decide +kernel) (by rintro d ⟨⟩; decide +kernel) (w := c!"v3") (m := 3) (j := 2)
    ⟨by decide +kernel, versionNo_iff.mpr rfl⟩ (by decide) (by decide) (by
      intro w h
      have hm := mem_subdirNames h.1
      rw [show subdirNames (renamedFS c!"v2" c!"v4") (absComps demoEnv.cwd c!"vs") = [c!"v1", c!"v4", c!"v3", c!"notes"] by decide +kernel] at hm
      have hp := versionNo_iff.mp h.2
      simp only [List.mem_cons, List.not_mem_nil, or_false] at hm
      rcases hm with rfl | rfl | rfl | rfl <;> cases hp)
  exact ⟨s', h⟩

/-! ## Where the code does not do it -/

/-- **C80** fails: with directories `v1`, `v02` and `v3` the object is built without an exception, but it is not valid. The
inventory of the second version is put into `v02`, its content into `v2`. -/
theorem C80_violated : VersionSource (renamedFS c!"v2" c!"v02") (absComps demoEnv.cwd c!"vs") c!"v02" 2 ∧
    ∃ s' inv, run (build demoEnv demoObj c!"vs" buildMeta (some c!"obj")) (renamedFS c!"v2" c!"v02") = (s', .ok inv) ∧
      look s' (absComps demoEnv.cwd c!"obj/v02/inventory.json") ≠ none ∧ look s' (absComps demoEnv.cwd c!"obj/v2/content/c") ≠ none ∧
      ∃ es, validateObject demoEnv {} 0 s' c!"obj" = .ok (false, es) := by
  obtain ⟨inv, hr⟩ := succeeded_ok (r := run (build demoEnv demoObj c!"vs" buildMeta (some c!"obj")) (renamedFS c!"v2" c!"v02")) (by decide +kernel)
  exact ⟨⟨by decide +kernel, versionNo_iff.mpr rfl⟩, _, inv, hr, by decide +kernel, by decide +kernel, rejected_object (by decide +kernel)⟩

/-- **C80** fails: a first version directory that is not called `v1` is found, but then `build` raises `AttributeError`. -/
theorem C80_violated_first : VersionSource (renamedFS c!"v1" c!"v01") (absComps demoEnv.cwd c!"vs") c!"v01" 1 ∧
    (run (build demoEnv demoObj c!"vs" buildMeta (some c!"obj")) (renamedFS c!"v1" c!"v01")).2 = .error .attributeError :=
  ⟨⟨by decide +kernel, versionNo_iff.mpr rfl⟩, failed_with (by decide +kernel)⟩

/-- **C80** fails: without any version directory the declaration of an object is written, and then `FileNotFoundError` is raised. -/
theorem C80_violated_empty : subdirNames buildFS (absComps demoEnv.cwd c!"vs/notes") = [] ∧
    (run (build demoEnv demoObj c!"vs/notes" buildMeta (some c!"obj")) buildFS).2 = .error .fileNotFound ∧
    look (run (build demoEnv demoObj c!"vs/notes" buildMeta (some c!"obj")) buildFS).1 (absComps demoEnv.cwd c!"obj/0=ocfl_object_1.1") ≠ none :=
  ⟨by decide +kernel, failed_with (by decide +kernel), by decide +kernel⟩

end Ocfl
