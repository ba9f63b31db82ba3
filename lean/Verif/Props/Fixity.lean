import Verif.Props.LibraryValid
import Verif.Props.StoreObjects

/-!
# C81: what is kept in the fixity blocks
-/

namespace Ocfl

open Spec FS Prog Validator

/-- The digest `d` is recorded for the content path `c` in the fixity block of the algorithm `a`. -/
def Recorded (inv : Inv) (a d c : Str) : Prop := ∃ fm, Dict.get? inv.fixityD a = some fm ∧ Lists fm d c

theorem fixityD_sorted {inv : Inv} (hk : ∀ fx, inv.fixity = some fx → Dict.NK fx) (a : Str) :
    Dict.get? inv.sorted.fixityD a = (Dict.get? inv.fixityD a).map Dict.sorted := by
  unfold Inv.fixityD
  show Dict.get? ((inv.fixity.map (fun d => Dict.sorted (d.map (fun e => (e.1, Dict.sorted e.2))))).getD []) a = _
  cases hf : inv.fixity with
  | none => rfl
  | some fx =>
    show Dict.get? (Dict.sorted (fx.map (fun e => (e.1, Dict.sorted e.2)))) a = _
    rw [Dict.get?_sorted (by
      unfold Dict.NK
      rw [List.map_map]
      exact hk fx hf), Dict.get?_map_val]
    rfl

theorem recorded_sorted {inv : Inv} (hk : ∀ fx, inv.fixity = some fx → Dict.NK fx) {a d c : Str} :
    Recorded inv.sorted a d c ↔ Recorded inv a d c := by
  unfold Recorded
  rw [fixityD_sorted hk]
  cases Dict.get? inv.fixityD a with
  | none => simp
  | some fm =>
    constructor
    · rintro ⟨x, hx, hl⟩
      cases hx
      exact ⟨fm, rfl, lists_sorted.mp hl⟩
    · rintro ⟨x, hx, hl⟩
      cases hx
      exact ⟨_, rfl, lists_sorted.mpr hl⟩

/-- The fixity blocks after an update. -/
theorem Sound.update_fixity {E : Env} (hlib : E.lib.Lawful) (hhash : HashLib E.raw) {o : Obj}
    (halg : o.digestAlgorithm = c!"sha512" ∨ o.digestAlgorithm = c!"sha256") {srcdir objdir : Str} {metadata : Option VBlock}
    (hmeta : GoodMeta metadata) {abort : Bool} {s s' : FS} {base : Path} {dv : Str} {trees : List Tree} {recs : List Rec}
    (h : Sound E s base dv trees recs) (hno : NoCollision E.raw (InTrees trees)) (hlim : trees.length + 1 ≤ 99999)
    (hbase : absComps E.cwd objdir = base) {inv : Inv}
    (hr : run (addVersionWithContent E o objdir (some srcdir) metadata abort) s = (s', .ok (some inv))) {rl : Rec}
    (hlast : recs.getLast? = some rl) :
    inv.fixity = (changeFixity { rl.inv.sorted with digestAlgorithm := some o.digestAlgorithm } rl.alg o.digestAlgorithm o.fixity).fixity := by
  obtain ⟨rl', hlast', hdl, hroot, _, _⟩ := h.last
  rw [hlast] at hlast'
  cases hlast'
  unfold addVersionWithContent at hr
  obtain ⟨s0, r0, h0, hr⟩ := run_bind_inv hr
  rw [run_look] at h0
  obtain ⟨hs0, hprep⟩ := Prod.mk.inj h0
  clear h0
  subst hs0
  cases r0 with
  | none => cases hr
  | some r0 =>
  obtain ⟨base', src, nv⟩ := r0
  obtain ⟨sd, hsd, nv0, inv0, alg, m, vs, style, n, inv1, hst, hadd⟩ := prepareUpdate_started hlib hprep
  cases hsd
  have hbb : base' = base := hst.base_eq.trans hbase
  subst hbb
  have hinv0 : inv0 = rl.inv.sorted := by
    have := hst.parse
    rw [parse_written hlib hdl.parsed hroot.1] at this
    cases this
    rfl
  subst hinv0
  have hds := hdl.sorted
  have ealg : alg = rl.alg := by
    have := hst.parsed.good.algorithm
    rw [hds.parsed.good.algorithm] at this
    cases this
    rfl
  subst ealg
  obtain ⟨m1, vs1, hd1, hlist1, hkeys1, hcd1, hty1, hid1⟩ := hds.recode hhash hno halg hst.change
  have g := ground_next hd1.parsed (sv := c!"1.1") (by decide) hmeta hlim hst.next
  obtain ⟨srcs, hsource, hadded⟩ := addFromSrcdir_ok h.wf hst.src_dir g.building ⟨_, g.manifest⟩ g.queue hadd
  obtain ⟨_, type, htype, hnv0⟩ := nextVersion_ok hd1.parsed.numbered hst.next
  obtain ⟨s2, inv2, hwr, hr⟩ := run_bind_inv hr
  have hr : (s2, Except.ok (some inv2)) = (s', (.ok (some inv) : Py (Option Inv))) := hr
  cases hr
  have hinv : inv = nv.inv := by
    unfold writeNewVersion at hwr
    split at hwr
    · cases hwr
    obtain ⟨_, _, _, hwr⟩ := run_bind_inv hwr
    obtain ⟨_, _, _, hwr⟩ := run_bind_inv hwr
    obtain ⟨_, _, _, hwr⟩ := run_bind_inv hwr
    obtain ⟨_, _, _, hwr⟩ := run_bind_inv hwr
    obtain ⟨_, _, _, hwr⟩ := run_bind_inv hwr
    cases hwr
    rfl
  rw [hinv, hadded.keeps.2.2.2, hnv0]
  show inv1.fixity = _
  rw [(changeDigest_ok hst.change).1]
  rfl

/-- **C81**, the part about updates of objects made by the library. Without a list of algorithms in the settings everything
recorded stays. If the digest algorithm is changed, then the digests of the manifest become a fixity block of the old
algorithm, unless there is one already. With a list exactly the blocks of the algorithms in it stay. Nothing else is
recorded, see `C81_violated_update`. -/
theorem C81_partial {E : Env} (hE : Libraries E) (hcwd : ∀ w ∈ E.cwd, SafeName w) {objdir srcdir : Str} {trees : List Tree} {s s' : FS}
    (h : History E (absComps E.cwd objdir) trees s) (hno : NoCollision E.raw (InTrees trees)) (hlen : trees.length + 1 ≤ 99999) {o : Obj}
    (halg : o.digestAlgorithm = c!"sha512" ∨ o.digestAlgorithm = c!"sha256") {metadata : Option VBlock} (hmeta : GoodMeta metadata)
    (hnames : NamesAllowed o (FileBelow s (absComps E.cwd srcdir))) {abort : Bool} {x : Inv}
    (hr : run (addVersionWithContent E o objdir (some srcdir) metadata abort) s = (s', .ok (some x))) :
    ∃ inv inv' old, parseInventory E (absComps E.cwd objdir) s = .ok inv ∧ inv.digestAlgorithm = some old ∧
      parseInventory E (absComps E.cwd objdir) s' = .ok inv' ∧
      (o.fixity = none → ∀ a d c, Recorded inv' a d c ↔
        (Recorded inv a d c ∨ a ∉ Dict.keys inv.fixityD ∧ a = old ∧ o.digestAlgorithm ≠ old ∧ Lists inv.manifestD d c)) ∧
      ∀ fx, o.fixity = some fx → ∀ a d c, Recorded inv' a d c ↔ a ∈ fx ∧ Recorded inv a d c := by
  obtain ⟨dv, recs, hs⟩ := history_sound hE.json hE.hash hE.word hcwd h hno (by omega)
  obtain ⟨rl, hlast, hdl, hroot, _, _⟩ := hs.last
  have hfix := hs.update_fixity hE.json hE.hash halg hmeta hno hlen rfl hr hlast
  obtain ⟨r, hri, _, hs'⟩ := hs.update hE.json hE.hash halg hmeta hno hlen rfl hnames hr
  obtain ⟨rl', hlast', hdl', hroot', _, _⟩ := hs'.last
  rw [List.getLast?_append, List.getLast?_singleton, Option.some_or] at hlast'
  cases hlast'
  have hrec : ∀ a d c, Recorded r.inv.sorted a d c ↔ Recorded r.inv a d c := fun a d c =>
    recorded_sorted (fun fx hfx => (hdl'.parsed.good.fixity fx hfx).1)
  refine ⟨rl.inv.sorted, r.inv.sorted, rl.alg, parse_written hE.json hdl.parsed hroot.1, hdl.parsed.good.algorithm,
    parse_written hE.json hdl'.parsed hroot'.1, ?_, ?_⟩
  · intro hnone a d c
    rw [hrec, hri]
    rw [hnone] at hfix
    have hfix : x.fixity = (if o.digestAlgorithm ≠ rl.alg ∧ Dict.has rl.inv.sorted.fixityD rl.alg = false then
        Inv.addFixityType { rl.inv.sorted with digestAlgorithm := some o.digestAlgorithm } rl.alg (some rl.inv.sorted.manifestD)
      else { rl.inv.sorted with digestAlgorithm := some o.digestAlgorithm }).fixity := hfix
    by_cases hc : o.digestAlgorithm ≠ rl.alg ∧ Dict.has rl.inv.sorted.fixityD rl.alg = false
    · have hfix : x.fixity = some (Dict.set rl.inv.sorted.fixityD rl.alg rl.inv.sorted.manifestD) := by
        rw [if_pos hc] at hfix
        exact hfix
      have hno := (Dict.get?_eq_none_iff _ _).mp ((Dict.has_eq_false_iff_get _ _).mp hc.2)
      have hgn := (Dict.has_eq_false_iff_get _ _).mp hc.2
      unfold Recorded
      rw [show x.fixityD = Dict.set rl.inv.sorted.fixityD rl.alg rl.inv.sorted.manifestD by unfold Inv.fixityD; rw [hfix]; rfl, Dict.get?_set]
      by_cases ha : rl.alg = a
      · subst ha
        rw [if_pos rfl, hgn]
        simp [hno, hc.1]
      · rw [if_neg ha]
        have : a ≠ rl.alg := fun e => ha e.symm
        simp [this]
    · have hfix : x.fixity = rl.inv.sorted.fixity := by
        rw [if_neg hc] at hfix
        exact hfix
      unfold Recorded
      rw [show x.fixityD = rl.inv.sorted.fixityD by unfold Inv.fixityD; rw [hfix]]
      constructor
      · exact Or.inl
      · rintro (h1 | ⟨h1, rfl, h2, _⟩)
        · exact h1
        · exact absurd ⟨h2, (Dict.has_eq_false_iff_get _ _).mpr ((Dict.get?_eq_none_iff _ _).mpr h1)⟩ hc
  · intro fx hfx a d c
    rw [hrec, hri]
    rw [hfx] at hfix
    have hfix : x.fixity = rl.inv.sorted.fixity.map (fun d => d.filter (fun e => e.1 ∈ fx)) := hfix
    unfold Recorded
    have hd : x.fixityD = rl.inv.sorted.fixityD.filter (fun e => e.1 ∈ fx) := by
      unfold Inv.fixityD
      rw [hfix]
      cases rl.inv.sorted.fixity <;> rfl
    rw [hd]
    by_cases ha : a ∈ fx
    · rw [get?_filter (fun x => decide (x ∈ fx)) a (by simpa using ha)]
      simp [ha]
    · have : Dict.get? (rl.inv.sorted.fixityD.filter (fun e => e.1 ∈ fx)) a = none := by
        rw [Dict.get?_eq_none_iff]
        intro hm
        obtain ⟨e, he, rfl⟩ := List.mem_map.mp hm
        exact ha (by simpa using (List.mem_filter.mp he).2)
      rw [this]
      simp [ha]

/-- **C81**: what is recorded in an object made by the library is right. -/
theorem C81_correct {E : Env} (hE : Libraries E) (hcwd : ∀ w ∈ E.cwd, SafeName w) {objdir : Str} {trees : List Tree} {s : FS}
    (h : History E (absComps E.cwd objdir) trees s) (hno : NoCollision E.raw (InTrees trees)) (hlen : trees.length ≤ 99999) :
    ∃ inv, parseInventory E (absComps E.cwd objdir) s = .ok inv ∧ ∀ a d c, Recorded inv a d c →
      ∃ segs b, segs ≠ [] ∧ (∀ w ∈ segs, SafeName w) ∧ c = pathOf segs ∧ look s (absComps E.cwd objdir ++ segs) = some (.file b) ∧
        fileDigest E.raw a b = some d := by
  obtain ⟨dv, recs, hs⟩ := history_sound hE.json hE.hash hE.word hcwd h hno hlen
  obtain ⟨rl, hlast, hdl, hroot, _, _⟩ := hs.last
  refine ⟨rl.inv.sorted, parse_written hE.json hdl.parsed hroot.1, ?_⟩
  rintro a d c ⟨fm, hg, hl⟩
  unfold Inv.fixityD at hg
  cases hf : rl.inv.sorted.fixity with
  | none => rw [hf] at hg; cases hg
  | some fx =>
    rw [hf] at hg
    exact hdl.sorted.fixity fx a fm hf (Dict.mem_of_get? hg) d c hl

theorem foldl_fixityTypes : ∀ (l : List Str) (inv : Inv) (a : Str),
    Dict.get? (l.foldl (fun inv t => inv.addFixityType t none) inv).fixityD a = if a ∈ l then some [] else Dict.get? inv.fixityD a
  | [], inv, a => by simp
  | t :: l, inv, a => by
    rw [List.foldl_cons, foldl_fixityTypes l]
    have : (inv.addFixityType t none).fixityD = Dict.set inv.fixityD t [] := rfl
    rw [this, Dict.get?_set]
    by_cases h : a ∈ l
    · simp [h]
    · by_cases ht : t = a
      · subst ht; simp
      · have : a ≠ t := fun e => ht e.symm
        simp [h, ht, this]

theorem firstVersion_fixity {id sv : Str} {alg cd : Option Str} {metadata : Option VBlock} {dedupe : Bool} {fixity : List Str} {norm : Option Str}
    {nv : NV} (h : NV.firstVersion id sv alg cd metadata dedupe fixity norm = .ok nv) (a : Str) :
    Dict.get? nv.inv.fixityD a = if a ∈ fixity then some [] else none := by
  unfold NV.firstVersion at h
  simp only at h
  split at h
  · cases h
  rename_i inv1 hadd
  have hk : inv1.fixity = (fixity.foldl (fun inv t => inv.addFixityType t none) (Inv.initManifestAndVersions
    { Inv.setSpecVersion { id := some id } sv with digestAlgorithm := alg })).fixity := by
    unfold Inv.addVersion at hadd
    split at hadd
    · cases hadd
    cases hadd
    rfl
  have := foldl_fixityTypes fixity (Inv.initManifestAndVersions { Inv.setSpecVersion { id := some id } sv with digestAlgorithm := alg }) a
  unfold Inv.fixityD at this
  rw [← hk] at this
  cases h
  cases cd with
  | none => exact this
  | some cd =>
    unfold Inv.fixityD
    dsimp only
    split <;> exact this

/-- **C81** fails: a new object has a fixity block for each algorithm of the settings, but nothing is ever recorded in them. -/
theorem C81_violated {E : Env} (hE : Libraries E) (hcwd : ∀ w ∈ E.cwd, SafeName w) {o : Obj} (ho : GoodSettings o) {srcdir objdir : Str}
    {metadata : Option VBlock} (hmeta : GoodMeta metadata) {s s' : FS} (hw : s.WF) (hvac : Vacant s (absComps E.cwd objdir))
    (hfile : ∃ r b, FileBelow s (absComps E.cwd srcdir) r b) (hnames : NamesAllowed o (FileBelow s (absComps E.cwd srcdir))) {x : Inv}
    (hr : run (create E o srcdir metadata (some objdir)) s = (s', .ok x)) :
    ∃ inv, parseInventory E (absComps E.cwd objdir) s' = .ok inv ∧ (∀ a, a ∈ Dict.keys inv.fixityD ↔ a ∈ o.fixity.getD []) ∧
      ∀ a d c, ¬ Recorded inv a d c := by
  obtain ⟨r, hri, _, hs⟩ := sound_create hE.hash hE.word hcwd ho hmeta hw hvac hfile hnames hr
  obtain ⟨rl, hlast, hdl, hroot, _, _⟩ := hs.last
  rw [List.getLast?_singleton] at hlast
  have hri : rl.inv = x := by rw [← hri]; exact congrArg Rec.inv (Option.some.inj hlast).symm
  obtain ⟨src, nv, hp, hx, _, _⟩ := create_inv hr
  have hfx : ∀ a, Dict.get? x.fixityD a = if a ∈ o.fixity.getD [] then some [] else none := by
    intro a
    unfold prepareFirst at hp
    split at hp
    · cases hp
    rename_i id hid
    split at hp
    · cases hp
    rename_i src' hsrc
    split at hp
    · cases hp
    rename_i nv0 hfirst
    split at hp
    · cases hp
    rename_i nv' hadd
    cases hp
    obtain ⟨hs1, hs2⟩ := fswOpen_ok hsrc
    obtain ⟨g, _⟩ := ground_first (by rintro rfl; exact ho.id hid) ho.specVersion ho.algorithm
      ⟨ho.contentDirectory.2.2.2, ho.contentDirectory.2.1, ho.contentDirectory.2.2.1⟩ (by
        cases hf : o.fixity with
        | none => simp
        | some l => exact ho.fixity l hf) hmeta hfirst
    obtain ⟨_, _, hadded⟩ := addFromSrcdir_ok hw hs2 g.building ⟨_, g.manifest⟩ g.queue hadd
    have := firstVersion_fixity hfirst a
    unfold Inv.fixityD at this ⊢
    rw [hx, hadded.keeps.2.2.2]
    exact this
  have hget : ∀ a, Dict.get? rl.inv.sorted.fixityD a = if a ∈ o.fixity.getD [] then some [] else none := by
    intro a
    rw [fixityD_sorted (fun fx hfx => (hdl.parsed.good.fixity fx hfx).1), hri, hfx]
    split <;> rfl
  refine ⟨rl.inv.sorted, parse_written hE.json hdl.parsed hroot.1, ?_, ?_⟩
  · intro a
    have := Dict.get?_eq_none_iff rl.inv.sorted.fixityD a
    rw [hget] at this
    by_cases ha : a ∈ o.fixity.getD []
    · rw [if_pos ha] at this
      simp only [reduceCtorEq, false_iff, not_not] at this
      simp [ha, this]
    · rw [if_neg ha] at this
      simp only [true_iff] at this
      simp [ha, this]
  · rintro a d c ⟨fm, h1, h2⟩
    rw [hget] at h1
    split at h1
    · cases h1
      obtain ⟨ps, h3, _⟩ := h2
      cases h3
    · cases h1

/-- **C81** fails for updates as well: if nothing is recorded before an update with a list of algorithms in the settings, then
nothing is recorded after it. -/
theorem C81_violated_update {E : Env} (hE : Libraries E) (hcwd : ∀ w ∈ E.cwd, SafeName w) {objdir srcdir : Str} {trees : List Tree} {s s' : FS}
    (h : History E (absComps E.cwd objdir) trees s) (hno : NoCollision E.raw (InTrees trees)) (hlen : trees.length + 1 ≤ 99999) {o : Obj}
    (halg : o.digestAlgorithm = c!"sha512" ∨ o.digestAlgorithm = c!"sha256") {metadata : Option VBlock} (hmeta : GoodMeta metadata)
    (hnames : NamesAllowed o (FileBelow s (absComps E.cwd srcdir))) {abort : Bool} {x : Inv} {fx : List Str} (hfx : o.fixity = some fx)
    (hnone : ∀ inv, parseInventory E (absComps E.cwd objdir) s = .ok inv → ∀ a d c, ¬ Recorded inv a d c)
    (hr : run (addVersionWithContent E o objdir (some srcdir) metadata abort) s = (s', .ok (some x))) :
    ∃ inv', parseInventory E (absComps E.cwd objdir) s' = .ok inv' ∧ ∀ a d c, ¬ Recorded inv' a d c := by
  obtain ⟨inv, inv', _, h1, _, h2, _, h3⟩ := C81_partial hE hcwd h hno hlen halg hmeta hnames hr
  exact ⟨inv', h2, fun a d c hrec => hnone inv h1 a d c ((h3 fx hfx a d c).mp hrec).2⟩

/-! ## Examples -/

/-- Settings that ask for fixity blocks. -/
def md5Obj : Obj := { demoObj with fixity := some [c!"md5"] }

theorem md5Obj_good : GoodSettings md5Obj := { demoObj_good with
  fixity := by rintro l hl; cases hl; intro t ht; cases List.mem_singleton.mp ht; exact Or.inl (by decide) }

def md5Made : FS := (run (create demoEnv md5Obj c!"src" (some demoMeta) (some c!"obj")) demoFS).1

theorem md5_made : ∃ inv, run (create demoEnv md5Obj c!"src" (some demoMeta) (some c!"obj")) demoFS = (md5Made, .ok inv) :=
  succeeded_ok (by decide +kernel)

/-- A fixity block for md5 is asked for; there is one, but nothing is in it. -/
example : ∃ inv, parseInventory demoEnv (absComps demoEnv.cwd c!"obj") md5Made = .ok inv ∧ c!"md5" ∈ Dict.keys inv.fixityD ∧
    ∀ a d c, ¬ Recorded inv a d c := by
  obtain ⟨x, hr⟩ := md5_made
  obtain ⟨inv, h1, h2, h3⟩ := C81_violated demoLibraries demoEnv_cwd md5Obj_good demoMeta_good demoFS_wf
    ⟨Or.inl (by decide +kernel), fun r hr => look_below_none demoFS_wf (List.prefix_append _ _) (by simpa using hr) (by decide +kernel)⟩
    ⟨[c!"a.txt"], [1, 2, 3], by decide, by decide +kernel⟩ (fun h => by cases h) hr
  exact ⟨inv, h1, (h2 _).mpr (by decide), h3⟩

/-- After the update with another digest algorithm the digests of the old manifest are recorded. -/
example : ∃ inv' d, parseInventory demoEnv (absComps demoEnv.cwd c!"obj") demoGrown = .ok inv' ∧
    Recorded inv' c!"sha256" d c!"v1/content/a.txt" ∧ fileDigest demoEnv.raw c!"sha256" [1, 2, 3] = some d := by
  have h1 : History demoEnv (absComps demoEnv.cwd c!"obj") [FileBelow demoFS (absComps demoEnv.cwd c!"src")] demoChanged :=
    .elsewhere demo_history1 demoChanged_wf demo_apart
  obtain ⟨x, hr⟩ := gaveVersion_ok (r := run demoRehash demoChanged) (by decide +kernel)
  obtain ⟨inv, inv', old, h2, h3, h4, h5, _⟩ := C81_partial demoLibraries demoEnv_cwd h1
    (NoCollision.mono demo_noCollision (fun b hb => InTrees.append (trees := [_]) hb)) (by decide) (Or.inl rfl) demoMeta_good (fun h => by cases h) hr
  have hc : (match parseInventory demoEnv (absComps demoEnv.cwd c!"obj") demoChanged with
    | .ok inv => inv.fixityD.isEmpty && decide (inv.digestAlgorithm = some c!"sha256") &&
        ((fileDigest demoEnv.raw c!"sha256" [1, 2, 3]).any fun d =>
          ((Dict.get? inv.manifestD d).any fun ps => decide (c!"v1/content/a.txt" ∈ ps)))
    | .error _ => false) = true := by decide +kernel
  rw [h2] at hc
  simp only [Bool.and_eq_true, decide_eq_true_eq, Option.any_eq_true] at hc
  obtain ⟨⟨h6, h7⟩, d, h8, ps, h9, h10⟩ := hc
  rw [h7] at h3
  cases h3
  refine ⟨inv', d, h4, (h5 rfl _ _ _).mpr (Or.inr ⟨?_, rfl, by decide, ps, Dict.mem_of_get? h9, h10⟩), h8⟩
  rw [List.isEmpty_iff.mp h6]
  exact List.not_mem_nil

end Ocfl
