import Verif.Proofs.Crash
import Verif.Proofs.ExtractSame
import Verif.Props.Update
import Verif.Props.HistoryLimits

/-!
# C24: an update that is interrupted
-/

namespace Ocfl

open Spec FS Prog Ocfl.Inv

/-- The moments of writing a version, in terms of the specification. -/
theorem writeNewVersion_swap {E : Env} {o : Obj} {base src : Path} {nv0 nv : NV} {head alg new : Str} {s s' : FS} (hw : s.WF)
    (hb : look s base = some .dir) (hh : SafeName head) (hv : head.head? = some 'v') (hc : NV.Confined nv0 head nv)
    (hold : nv0.oldDigestAlgorithm = some alg) (ha : '/' ∉ alg) (hnew : nv0.inv.digestAlgorithm = some new)
    (hvis : Visits (writeNewVersion E o base src nv) s s') :
    RootKept s s' base (new = alg) ∨ Replacing E s' base head o.digestAlgorithm := by
  have ho : ∀ old, nv.oldDigestAlgorithm = some old → '/' ∉ old := by
    intro old h
    rw [hc.old, hold] at h
    cases h
    exact ha
  rcases writeNewVersion_moment hw hb hc.head_eq hh hv hc.queue ho hvis with ⟨h1, h2⟩ | ⟨s4, _, _, _, _, ⟨n, h1⟩, h2⟩
  · refine Or.inl ⟨h1, fun he => h2 ?_⟩
    rw [hc.algorithm, hc.old, hold, hnew, he]
  · obtain ⟨d, hd1, hd2⟩ := h2.sidecar
    refine Or.inr ⟨_, d, n, h2.inventory, hd1, ?_, h1⟩
    rw [hd2]
    unfold sidecarLine
    rw [List.append_assoc, List.append_assoc]
    rfl

/-- **C24**, for a `NewVersion` filled by any calls whose paths are plain: at every moment of writing
it, also in the middle of writing a file, nothing has changed but the root inventory and its sidecars
(in particular all content files and version inventories are as they were), and what is new lies in the
directory of the new version. The root inventory is the old one, with its sidecar unless the algorithm
changes; or the new version directory has its inventory and sidecar and the root inventory holds a first
part of the same text. Missing from the full statement: if the algorithm changes, the old inventory is
without its sidecar for most of the time, see `C24_violated`; and content paths with `..`, see
`C23_violated`. -/
theorem C24_partial {E : Env} (hlib : E.lib.Lawful) {o : Obj} {objdir : Str} {srcdir newAlg : Option Str}
    {fixity : Option (List Str)} {metadata : Option VBlock} {carry : Bool} {s0 : FS} {base src : Path} {nv0 : NV}
    (hstart : startNewVersion E o objdir srcdir newAlg fixity metadata carry s0 = .ok (base, src, nv0))
    {EN : NVEnv} (hx : HexNames EN.md5hex) {ops : List NV.Op} (hops : ∀ op ∈ ops, PlainCall op)
    {s s' : FS} (hw : s.WF) (hb : look s base = some .dir)
    (hvis : Visits (writeNewVersion E o base src (NV.run EN ops nv0)) s s') :
    ∃ inv alg head, parseInventory E base s0 = .ok inv ∧ inv.digestAlgorithm = some alg ∧
      (NV.run EN ops nv0).inv.head = some head ∧ head ∉ Dict.keys inv.versionsD ∧
      OnlyAdds s s' base head [alg, o.digestAlgorithm] ∧
      (RootKept s s' base (newAlg.getD alg = alg) ∨ Replacing E s' base head o.digestAlgorithm) := by
  obtain ⟨sd, rfl, inv0, alg, m, vs, style, n, inv1, hs⟩ := startNewVersion_ok hlib hstart
  obtain ⟨h1, h2, h3, h4, h5⟩ := hs.confined
  have hc := NV.Confined.run hx (styleName_safe style (n + 1)) h2 hops h1
  exact ⟨inv0, alg, _, hs.parse, hs.parsed.good.algorithm, hc.head_eq, hs.fresh,
    writeNewVersion_onlyAdds hw hb (styleName_safe _ _) (styleName_head _ _) hc h3 h4 hvis,
    writeNewVersion_swap hw hb (styleName_safe _ _) (styleName_head _ _) hc h3 h4 h5 hvis⟩

/-- The moments of an update: before anything is written, or during the writing. -/
theorem visits_update {E : Env} (hlib : E.lib.Lawful) {o : Obj} {objdir : Str} {srcdir : Option Str}
    {metadata : Option VBlock} {abort : Bool} {s s' : FS}
    (hvis : Visits (addVersionWithContent E o objdir srcdir metadata abort) s s') :
    s' = s ∨ ∃ src nv sd nv0 inv0 alg m vs style n inv1, srcdir = some sd ∧
      prepareUpdate E o objdir srcdir metadata abort s = .ok (some (absComps E.cwd objdir, src, nv)) ∧
      Started E o objdir sd (some o.digestAlgorithm) o.fixity metadata false s (absComps E.cwd objdir) src nv0 inv0 alg m vs style n inv1 ∧
      addFromSrcdir E s src nv0 = .ok nv ∧ Visits (writeNewVersion E o (absComps E.cwd objdir) src nv) s s' := by
  unfold addVersionWithContent at hvis
  rcases visits_bind hvis with hvis | ⟨s1, r, hr, hvis⟩
  · exact Or.inl (visits_look hvis)
  rw [run_look] at hr
  obtain ⟨hr0, hr1⟩ := Prod.mk.inj hr
  clear hr
  subst hr0
  cases r with
  | none => exact Or.inl (visits_ret hvis)
  | some r =>
    obtain ⟨base, src, nv⟩ := r
    obtain ⟨sd, rfl, nv0, inv0, alg, m, vs, style, n, inv1, hs, hadd⟩ := prepareUpdate_started hlib hr1
    have hbase := hs.base_eq
    subst hbase
    refine Or.inr ⟨src, nv, sd, nv0, inv0, alg, m, vs, style, n, inv1, rfl, hr1, hs, hadd, ?_⟩
    rcases visits_bind hvis with hvis | ⟨s2, r, hr2, hvis⟩
    · exact hvis
    · have h2 := visits_ret hvis
      subst h2
      have hvis := visits_run (writeNewVersion E o (absComps E.cwd objdir) src nv) s
      rw [hr2] at hvis
      exact hvis

/-- **C24** for `add_version_with_content`. -/
theorem C24_update {E : Env} (hlib : E.lib.Lawful) (hhash : HashLib E.raw) {o : Obj} {objdir : Str} {srcdir : Option Str}
    {metadata : Option VBlock} {abort : Bool} {s s' : FS} (hw : s.WF)
    (hvis : Visits (addVersionWithContent E o objdir srcdir metadata abort) s s') :
    s' = s ∨ ∃ inv alg head, parseInventory E (absComps E.cwd objdir) s = .ok inv ∧ inv.digestAlgorithm = some alg ∧
      head ∉ Dict.keys inv.versionsD ∧ OnlyAdds s s' (absComps E.cwd objdir) head [alg, o.digestAlgorithm] ∧
      (RootKept s s' (absComps E.cwd objdir) (o.digestAlgorithm = alg) ∨ Replacing E s' (absComps E.cwd objdir) head o.digestAlgorithm) := by
  rcases visits_update hlib hvis with h | ⟨src, nv, sd, nv0, inv0, alg, m, vs, style, n, inv1, _, _, hs, hadd, hvis⟩
  · exact Or.inl h
  obtain ⟨h1, h2, h3, h4, h5⟩ := hs.confined
  have hc := hs.confined_source hhash hw hadd
  exact Or.inr ⟨inv0, alg, _, hs.parse, hs.parsed.good.algorithm, hs.fresh,
    writeNewVersion_onlyAdds hw hs.base_dir (styleName_safe _ _) (styleName_head _ _) hc h3 h4 hvis,
    writeNewVersion_swap hw hs.base_dir (styleName_safe _ _) (styleName_head _ _) hc h3 h4 h5 hvis⟩

theorem rootInventory_short {base : Path} {algs : List Str} {w : Str} {q : Path} (hq : q ≠ []) : ¬ RootInventory base algs (base ++ w :: q) := by
  rintro (h | ⟨a, _, h⟩) <;>
  · rw [List.append_cancel_left_eq] at h
    exact hq (List.cons.inj h).2

theorem rootInventory_inside {base : Path} {algs : List Str} {q : Path} (h : RootInventory base algs q) : base <+: q := by
  rcases h with rfl | ⟨a, _, rfl⟩ <;> exact List.prefix_append _ _

theorem update_wf {E : Env} (hlib : E.lib.Lawful) (hhash : HashLib E.raw) {o : Obj} {objdir : Str} {srcdir : Option Str}
    {metadata : Option VBlock} {abort : Bool} {s s' : FS} (hw : s.WF)
    (hvis : Visits (addVersionWithContent E o objdir srcdir metadata abort) s s') : s'.WF := by
  rcases visits_update hlib hvis with h | ⟨src, nv, sd, nv0, inv0, alg, m, vs, style, n, inv1, _, _, hs, hadd, hvis⟩
  · rw [h]; exact hw
  obtain ⟨h1, h2, h3, h4, h5⟩ := hs.confined
  have hc := hs.confined_source hhash hw hadd
  exact (safe_writeNewVersion (look_names hw hs.base_dir) hc.head_eq (styleName_safe _ _) hc.queue (by
    intro old ho
    rw [hc.old, h3] at ho
    cases ho
    exact h4)).visits_wf hw hvis

/-- Nothing changes outside the object during an update. -/
theorem Spec.OnlyAdds.outside {s s' : FS} {base : Path} {head : Str} {algs : List Str} (h : OnlyAdds s s' base head algs) {q : Path}
    (hq : ¬ base <+: q) : look s' q = look s q := by
  have hr : ¬ RootInventory base algs q := fun hc => hq (rootInventory_inside hc)
  by_cases hl : look s q = none
  · by_contra hne
    have := h.added q hr hl (by rw [hl] at hne; exact hne)
    exact hq ((List.prefix_append _ _).trans this)
  · exact h.kept q hr hl

theorem Spec.OnlyAdds.vacant {s s' : FS} {base dst : Path} {head : Str} {algs : List Str} (h : OnlyAdds s s' base head algs)
    (hb : look s base = some .dir) (hout : ¬ base <+: dst) (hvac : Vacant s dst) : Vacant s' dst := by
  have hnot : ¬ dst <+: base := by
    rintro ⟨t, ht⟩
    by_cases htn : t = []
    · rw [htn, List.append_nil] at ht
      exact hout (by rw [ht]; exact List.prefix_rfl)
    · have := hvac.2 t htn
      rw [ht, hb] at this
      cases this
  have hbelow : ∀ r, ¬ base <+: dst ++ r := by
    intro r hp
    rcases List.prefix_or_prefix_of_prefix hp (List.prefix_append dst r) with h | h
    · exact hout h
    · exact hnot h
  refine ⟨?_, ?_⟩
  · rw [show dst = dst ++ [] from (List.append_nil _).symm, h.outside (hbelow []), List.append_nil]
    exact hvac.1
  · intro r hr
    rw [h.outside (hbelow r)]
    exact hvac.2 r hr

/-- **C24**, what the old inventory is worth: at every moment of an update at which the root inventory
is the old one, every version that could be extracted before can be extracted still, with the same files
and the same metadata. -/
theorem C24_extract {E : Env} (hlib : E.lib.Lawful) (hhash : HashLib E.raw) (hcwd : ∀ w ∈ E.cwd, SafeName w)
    {o : Obj} {objdir : Str} {srcdir : Option Str} {metadata : Option VBlock} {abort : Bool} {s s' : FS} (hw : s.WF)
    (hvis : Visits (addVersionWithContent E o objdir srcdir metadata abort) s s')
    (hroot : look s' (absComps E.cwd objdir ++ [c!"inventory.json"]) = look s (absComps E.cwd objdir ++ [c!"inventory.json"]))
    {version dstdir : Str} (hout : ¬ absComps E.cwd objdir <+: absComps E.cwd dstdir)
    (hplain : PlainContent E.lib s (absComps E.cwd objdir ++ [c!"inventory.json"]))
    {s1 : FS} {md : VMeta} (hr : run (extract E objdir version dstdir) s = (s1, .ok md))
    (hp : look s' (dstParent E dstdir) = some .dir) :
    ∃ s1', run (extract E objdir version dstdir) s' = (s1', .ok md) ∧
      ∀ r b, FileBelow s1' (absComps E.cwd dstdir) r b ↔ FileBelow s1 (absComps E.cwd dstdir) r b := by
  rcases C24_update hlib hhash hw hvis with h | ⟨inv, alg, head, _, _, _, hadds, _⟩
  · subst h
    exact ⟨s1, hr, fun _ _ => Iff.rfl⟩
  have hw' := update_wf hlib hhash hw hvis
  have hb0 : look s (absComps E.cwd objdir) = some .dir := by
    obtain ⟨_, inv, v, hset, _⟩ := run_extract hlib hcwd hw hout hplain hr
    exact (extractSetup_ok hlib hset).2.1
  have hsib : Vacant s' (absComps E.cwd dstdir) := by
    unfold extract at hr
    obtain ⟨t1, _, h1, h2⟩ := run_bind_inv hr
    rw [run_look] at h1
    obtain ⟨rfl, _⟩ := Prod.mk.inj h1
    obtain ⟨t2, dst, h3, _⟩ := run_bind_inv h2
    obtain ⟨rfl, hvac, _, _⟩ := run_extractDst hcwd hw h3
    exact hadds.vacant hb0 hout hvac
  obtain ⟨t1, h1, h2, _⟩ := extract_same hlib hcwd hw hw' (version := version) (dstdir := dstdir)
    (hadds.kept _ (by rintro (h | ⟨a, _, h⟩) <;> exact concat_ne_self h.symm) (by rw [hb0]; simp)) hroot
    (by
      intro w q b hq hl
      rw [hadds.kept _ (rootInventory_short hq) (by rw [hl]; simp)]
      exact hl) hout hplain hp hsib hr
  exact ⟨t1, h1, h2⟩

theorem hrootframe {base q : Path} {head alg : Str} (hv : head.head? = some 'v') (hq : base ++ [head] <+: q) :
    ∀ op, StaysRoot base alg op → op.target ≠ q := by
  rintro op (h | h | ⟨q', h, rfl⟩) rfl
  · rw [h] at hq
    exact not_under (inventory_ne_head hv) hq
  · rw [h] at hq
    exact not_under (sidecar_ne_head hv) hq
  · have h1 := h.length_le
    have h2 := hq.length_le
    simp only [List.length_append, List.length_cons, List.length_nil, FS.Op.target] at h1 h2
    omega

theorem Sound.plain {E : Env} (hlib : E.lib.Lawful) {s : FS} {objdir dv : Str} {trees : List Tree} {recs : List Rec}
    (h : Sound E s (absComps E.cwd objdir) dv trees recs) : PlainContent E.lib s (absComps E.cwd objdir ++ [c!"inventory.json"]) := by
  obtain ⟨rl, hlast, hd0, hstored, _, _⟩ := h.last
  have hd := hd0.sorted
  have hsetup : extractSetup E objdir c!"head" s = .ok (absComps E.cwd objdir, rl.inv.sorted, rl.inv.sorted.head.getD []) := by
    unfold extractSetup
    rw [openObj_dir h.isDir]
    dsimp only
    rw [parse_written hlib hd0.parsed hstored.1]
    dsimp only
    rw [if_pos rfl]
  refine plain_of_setup hlib hsetup ?_
  intro c hc
  rw [hd.parsed.good.manifestD] at hc
  obtain ⟨d, hl⟩ := mem_listed.mp hc
  obtain ⟨v, ws, b, _, _, h3, h4, _⟩ := hd.segs hl
  exact ⟨_, by simp, h3, h4⟩

/-- No root inventory and no sidecar of an object made by the library is a directory. -/
theorem Sound.root_notDir {E : Env} {s : FS} {base : Path} {dv : Str} {trees : List Tree} {recs : List Rec}
    (h : Sound E s base dv trees recs) {algs : List Str} {q : Path} (hq : RootInventory base algs q) : look s q ≠ some .dir := by
  obtain ⟨rl, _, _, hstored, _, _⟩ := h.last
  rcases hq with rfl | ⟨a, _, rfl⟩
  · have := hstored.1
    intro hd
    rw [show base ++ [c!"inventory.json"] = base ++ [inventoryFilename] from rfl, this] at hd
    cases hd
  · intro hd
    rcases h.only (sidecarName a) [] (by rw [hd]; simp) with ⟨k, _, he⟩ | ⟨_, he | he | ⟨r, hr, he⟩⟩
    · have := styleName_head none (k + 1)
      rw [← he] at this
      cases this
    · exact inventory_ne_sidecar (dir := base) (by rw [he])
    · have := congrArg List.head? he
      cases this
    · obtain ⟨_, d, _, h6⟩ := h.root r hr
      rw [← he, hd] at h6
      cases h6

/-- The rest of an update of an object with a history succeeds once the root inventory is being replaced. -/
theorem update_finishes {E : Env} (hlib : E.lib.Lawful) (hhash : HashLib E.raw) {o : Obj}
    (halg : o.digestAlgorithm = c!"sha512" ∨ o.digestAlgorithm = c!"sha256") {objdir srcdir : Str} {metadata : Option VBlock} {abort : Bool}
    {s s' : FS} {dv : Str} {trees : List Tree} {recs : List Rec} (h : Sound E s (absComps E.cwd objdir) dv trees recs)
    (hvis : Visits (addVersionWithContent E o objdir (some srcdir) metadata abort) s s') :
    look s' (absComps E.cwd objdir ++ [inventoryFilename]) = look s (absComps E.cwd objdir ++ [inventoryFilename]) ∨
    ∃ t inv head alg n text, run (addVersionWithContent E o objdir (some srcdir) metadata abort) s = (t, .ok (some inv)) ∧
      OnlyAdds s s' (absComps E.cwd objdir) head [alg, o.digestAlgorithm] ∧
      OnlyAdds s t (absComps E.cwd objdir) head [alg, o.digestAlgorithm] ∧
      (∀ q, absComps E.cwd objdir ++ [head] <+: q → look s' q = look t q) ∧
      look t (absComps E.cwd objdir ++ [inventoryFilename]) = some (.file text) ∧
      look t (absComps E.cwd objdir ++ [head, inventoryFilename]) = some (.file text) ∧
      look s' (absComps E.cwd objdir ++ [inventoryFilename]) = some (.file (text.take n)) := by
  rcases visits_update hlib hvis with h0 | ⟨src, nv, sd, nv0, inv0, alg, m, vs, style, n, inv1, hsd, hprep, hs, hadd, hvis⟩
  · left; rw [h0]
  have hw := h.wf
  obtain ⟨h1, h2, h3, h4, h5⟩ := hs.confined
  have hc := hs.confined_source hhash hw hadd
  have hh := styleName_safe style (n + 1)
  have hv := styleName_head style (n + 1)
  have ho : ∀ old, nv.oldDigestAlgorithm = some old → '/' ∉ old := by
    intro old ho
    rw [hc.old, h3] at ho
    cases ho
    exact h4
  rcases writeNewVersion_moment hw hs.base_dir hc.head_eq hh hv hc.queue ho hvis with hm | ⟨s4, hr4, hw4, hb4, hin, ⟨k, hk⟩, hvc⟩
  · exact Or.inl hm.1
  right
  -- the sidecar is not a directory
  obtain ⟨rl, hlast, _, hstored, _, _⟩ := h.last
  have hv4 := visits_run (putVersion E o (absComps E.cwd objdir) src nv (styleName style (n + 1))) s
  rw [hr4] at hv4
  have hneI : inventoryFilename ≠ styleName style (n + 1) := by
    intro he
    rw [← he] at hv
    revert hv
    decide
  have hneS : sidecarName o.digestAlgorithm ≠ styleName style (n + 1) := by
    intro he
    rw [← he] at hv
    cases hv
  have hi4 : look s4 (absComps E.cwd objdir ++ [inventoryFilename]) = look s (absComps E.cwd objdir ++ [inventoryFilename]) :=
    putVersion_root hh hv hc.queue ho hv4 hneI (Or.inr (by
      intro old _ he
      exact inventory_ne_sidecar (dir := absComps E.cwd objdir) (by rw [he])))
  have hs4 : look s4 (absComps E.cwd objdir ++ [sidecarName o.digestAlgorithm]) = look s (absComps E.cwd objdir ++ [sidecarName o.digestAlgorithm]) := by
    refine putVersion_root hh hv hc.queue ho hv4 hneS ?_
    by_cases he : o.digestAlgorithm = alg
    · left
      rw [hc.algorithm, hc.old, h3, h5, he]
      rfl
    · right
      intro old ho' he'
      rw [hc.old, h3] at ho'
      cases ho'
      exact he (List.append_cancel_left he')
  have hnd : look s (absComps E.cwd objdir ++ [sidecarName o.digestAlgorithm]) ≠ some .dir :=
    h.root_notDir (algs := [o.digestAlgorithm]) (Or.inr ⟨_, by simp, rfl⟩)
  obtain ⟨t, ht⟩ := run_writeInv_ok (E := E) (o := o) (inv := nv.inv) .root hw4 hb4 (by rw [List.append_nil]; exact Or.inr hb4)
    (by rw [List.append_nil, hi4, hstored.1]; simp) (by rw [List.append_nil, hs4]; exact hnd) ⟨_, fileDigest_known E.raw halg _⟩
  have hwr : run (writeNewVersion E o (absComps E.cwd objdir) src nv) s = (t, .ok nv.inv) := by
    rw [writeNewVersion_eq hc.head_eq, run_bind_ok hr4, run_bind_ok ht]
    rfl
  have hrun : run (addVersionWithContent E o objdir (some srcdir) metadata abort) s = (t, .ok (some nv.inv)) := by
    unfold addVersionWithContent
    rw [run_bind_ok (s1 := s) (a := some (absComps E.cwd objdir, src, nv)) (by rw [run_look, hprep])]
    dsimp only
    rw [run_bind_ok hwr]
    rfl
  have hvt := visits_run (writeNewVersion E o (absComps E.cwd objdir) src nv) s
  rw [hwr] at hvt
  have hint : ∀ q, absComps E.cwd objdir ++ [styleName style (n + 1)] <+: q → look t q = look s4 q := by
    intro q hq
    have := (only_writeInvRoot (E := E) (o := o) (base := absComps E.cwd objdir) (inv := some nv.inv)).run_frame (s := s4) (q := q)
      (hrootframe hv hq)
    rw [ht] at this
    exact this
  obtain ⟨hW, _⟩ := run_writeInv_inv .root hw4 hb4 ht
  refine ⟨t, nv.inv, styleName style (n + 1), alg, k, _, hrun,
    writeNewVersion_onlyAdds hw hs.base_dir hh hv hc h3 h4 hvis, writeNewVersion_onlyAdds hw hs.base_dir hh hv hc h3 h4 hvt,
    fun q hq => by rw [hin q hq, hint q hq], by have := hW.inventory; rwa [List.append_nil] at this, ?_, hk⟩
  rw [hint _ ⟨[inventoryFilename], by simp⟩, ← hin _ ⟨[inventoryFilename], by simp⟩]
  exact hvc.inventory

/-- **C24** for objects made by the library: stop an update at any moment. While the root inventory is
the old one, every version can be extracted and gives the tree it was made from. Once the root inventory
is all of the inventory in the new version directory, that holds for all versions with the new one. -/
theorem C24_history {E : Env} (hlib : E.lib.Lawful) (hhash : HashLib E.raw) (hword : WordClass E.isWord)
    (hcwd : ∀ w ∈ E.cwd, SafeName w) {objdir srcdir : Str} {trees : List Tree} {s : FS}
    (h : History E (absComps E.cwd objdir) trees s) {o : Obj} (halg : o.digestAlgorithm = c!"sha512" ∨ o.digestAlgorithm = c!"sha256")
    {metadata : Option VBlock} (hmeta : GoodMeta metadata) {abort : Bool} (hnames : NamesAllowed o (FileBelow s (absComps E.cwd srcdir)))
    (hno : NoCollision E.raw (InTrees (trees ++ [FileBelow s (absComps E.cwd srcdir)]))) (hlen : trees.length + 1 ≤ 99999)
    {s' : FS} (hvis : Visits (addVersionWithContent E o objdir (some srcdir) metadata abort) s s')
    {dstdir : Str} (hout : ¬ absComps E.cwd objdir <+: absComps E.cwd dstdir)
    (hp : look s (dstParent E dstdir) = some .dir) (hvac : Vacant s (absComps E.cwd dstdir)) :
    (look s' (absComps E.cwd objdir ++ [c!"inventory.json"]) = look s (absComps E.cwd objdir ++ [c!"inventory.json"]) →
      ∀ k t, trees[k]? = some t → ∃ s1 md, run (extract E objdir (styleName none (k + 1)) dstdir) s' = (s1, .ok md) ∧
        ∀ r b, FileBelow s1 (absComps E.cwd dstdir) r b ↔ t r b) ∧
    (look s' (absComps E.cwd objdir ++ [c!"inventory.json"]) ≠ look s (absComps E.cwd objdir ++ [c!"inventory.json"]) →
      look s' (absComps E.cwd objdir ++ [c!"inventory.json"]) =
        look s' (absComps E.cwd objdir ++ [styleName none (trees.length + 1), c!"inventory.json"]) →
      ∀ k t, (trees ++ [FileBelow s (absComps E.cwd srcdir)])[k]? = some t →
        ∃ s1 md, run (extract E objdir (styleName none (k + 1)) dstdir) s' = (s1, .ok md) ∧
        ∀ r b, FileBelow s1 (absComps E.cwd dstdir) r b ↔ t r b) := by
  have hno' := NoCollision.mono hno (fun b hb => InTrees.append hb)
  obtain ⟨dv, recs, hs⟩ := history_sound hlib hhash hword hcwd h hno' (by omega)
  have hw' := update_wf hlib hhash hs.wf hvis
  have hdirs : ∀ {t head alg}, OnlyAdds s t (absComps E.cwd objdir) head [alg, o.digestAlgorithm] → ∀ q, look s q = some .dir → look t q = some .dir := by
    intro t head alg ha q hq
    rw [ha.kept q (fun hr => hs.root_notDir hr hq) (by rw [hq]; simp)]
    exact hq
  constructor
  · intro hroot k t hk
    obtain ⟨s1, md, h1, h2, _⟩ := hs.extract hlib hcwd hno' hk (Or.inl rfl) hout hp hvac
    rcases C24_update hlib hhash hs.wf hvis with he | ⟨_, _, head, _, _, _, hadds, _⟩
    · subst he
      exact ⟨s1, md, h1, h2⟩
    · obtain ⟨s1', k1, k2⟩ := C24_extract hlib hhash hcwd hs.wf hvis hroot hout (hs.plain hlib) h1 (hdirs hadds _ hp)
      exact ⟨s1', md, k1, fun r b => (k2 r b).trans (h2 r b)⟩
  · intro hne hfull k t hk
    rcases update_finishes hlib hhash halg hs hvis with he | ⟨e, inv, head, alg, n, text, hrun, ha1, ha2, hin, ht1, ht2, ht3⟩
    · exact absurd he hne
    obtain ⟨r, _, _, hs'⟩ := hs.update hlib hhash halg hmeta hno' hlen rfl hnames hrun
    obtain ⟨s1, md, h1, h2, _⟩ := hs'.extract hlib hcwd hno hk (Or.inl rfl) hout (hdirs ha2 _ hp) (ha2.vacant hs.isDir hout hvac)
    have hkept : ∀ w q b, q ≠ [] → look e (absComps E.cwd objdir ++ w :: q) = some (.file b) →
        look s' (absComps E.cwd objdir ++ w :: q) = some (.file b) := by
      intro w q b hq hl
      by_cases hl0 : look s (absComps E.cwd objdir ++ w :: q) = none
      · rw [hin _ (ha2.added _ (rootInventory_short hq) hl0 (by rw [hl]; simp))]
        exact hl
      · rw [ha1.kept _ (rootInventory_short hq) hl0, ← ha2.kept _ (rootInventory_short hq) hl0]
        exact hl
    have hbase : ∀ {t head alg}, OnlyAdds s t (absComps E.cwd objdir) head [alg, o.digestAlgorithm] →
        look t (absComps E.cwd objdir) = some .dir := fun ha => hdirs ha _ hs.isDir
    -- the root inventory is complete
    have hroot : look s' (absComps E.cwd objdir ++ [inventoryFilename]) = look e (absComps E.cwd objdir ++ [inventoryFilename]) := by
      have h3 := hs'.versions trees.length r (by rw [← hs.length]; simp)
      have h4 := h3.stored.1
      have h5 := (hs'.root r (by simp)).1
      rw [ht1] at h5
      rw [← h5, List.append_assoc] at h4
      have h6 := hkept (styleName none (trees.length + 1)) [inventoryFilename] text (by simp) h4
      exact (hfull.trans h6).trans ht1.symm
    obtain ⟨s1', k1, k2, _⟩ := extract_same hlib hcwd hs'.wf hw' (by rw [hbase ha1, hbase ha2]) hroot hkept hout (hs'.plain hlib)
      (hdirs ha1 _ hp) (ha1.vacant hs.isDir hout hvac) h1
    exact ⟨s1', md, k1, fun r b => (k2 r b).trans (h2 r b)⟩

/-! ## Moments of an update -/

/-- The state after the first `n` operations of a program. -/
def stopAfter {α : Type} : Nat → Prog α → FS → FS
  | _, .ret _, s => s
  | n, .get k, s => stopAfter n (k s) s
  | 0, .op _ _, s => s
  | n + 1, .op o k, s => stopAfter n (k (FS.exec o s).2) (FS.exec o s).1

theorem visits_stopAfter {α : Type} : ∀ (p : Prog α) (n : Nat) (s : FS), Visits p s (stopAfter n p s)
  | .ret _, n, s => by cases n <;> exact .here
  | .get k, n, s => by
    have h : stopAfter n (.get k) s = stopAfter n (k s) s := by cases n <;> rfl
    rw [h]
    exact .get (visits_stopAfter (k s) n s)
  | .op o k, 0, s => .here
  | .op o k, n + 1, s => .next (visits_stopAfter (k (FS.exec o s).2) n (FS.exec o s).1)

/-- The verdict of the validator on an object. -/
def objectVerdict (E : Env) (objdir : Str) (s : FS) : Option Bool :=
  match Validator.validateObject E { checkDigests := true, lax := false } 0 s objdir with
  | .ok (b, _) => some b
  | .error _ => none

/-- **C24** fails if the algorithm changes: the first thing an update does is to remove the old sidecar,
so that, stopped there, the old inventory is left without the sidecar it had. -/
theorem C24_violated : ∃ s s' : FS, s.WF ∧ Visits demoRehash s s' ∧
    look s' [c!"w", c!"obj", c!"inventory.json"] = look s [c!"w", c!"obj", c!"inventory.json"] ∧
    look s [c!"w", c!"obj", c!"inventory.json.sha256"] ≠ none ∧ look s' [c!"w", c!"obj", c!"inventory.json.sha256"] = none ∧
    (∀ q, [c!"w", c!"obj", c!"v2"] <+: q → look s' q = none) ∧
    objectVerdict demoEnv c!"obj" s = some true ∧ objectVerdict demoEnv c!"obj" s' = some false := by
  have hwf : (stopAfter 1 demoRehash demoChanged).WF := update_wf demoEnv_lawful demoRaw_hash demoChanged_wf (visits_stopAfter demoRehash 1 demoChanged)
  refine ⟨demoChanged, _, demoChanged_wf, visits_stopAfter demoRehash 1 demoChanged, by decide +kernel, by decide +kernel, by decide +kernel,
    ?_, by decide +kernel, by decide +kernel⟩
  intro q hq
  have h0 : look (stopAfter 1 demoRehash demoChanged) [c!"w", c!"obj", c!"v2"] = none := by decide +kernel
  by_cases he : [c!"w", c!"obj", c!"v2"] = q
  · rw [← he]; exact h0
  · exact look_below_none hwf hq he (by rw [h0]; simp)

/-- A moment of an update at which the old inventory is in place, and the content of the new version has
been copied. -/
example : Visits demoUpdate demoChanged (stopAfter 3 demoUpdate demoChanged) ∧
    look (stopAfter 3 demoUpdate demoChanged) [c!"w", c!"obj", c!"inventory.json"] = look demoChanged [c!"w", c!"obj", c!"inventory.json"] ∧
    look (stopAfter 3 demoUpdate demoChanged) [c!"w", c!"obj", c!"v2", c!"content", c!"a.txt"] = some (.file [9]) ∧
    look (stopAfter 3 demoUpdate demoChanged) [c!"w", c!"obj", c!"v2", c!"inventory.json"] = none :=
  ⟨visits_stopAfter _ _ _, by decide +kernel, by decide +kernel, by decide +kernel⟩

/-- Version 1 can be extracted at that moment as before. -/
example : ∃ s1 md, run (extract demoEnv c!"obj" c!"v1" c!"out") (stopAfter 3 demoUpdate demoChanged) = (s1, .ok md) ∧
    ∀ r b, FileBelow s1 (absComps demoEnv.cwd c!"out") r b ↔ FileBelow demoFS (absComps demoEnv.cwd c!"src") r b := by
  have h1 : History demoEnv (absComps demoEnv.cwd c!"obj") [FileBelow demoFS (absComps demoEnv.cwd c!"src")] demoChanged :=
    .elsewhere demo_history1 demoChanged_wf demo_apart
  have hv := visits_stopAfter demoUpdate 3 demoChanged
  exact (C24_history demoEnv_lawful demoRaw_hash demoWord_class demoEnv_cwd h1 (o := demoObj) (Or.inr rfl) demoMeta_good
    (fun h => by cases h) demo_noCollision (by decide) hv (dstdir := c!"out") (by decide +kernel) (by decide +kernel)
    (vacant_of demoChanged_wf (by decide +kernel))).1 (by decide +kernel) 0 _ rfl

/-- Once the root inventory has been replaced, both versions can be extracted, although the sidecar is
the old one. -/
example : look (stopAfter 6 demoUpdate demoChanged) [c!"w", c!"obj", c!"inventory.json.sha256"] =
      look demoChanged [c!"w", c!"obj", c!"inventory.json.sha256"] ∧
    ∃ s1 md, run (extract demoEnv c!"obj" c!"v2" c!"out") (stopAfter 6 demoUpdate demoChanged) = (s1, .ok md) ∧
    ∀ r b, FileBelow s1 (absComps demoEnv.cwd c!"out") r b ↔ FileBelow demoChanged (absComps demoEnv.cwd c!"src") r b := by
  have h1 : History demoEnv (absComps demoEnv.cwd c!"obj") [FileBelow demoFS (absComps demoEnv.cwd c!"src")] demoChanged :=
    .elsewhere demo_history1 demoChanged_wf demo_apart
  have hv := visits_stopAfter demoUpdate 6 demoChanged
  exact ⟨by decide +kernel, (C24_history demoEnv_lawful demoRaw_hash demoWord_class demoEnv_cwd h1 (o := demoObj) (Or.inr rfl) demoMeta_good
    (fun h => by cases h) demo_noCollision (by decide) hv (dstdir := c!"out") (by decide +kernel) (by decide +kernel)
    (vacant_of demoChanged_wf (by decide +kernel))).2 (by decide +kernel) (by decide +kernel) 1 _ rfl⟩

end Ocfl
