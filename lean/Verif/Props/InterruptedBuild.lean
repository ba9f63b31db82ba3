import Verif.Props.Interrupted
import Verif.Props.Build
import Verif.Props.Reading

/-!
# C88: interrupted calls of `build`
-/

namespace Ocfl

open Spec FS Prog Ocfl.Inv Validator

/-- The content of a version is copied into its directory. -/
theorem BuildState.queue {E : Env} (hhash : HashLib E.raw) {o : Obj} (ho : GoodSettings o)
    {metadata : Nat → VBlock} {base : Path} {srcdir : Str} {s0 s : FS} {k : Nat}
    {inv : Option Inv} {recs : List Rec} (h : BuildState E o metadata base (absComps E.cwd srcdir) s0 s k inv recs)
    (hmeta : GoodMeta (some (metadata (k + 1)))) (hlim : k + 1 ≤ 99999) {src : Path} {nv : NV}
    (hprep : buildPrepare E o srcdir (unpaddedName (k + 1)) (metadata (k + 1)) inv s = .ok (src, nv)) :
    QueueReady (unpaddedName (k + 1)) nv.filesToCopy := by
  have hw := h.built.wf
  have hb := h.built
  have hlenT := versionTrees_length s0 (absComps E.cwd srcdir) k
  have hx := hexNames_srcEnv hhash s src
  unfold buildPrepare at hprep
  cases k with
  | zero =>
    rw [if_pos (show unpaddedName (0 + 1) = c!"v1" by decide)] at hprep
    obtain ⟨nv0, srcs, hff⟩ := prepareFirst_ok hw ho hmeta hprep
    exact hff.ground.queueReady hff.added hff.source.names hx (by rw [hff.contentDirectory]; exact ho.contentDirectory.1)
  | succ j =>
    rw [if_neg (by
      intro he
      have := unpaddedName_inj (m := j + 1 + 1) (n := 1) he
      omega)] at hprep
    split at hprep
    · cases hprep
    rename_i src' hopen
    obtain ⟨hsrc, hsd⟩ := fswOpen_ok hopen
    obtain ⟨front, rl, hrecs, hvl⟩ := hb.last (by
      intro he
      have := congrArg List.length he
      rw [hlenT] at this
      cases this)
    have hlast : recs.getLast? = some rl := by rw [hrecs]; simp
    rw [h.inv_eq, hlast] at hprep
    dsimp only [Option.map_some] at hprep
    split at hprep
    · cases hprep
    rename_i nv0 hnext
    split at hprep
    · cases hprep
    rename_i nv' hadd
    cases hprep
    have hdl := hvl.describes
    have halgl : rl.alg = o.digestAlgorithm := hb.alg rl (by rw [hrecs]; simp)
    rw [halgl] at hdl
    have hp := hdl.parsed
    rw [hlenT] at hp
    have g := ground_next hp (sv := c!"1.1") (by decide) hmeta hlim hnext
    obtain ⟨srcs, hsource, hadded⟩ := addFromSrcdir_ok hw hsd g.building ⟨_, g.manifest⟩ g.queue hadd
    obtain ⟨_, type, htype, hnv0⟩ := nextVersion_ok hp.numbered hnext
    have hcd0 : nv0.inv.contentDirectory = rl.inv.contentDirectory := by rw [hnv0]; rfl
    have hcdu0 : nv0.inv.contentDirectoryToUse = rl.inv.contentDirectoryToUse := by
      unfold Inv.contentDirectoryToUse
      rw [hcd0]
    exact g.queueReady hadded hsource.names hx (by rw [hcdu0]; exact hdl.contentDirectory)

theorem BuildState.noRoot {E : Env} {o : Obj} {metadata : Nat → VBlock} {base src : Path} {s0 s : FS} {k : Nat}
    {inv : Option Inv} {recs : List Rec} (h : BuildState E o metadata base src s0 s k inv recs) : FS.look s (base ++ [inventoryFilename]) = none := by
  by_contra hne
  obtain ⟨i, _, he⟩ := h.built.only _ [] hne
  have hs := styleName_head none (i + 1)
  rw [← he] at hs
  cases hs

/-- While the versions are built, there is no root inventory. -/
theorem BuildState.moment {E : Env} (hhash : HashLib E.raw) (hcwd : ∀ w ∈ E.cwd, SafeName w) {o : Obj} (ho : GoodSettings o)
    {metadata : Nat → VBlock} {base : Path} (hbs : ∀ w ∈ base, SafeName w) {srcdir : Str} (hapart : ApartDirs (absComps E.cwd srcdir) base)
    {s0 : FS} {n : Nat} (hmeta : ∀ k < n, GoodMeta (some (metadata (k + 1)))) (hlim : n ≤ 99999)
    (hfile : ∃ r b, FileBelow s0 (absComps E.cwd srcdir ++ [c!"v1"]) r b)
    (hnames : ∀ t ∈ versionTrees s0 (absComps E.cwd srcdir) n, NamesAllowed o t) : ∀ (l : List (Nat × Str)) {s s' : FS} {k : Nat}
    {inv : Option Inv} {recs : List Rec}, BuildState E o metadata base (absComps E.cwd srcdir) s0 s k inv recs → k + l.length = n →
    (∀ i x, l[i]? = some x → x = (k + i + 1, unpaddedName (k + i + 1))) →
    Visits (buildLoop E o srcdir metadata (some base) l inv) s s' →
    s'.WF ∧ look s' (base ++ [inventoryFilename]) = none
  | [], s, s', k, inv, recs, h, hk, _, hv => by
    rw [visits_ret hv]
    exact ⟨h.built.wf, h.noRoot⟩
  | x :: l, s, s', k, inv, recs, h, hk, hl, hv => by
    have hx := hl 0 x rfl
    subst hx
    have hroot := h.noRoot
    unfold buildLoop at hv
    rw [List.length_cons] at hk
    have hm := hmeta k (by omega)
    rcases visits_bind hv with hv | ⟨s1, ⟨src, nv⟩, h1, hv⟩
    · rw [visits_look hv]
      exact ⟨h.built.wf, hroot⟩
    rw [run_look] at h1
    obtain ⟨hs1, hprep⟩ := Prod.mk.inj h1
    subst hs1
    have hq := h.queue hhash ho hm (by omega) hprep
    have hh : SafeName (unpaddedName (k + 1)) := styleName_safe none (k + 1)
    rcases visits_bind hv with hv | ⟨s2, _, h2, hv⟩
    · have hsafe : Only SafeTarget (Prog.bind (writeInventoryAndSidecar E o base (some nv.inv) (unpaddedName (k + 1)))
          (fun _ => copyAll base src nv.filesToCopy)) :=
        .bind (safe_writeInv hbs (.version hh)) (fun _ => .forEach (fun e he => safe_copyIntoObject hbs hh (hq.inside e he)))
      have hstays : Only (Stays base (base ++ [unpaddedName (k + 1)])) (Prog.bind
          (writeInventoryAndSidecar E o base (some nv.inv) (unpaddedName (k + 1))) (fun _ => copyAll base src nv.filesToCopy)) :=
        .bind (only_writeInvVersion hh) (fun _ => only_copyAll hh hq.inside)
      refine ⟨hsafe.visits_wf h.built.wf hv, ?_⟩
      rw [hstays.visits_frame ?_ hv]
      · exact hroot
      · rintro op (⟨r, hr⟩ | ⟨q, hq, rfl⟩)
        · intro he
          rw [← hr, List.append_assoc] at he
          have he := (List.cons.inj (List.append_cancel_left he)).1
          have hs := styleName_head none (k + 1)
          rw [show styleName none (k + 1) = inventoryFilename from he] at hs
          cases hs
        · rintro rfl
          have := hq.length_le
          rw [List.length_append, List.length_singleton] at this
          omega
    · obtain ⟨r, hstep⟩ := h.step hhash hcwd ho hapart hm (by omega) (by rintro rfl; exact hfile)
        (hnames _ (List.mem_map.mpr ⟨k, List.mem_range.mpr (by omega), rfl⟩)) hprep h2
      refine BuildState.moment hhash hcwd ho hbs hapart hmeta hlim hfile hnames l hstep (by omega) ?_ hv
      intro i x hi
      have := hl (i + 1) x (by simpa using hi)
      rw [this, show k + (i + 1) = k + 1 + i by omega]

/-- At every moment of `build`, the root inventory is not there, or it holds a first part of the inventory and all versions are
complete. -/
theorem build_moment {E : Env} (hhash : HashLib E.raw) (hword : WordClass E.isWord) (hcwd : ∀ w ∈ E.cwd, SafeName w) {o : Obj}
    (ho : GoodSettings o) {srcdir objdir : Str} {metadata : Nat → VBlock} {s sf s' : FS} (hw : s.WF) {n : Nat}
    (hsources : VersionSources s (absComps E.cwd srcdir) n) (hmeta : ∀ k < n, GoodMeta (some (metadata (k + 1))))
    (hvac : Vacant s (absComps E.cwd objdir)) (hout : ¬ absComps E.cwd srcdir <+: absComps E.cwd objdir)
    (hfile : ∃ r b, FileBelow s (absComps E.cwd srcdir ++ [c!"v1"]) r b)
    (hnames : ∀ t ∈ versionTrees s (absComps E.cwd srcdir) n, NamesAllowed o t) {inv : Inv}
    (hr : run (build E o srcdir metadata (some objdir)) s = (sf, .ok (some inv)))
    (hvis : Visits (build E o srcdir metadata (some objdir)) s s') :
    s'.WF ∧ (look s' (absComps E.cwd objdir ++ [inventoryFilename]) = none ∨
      (∃ i, look s' (absComps E.cwd objdir ++ [inventoryFilename]) = some (.file ((utf8 (inventoryText E inv)).take i))) ∧
      ∀ k q, look s' (absComps E.cwd objdir ++ styleName none k :: q) = look sf (absComps E.cwd objdir ++ styleName none k :: q)) := by
  have hbs : ∀ w ∈ absComps E.cwd objdir, SafeName w := absComps_safe hcwd objdir
  have hopensafe : Only SafeTarget (openObjCreate E objdir) := only_openObjCreate.mono (by
    rintro op ⟨q, hq, rfl⟩ w hw
    exact hbs w (hq.subset hw))
  have hopenonly := only_openObjCreate (E := E) (dir := objdir)
  generalize hbase : absComps E.cwd objdir = base at hvac hout hbs hopenonly ⊢
  have hnone : look s (base ++ [inventoryFilename]) = none := hvac.2 _ (by simp)
  have hup : ∀ q, q <+: base → ∀ w r, q ≠ base ++ w :: r := by
    rintro q hq w r rfl
    have := hq.length_le
    rw [List.length_append, List.length_cons] at this
    omega
  have hdir1 : look s (absComps E.cwd srcdir ++ [c!"v1"]) = some .dir := by
    obtain ⟨r, b, h1, h2⟩ := hfile
    exact look_above hw r h1 h2
  have hsd : look s (absComps E.cwd srcdir) = some .dir := look_above hw _ (by simp) hdir1
  have hapart : ApartDirs (absComps E.cwd srcdir) base := by
    refine ⟨hout, ?_⟩
    rintro ⟨t, ht⟩
    rw [← ht, List.append_assoc, hvac.2 _ (by simp)] at hdir1
    cases hdir1
  unfold build at hr hvis
  split at hr
  · cases hr
  rename_i hid
  rw [if_neg hid] at hvis
  obtain ⟨s1, b1, h1, hr⟩ := run_bind_inv hr
  obtain ⟨s1', b1', h1', h1''⟩ := run_bind_inv h1
  obtain ⟨hb, w1, _, _, l1⟩ := run_openObjCreate hcwd hw h1'
  have e1 : (s1', (Except.ok (some b1') : Py (Option Path))) = (s1, .ok b1) := h1''
  cases e1
  rw [hbase] at hb
  subst hb
  have hd1 : look s1 b1' = some .dir := by
    rw [l1]
    split
    · rfl
    · rename_i h
      rcases hvac.1 with h' | h'
      · exact absurd ⟨rfl, h'⟩ h
      · exact h'
  have k1 : ∀ q, q ≠ b1' → look s1 q = look s q := by
    intro q hq
    rw [l1, if_neg]
    rintro ⟨h, _⟩; exact hq h
  have k1' : ∀ q, look s1 (absComps E.cwd srcdir ++ q) = look s (absComps E.cwd srcdir ++ q) := by
    intro q
    refine k1 _ ?_
    rintro he
    exact hapart.below q (by rw [he]; exact List.prefix_rfl)
  -- opening the directory
  rcases visits_bind hvis with hvis | ⟨t1, c1, g1, hvis⟩
  · replace hvis : Visits (openObjCreate E objdir) s s' := by
      rcases visits_bind hvis with hvis | ⟨s2, _, hr2, hvis⟩
      · exact hvis
      · have := visits_run (openObjCreate E objdir) s
        rw [hr2] at this
        rw [visits_ret hvis]
        exact this
    refine ⟨hopensafe.visits_wf hw hvis, Or.inl ?_⟩
    rw [hopenonly.visits_frame ?_ hvis]
    · exact hnone
    · rintro op ⟨q, hq, rfl⟩
      exact hup q hq _ _
  rw [h1] at g1
  cases g1
  -- listing the versions
  obtain ⟨s2, vs, h2, hr⟩ := run_bind_inv hr
  have hnone1 : look s1 (b1' ++ [inventoryFilename]) = none := by
    rw [k1 _ (by simp)]
    exact hnone
  rcases visits_bind hvis with hvis | ⟨t2, vs', g2, hvis⟩
  · rw [visits_look hvis]
    exact ⟨w1, Or.inl hnone1⟩
  rw [h2] at g2
  cases g2
  rw [run_look] at h2
  obtain ⟨hs2, hvs⟩ := Prod.mk.inj h2
  subst hs2
  have hsd1 : look s1 (absComps E.cwd srcdir) = some .dir := by
    have := k1' []
    rw [List.append_nil] at this
    rw [this]; exact hsd
  have hsources1 : VersionSources s1 (absComps E.cwd srcdir) n := by
    intro w
    rw [← hsources w]
    unfold VersionSource
    rw [k1']
  have hvs' : vs = (List.range n).map (fun k => (k + 1, unpaddedName (k + 1))) := by
    unfold fswOpen at hvs
    dsimp only at hvs
    rw [if_pos (by rw [isdir_iff]; exact hsd1)] at hvs
    dsimp only at hvs
    rw [versionDirs_sources w1 hsd1 hsources1] at hvs
    cases hvs
    rfl
  subst hvs'
  have hinit : BuildState E o metadata b1' (absComps E.cwd srcdir) s s1 0 none [] := by
    refine ⟨⟨w1, hd1, rfl, by simp, List.Pairwise.nil, by simp, by simp, ?_⟩, rfl, ?_, by simp, hw, .nil⟩
    · intro w q hl
      exfalso
      refine hl ?_
      rw [k1 _ (by simp), hvac.2 _ (by simp)]
    · intro q hq
      exact k1 q (by rintro rfl; exact hq List.prefix_rfl)
  have hl : ∀ i x, ((List.range n).map (fun k => (k + 1, unpaddedName (k + 1))))[i]? = some x →
      x = (0 + i + 1, unpaddedName (0 + i + 1)) := by
    intro i x hi
    rw [List.getElem?_map] at hi
    cases hx : (List.range n)[i]? with
    | none => rw [hx] at hi; cases hi
    | some j =>
      rw [hx] at hi
      obtain ⟨_, hj⟩ := List.getElem?_eq_some_iff.mp hx
      rw [List.getElem_range] at hj
      subst hj
      cases hi
      simp
  -- the loop
  obtain ⟨s3, inv3, h3, hr⟩ := run_bind_inv hr
  rcases visits_bind hvis with hvis | ⟨t3, inv3', g3, hvis⟩
  · obtain ⟨w, h⟩ := hinit.moment hhash hcwd ho hbs hapart hmeta hsources.limit hfile hnames _ (by simp) hl hvis
    exact ⟨w, Or.inl h⟩
  rw [h3] at g3
  cases g3
  obtain ⟨recs, B⟩ := hinit.loop hhash hcwd ho hapart hmeta hsources.limit hfile hnames _ (by simp) hl h3
  have hinv : inv3 = some inv := by
    obtain ⟨_, _, _, hr'⟩ := run_bind_inv hr
    obtain ⟨_, _, _, hr''⟩ := run_bind_inv hr'
    cases hr''
    rfl
  subst hinv
  -- the declaration and the root inventory
  have only : Only (fun op => (∃ q, q <+: b1' ∧ op = .mkdir q) ∨
      op = .write (b1' ++ [inventoryFilename]) (utf8 (inventoryText E inv)) ∨ (∃ a t, op = .write (b1' ++ [sidecarName a]) t) ∨
      ∃ t, op = .write (b1' ++ [declarationName o.specVersion]) t)
      (Prog.bind (writeDeclaration E o b1') (fun _ => Prog.bind (writeInventoryAndSidecar E o b1' (some inv) []) (fun _ => .ret (.ok (some inv))))) := by
    refine .bind (only_declaration hword ho (Or.inr (Or.inr (Or.inr ⟨_, rfl⟩)))) (fun _ => .bind (only_rootInventory.mono ?_) (fun _ => .ret))
    rintro op (h | h | h)
    · exact Or.inl h
    · exact Or.inr (Or.inl h)
    · exact Or.inr (Or.inr (Or.inl h))
  have safe : Only SafeTarget (Prog.bind (writeDeclaration E o b1') (fun _ =>
      Prog.bind (writeInventoryAndSidecar E o b1' (some inv) []) (fun _ => .ret (.ok (some inv))))) :=
    .bind (only_declaration hword ho (safe_append hbs (by simpa using declaration_safe ho.specVersion)))
      (fun _ => .bind (safe_writeInv hbs .root) (fun _ => .ret))
  have frame : ∀ {t}, Visits (Prog.bind (writeDeclaration E o b1') (fun _ =>
      Prog.bind (writeInventoryAndSidecar E o b1' (some inv) []) (fun _ => .ret (.ok (some inv))))) s3 t →
      ∀ k q, look t (b1' ++ styleName none k :: q) = look s3 (b1' ++ styleName none k :: q) := by
    intro t hv k q
    refine only.visits_frame ?_ hv
    have hs := styleName_head none k
    rintro op (⟨q', hq', rfl⟩ | rfl | ⟨a, t, rfl⟩ | ⟨t, rfl⟩)
    · exact hup q' hq' _ _
    all_goals
      intro he
      have he := (List.cons.inj (List.append_cancel_left he)).1
      rw [← he] at hs
      cases hs
  refine ⟨safe.visits_wf B.built.wf hvis, ?_⟩
  have hfinal := visits_run (Prog.bind (writeDeclaration E o b1') (fun _ =>
      Prog.bind (writeInventoryAndSidecar E o b1' (some inv) []) (fun _ => .ret (.ok (some inv))))) s3
  rw [hr] at hfinal
  have part := only.visits_part (q := b1' ++ [inventoryFilename]) (x := utf8 (inventoryText E inv)) (by
    rintro op (⟨q', hq', rfl⟩ | rfl | ⟨a, t, rfl⟩ | ⟨t, rfl⟩)
    · exact Or.inl (hup q' hq' _ _)
    · exact Or.inr rfl
    · refine Or.inl (fun he => ?_)
      exact sidecarName_ne a (List.cons.inj (List.append_cancel_left he)).1
    · exact Or.inl (declaration_ne (w := inventoryFilename) rfl (by decide)).symm) hvis
  rcases part with h | h
  · exact Or.inl (h.trans B.noRoot)
  · exact Or.inr ⟨h, fun k q => (frame hvis k q).trans (frame hfinal k q).symm⟩

/-- **C88** for `build`: if the call would succeed, but is interrupted at any moment, also in the middle of writing a file, and what
is there passes validation, also without digests, then all versions can be extracted. -/
theorem C88_build {E : Env} (hE : Libraries E) (hpre : E.lib.NoPrefix) (hcwd : ∀ w ∈ E.cwd, SafeName w) {o : Obj} (ho : GoodSettings o)
    {srcdir objdir : Str} {metadata : Nat → VBlock} {s : FS} (hw : s.WF)
    (hplain : ∀ w m, VersionSource s (absComps E.cwd srcdir) w m → w = unpaddedName m)
    (hmeta : ∀ w m, VersionSource s (absComps E.cwd srcdir) w m → GoodMeta (some (metadata m)))
    (hvac : Vacant s (absComps E.cwd objdir)) (hout : ¬ absComps E.cwd srcdir <+: absComps E.cwd objdir)
    (hfile : ∃ r b, FileBelow s (absComps E.cwd srcdir ++ [c!"v1"]) r b)
    (hnames : ∀ w m, VersionSource s (absComps E.cwd srcdir) w m → NamesAllowed o (FileBelow s (absComps E.cwd srcdir ++ [w])))
    (hno : NoCollision E.raw (fun b => ∃ w m r, VersionSource s (absComps E.cwd srcdir) w m ∧ FileBelow s (absComps E.cwd srcdir ++ [w]) r b))
    {sf : FS} {inv : Option Inv} (hr : run (build E o srcdir metadata (some objdir)) s = (sf, .ok inv))
    {s' : FS} (hvis : Visits (build E o srcdir metadata (some objdir)) s s')
    {cfg : Config} (hlax : cfg.lax = false) {es : List Entry} (hvalid : validateObject E cfg 0 s' objdir = .ok (true, es))
    {dstdir w : Str} {m : Nat} (hv : VersionSource s (absComps E.cwd srcdir) w m)
    (hdst : ¬ absComps E.cwd objdir <+: absComps E.cwd dstdir)
    (hp : look s' (dstParent E dstdir) = some .dir) (hvd : Vacant s' (absComps E.cwd dstdir)) :
    ∃ s1 md, run (extract E objdir (unpaddedName m) dstdir) s' = (s1, .ok md) ∧
      (∀ r b, FileBelow s1 (absComps E.cwd dstdir) r b ↔ FileBelow s (absComps E.cwd srcdir ++ [w]) r b) ∧
      ∀ q, ¬ absComps E.cwd dstdir <+: q → look s1 q = look s' q := by
  obtain ⟨n, hn⟩ := build_numbered hcwd hw hplain hout hfile hr
  have hblocks : ∀ k < n, GoodMeta (some (metadata (k + 1))) := fun k hk => hmeta _ _ (hn.dir hk)
  have hnames' : ∀ t ∈ versionTrees s (absComps E.cwd srcdir) n, NamesAllowed o t := by
    intro t ht
    obtain ⟨k, hk, rfl⟩ := List.mem_map.mp ht
    exact hnames _ _ (hn.dir (List.mem_range.mp hk))
  have hno' : NoCollision E.raw (InTrees (versionTrees s (absComps E.cwd srcdir) n)) := by
    refine NoCollision.mono hno ?_
    rintro b ⟨t, ht, r, hb⟩
    obtain ⟨k, hk, rfl⟩ := List.mem_map.mp ht
    exact ⟨_, _, r, hn.dir (List.mem_range.mp hk), hb⟩
  obtain ⟨recs, rl, hinv, hlast, hsound, _, _, _⟩ := sound_build hE.hash hE.word hcwd ho hw hn hblocks hvac hout hfile hnames' hr
  subst hinv
  obtain ⟨hw', hm⟩ := build_moment hE.hash hE.word hcwd ho hw hn hblocks hvac hout hfile hnames' hr hvis
  obtain ⟨hdir, hvo⟩ := (C73 hE hlax hw').mp ⟨es, hvalid⟩
  rcases hm with hm | ⟨⟨i, hm⟩, hframe⟩
  · obtain ⟨_, _, _, _, _, _, _, _, _, hrl⟩ := hvo
    obtain ⟨b, _, hb, _⟩ := hrl.inventory
    have hm : look s' (absComps E.cwd objdir ++ [c!"inventory.json"]) = none := hm
    rw [hm] at hb
    cases hb
  obtain ⟨rl', hlast', hd, _, _, _⟩ := hsound.last
  rw [hlast] at hlast'
  cases hlast'
  have hwhole := valid_whole hE.json hpre hd.parsed.good.keys hm hvo
  have hd' : Describes E s' (absComps E.cwd objdir) (versionTrees s (absComps E.cwd srcdir) n) rl.inv rl.alg rl.m rl.vs := by
    refine hd.frame (fun v hv' q _ => ?_)
    obtain ⟨i, _, _, rfl⟩ := (hd.parsed.good.names.2.2.2 v).mp hv'
    exact hframe i q
  obtain ⟨hw1, hm1, hm2⟩ := hn.number hv
  obtain ⟨k, rfl⟩ : ∃ k, m = k + 1 := ⟨m - 1, by omega⟩
  have hkt : (versionTrees s (absComps E.cwd srcdir) n)[k]? = some (FileBelow s (absComps E.cwd srcdir ++ [w])) := by
    unfold versionTrees
    rw [List.getElem?_map, List.getElem?_range (by omega), hw1]
    rfl
  exact Describes.extract hE.json hcwd hw' hdir hd' hwhole hno' hkt (Or.inl rfl) hdst hp hvd

/-- **C88** on a call of `build` that was stopped after its last operation. Stopped before, the object is not valid. -/
example : objectVerdict demoEnv c!"obj" (stopAfter 16 (build demoEnv demoObj c!"vs" buildMeta (some c!"obj")) buildFS) = some false ∧
    ∃ s1 md, run (extract demoEnv c!"obj" c!"v2" c!"out") (stopAfter 17 (build demoEnv demoObj c!"vs" buildMeta (some c!"obj")) buildFS) = (s1, .ok md) ∧
      ∀ r b, FileBelow s1 (absComps demoEnv.cwd c!"out") r b ↔ FileBelow buildFS (absComps demoEnv.cwd c!"vs" ++ [c!"v2"]) r b := by
  refine ⟨by decide +kernel, ?_⟩
  obtain ⟨inv, hr⟩ := succeeded_ok (r := run (build demoEnv demoObj c!"vs" buildMeta (some c!"obj")) buildFS) (by decide +kernel)
  have hbytes : ∀ w m, VersionSource buildFS (absComps demoEnv.cwd c!"vs") w m → ∀ r b,
      FileBelow buildFS (absComps demoEnv.cwd c!"vs" ++ [w]) r b → b ∈ [[1, 2, 3], ([4] : Bytes)] := by
    intro w m h r b hb
    have hsub : ∀ x ∈ [(c!"v1", 1), (c!"v2", 2), (c!"v3", 3)], ∀ b ∈ filesBelow buildFS (absComps demoEnv.cwd c!"vs" ++ [x.1]),
        b ∈ [[1, 2, 3], ([4] : Bytes)] := by decide +kernel
    exact hsub _ (build_sources h) b (mem_filesBelow hb)
  have he : stopAfter 17 (build demoEnv demoObj c!"vs" buildMeta (some c!"obj")) buildFS = builtFS := by decide +kernel
  have hvis := visits_stopAfter (build demoEnv demoObj c!"vs" buildMeta (some c!"obj")) 17 buildFS
  rw [he] at hvis ⊢
  have hw : builtFS.WF := ⟨by decide +kernel, by decide +kernel, by decide +kernel, by decide +kernel⟩
  obtain ⟨es, hv⟩ := accepted_object (E := demoEnv) (cfg := { checkDigests := false }) (s := builtFS) (path := c!"obj") (by decide +kernel)
  obtain ⟨s1, md, h1, h2, _⟩ := C88_build demoLibraries pyJson_noPrefix demoEnv_cwd demoObj_good buildFS_wf
    (by
      intro w m h
      have := build_sources h
      simp only [List.mem_cons, List.not_mem_nil, or_false, Prod.mk.injEq] at this
      rcases this with ⟨rfl, rfl⟩ | ⟨rfl, rfl⟩ | ⟨rfl, rfl⟩ <;> decide)
    (fun _ m _ => buildMeta_good m) (vacant_of buildFS_wf (by decide +kernel)) (by decide +kernel)
    ⟨[c!"a"], [1, 2, 3], by decide, by decide +kernel⟩ (fun _ _ _ h => by cases h)
    (by
      have hc : ∀ alg ∈ [c!"sha512", c!"sha256"], ∀ b ∈ [[1, 2, 3], ([4] : Bytes)], ∀ b' ∈ [[1, 2, 3], ([4] : Bytes)],
          demoEnv.raw alg b = demoEnv.raw alg b' → b = b' := by decide +kernel
      rintro alg ha b b' ⟨w, m, r, h1, h2⟩ ⟨w', m', r', h1', h2'⟩
      exact hc alg (by rcases ha with rfl | rfl <;> simp) b (hbytes w m h1 r b h2) b' (hbytes w' m' h1' r' b' h2'))
    hr hvis (cfg := { checkDigests := false }) rfl hv (dstdir := c!"out") (w := c!"v2") (m := 2) ⟨by decide +kernel, versionNo_iff.mpr rfl⟩
    (by decide +kernel) (by decide +kernel) (vacant_of hw (by decide +kernel))
  exact ⟨s1, md, h1, h2⟩

end Ocfl
