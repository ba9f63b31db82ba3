import Verif.Proofs.CreateSucceeds
import Verif.Proofs.BuildSound

/-!
# When `build` succeeds
-/

namespace Ocfl

open Spec FS Prog Inv

theorem nextVersion_succeeds {inv : Inv} {n : Nat} (hn : Numbered inv none n) {sv sv0 : Str} (htype : inv.type = some (typeUri sv0))
    (hsv0 : sv0 ∈ supported) (hle : NV.strLt sv sv0 = false) {metadata : Option VBlock} {norm : Option Str} {fd dd : Bool} {old : Option Str} :
    ∃ nv, NV.nextVersion inv sv metadata norm fd dd false old = .ok nv := by
  have main : ∀ (inv' : Inv), inv'.versions = inv.versions →
      ∃ nv, (match inv'.addVersion none metadata (some (if false then
        match inv'.head with
        | none => []
        | some h => inv'.stateOf h
      else [])) none with
    | .error e => (.error e : Py NV)
    | .ok inv => .ok { inv := inv, norm := norm, forwardDelta := some fd, dedupe := dd,
                       oldDigestAlgorithm := old }) = .ok nv := by
    intro inv' e1
    have hvd : inv'.versionsD = inv.versionsD := by unfold Inv.versionsD; rw [e1]
    unfold Inv.addVersion
    simp only
    rw [nextVersionDir_names hn.styleOK hn.pos hn.limit (by rw [hvd]; exact hn.keys) (by rw [hvd]; exact hn.names), if_pos (Or.inr rfl)]
    exact ⟨_, rfl⟩
  have hcur := specVersion_uri htype hsv0
  unfold NV.nextVersion
  simp only
  split
  · rw [hcur]
    simp only [hle]
    exact main _ rfl
  · exact main _ rfl

theorem contentDirectory_added {EN : NVEnv} {nv0 nv : NV} {head : Str} {done : List Str} (h : NV.Added EN nv0 head done nv) :
    nv.inv.contentDirectoryToUse = nv0.inv.contentDirectoryToUse := by
  by_cases hd : done = []
  · rw [h.none_done hd]
  · rw [h.inv hd]
    have h1 : (nv0.inv.setState head (nv.inv.stateOf head)).contentDirectory = nv0.inv.contentDirectory := by
      unfold Inv.setState
      split <;> rfl
    exact congrArg (fun c : Option Str => c.getD c!"content") h1

/-- What a round of the loop prepares. -/
structure PreparedVersion (E : Env) (o : Obj) (s : FS) (src : Path) (k : Nat) (nv : NV) : Prop where
  from_ : ∃ nv0 m vs b srcs, Ground nv0 o.digestAlgorithm m vs none k b ∧ nv0.inv.contentDirectoryToUse = o.contentDirectory ∧
    SourceOf s src srcs ∧ NV.Added (srcEnv E s src) nv0 (styleName none (k + 1)) srcs nv

theorem buildPrepare_succeeds {E : Env} {o : Obj} (ho : GoodSettings o) (hid : o.id ≠ none)
    (hnorm : o.norm = none ∨ o.norm = some c!"md5" ∨ o.norm = some c!"uri")
    {metadata : Nat → VBlock} {base : Path} {srcdir : Str} {s0 s : FS} {k : Nat}
    {inv : Option Inv} {recs : List Rec} (h : BuildState E o metadata base (absComps E.cwd srcdir) s0 s k inv recs)
    (hcd : ∀ i, inv = some i → i.contentDirectoryToUse = o.contentDirectory)
    (hmeta : GoodMeta (some (metadata (k + 1)))) (hlim : k + 1 ≤ 99999)
    (hdir : look s (absComps E.cwd srcdir ++ [unpaddedName (k + 1)]) = some .dir) :
    ∃ nv, buildPrepare E o srcdir (unpaddedName (k + 1)) (metadata (k + 1)) inv s = .ok (absComps E.cwd srcdir ++ [unpaddedName (k + 1)], nv) ∧
      PreparedVersion E o s (absComps E.cwd srcdir ++ [unpaddedName (k + 1)]) k nv := by
  have hw := h.built.wf
  have hb := h.built
  have hlenT := versionTrees_length s0 (absComps E.cwd srcdir) k
  have hname : SafeName (unpaddedName (k + 1)) := styleName_safe none (k + 1)
  have hjoin : absComps E.cwd (osPathJoin srcdir (unpaddedName (k + 1))) = absComps E.cwd srcdir ++ [unpaddedName (k + 1)] :=
    absComps_osPathJoin _ _ hname
  unfold buildPrepare
  cases k with
  | zero =>
    rw [if_pos (show unpaddedName (0 + 1) = c!"v1" by decide)]
    obtain ⟨nv, hp⟩ := prepareFirst_succeeds (E := E) ho hid hnorm (srcdir := osPathJoin srcdir (unpaddedName (0 + 1))) hmeta hw (by rw [hjoin]; exact hdir)
    obtain ⟨nv0, srcs, hff⟩ := prepareFirst_ok hw ho hmeta hp
    rw [hjoin] at hp hff
    exact ⟨nv, hp, ⟨nv0, _, _, _, srcs, hff.ground, hff.contentDirectory, hff.source, hff.added⟩⟩
  | succ j =>
    rw [if_neg (by
      intro he
      have := unpaddedName_inj (m := j + 1 + 1) (n := 1) he
      omega)]
    obtain ⟨front, rl, hrecs, hvl⟩ := hb.last (by
      intro he
      have := congrArg List.length he
      rw [hlenT] at this
      cases this)
    have hlast : recs.getLast? = some rl := by rw [hrecs]; simp
    have hinv : inv = some rl.inv := by rw [h.inv_eq, hlast]; rfl
    have hdl := hvl.describes
    have halgl : rl.alg = o.digestAlgorithm := hb.alg rl (by rw [hrecs]; simp)
    rw [halgl] at hdl
    have hp := hdl.parsed
    rw [hlenT] at hp
    obtain ⟨sv0, hsv0, htype⟩ : ∃ sv ∈ supported, rl.inv.type = some (typeUri sv) := by
      refine ⟨_, ?_, hvl.type⟩
      split
      · exact ho.specVersion
      · decide
    have hle : NV.strLt c!"1.1" sv0 = false := by
      have : ∀ sv ∈ supported, NV.strLt c!"1.1" sv = false := by decide
      exact this sv0 hsv0
    obtain ⟨nv0, hnext⟩ := nextVersion_succeeds hp.numbered htype hsv0 hle (metadata := some (metadata (j + 1 + 1))) (norm := o.norm)
      (fd := o.forwardDelta) (dd := o.dedupe) (old := none)
    have g := ground_next hp (sv := c!"1.1") (by decide) hmeta hlim hnext
    obtain ⟨_, type, _, hnv0⟩ := nextVersion_ok hp.numbered hnext
    have hcd0 : nv0.inv.contentDirectoryToUse = o.contentDirectory := by
      rw [← hcd _ hinv]
      unfold Inv.contentDirectoryToUse
      rw [hnv0]
      rfl
    have hn0 : nv0.norm = o.norm := by rw [hnv0]
    obtain ⟨nv, ha⟩ := addFromSrcdir_succeeds (E := E) hw hdir g.building ⟨_, g.manifest⟩ g.queue g.stateOf (by rw [hn0]; exact hnorm)
      (fun b => ⟨_, by rw [g.algorithm]; exact fileDigest_known E.raw ho.algorithm b⟩)
    obtain ⟨srcs, hsource, hadded⟩ := addFromSrcdir_ok hw hdir g.building ⟨_, g.manifest⟩ g.queue ha
    refine ⟨nv, ?_, ⟨nv0, _, _, _, srcs, g, hcd0, hsource, hadded⟩⟩
    unfold fswOpen
    have hd : isdir s (absComps E.cwd srcdir ++ [unpaddedName (j + 1 + 1)]) = true := by unfold isdir; rw [hdir]; rfl
    simp only [hjoin, hd, if_true, hinv, hnext, ha]

/-- A round of the loop succeeds. -/
theorem buildRound_succeeds {E : Env} (hhash : HashLib E.raw) {o : Obj} (ho : GoodSettings o)
    (hci : o.contentDirectory ≠ inventoryFilename) (hcs : o.contentDirectory ≠ sidecarName o.digestAlgorithm)
    {metadata : Nat → VBlock} {base srcp : Path} (hapart : ApartDirs srcp base) {s0 s : FS} {k : Nat}
    {inv : Option Inv} {recs : List Rec} (h : BuildState E o metadata base srcp s0 s k inv recs) {nv : NV}
    (hp : PreparedVersion E o s (srcp ++ [unpaddedName (k + 1)]) k nv) :
    ∃ s', run (Prog.bind (writeInventoryAndSidecar E o base (some nv.inv) (unpaddedName (k + 1)))
      (fun _ => copyAll base (srcp ++ [unpaddedName (k + 1)]) nv.filesToCopy)) s = (s', .ok ()) := by
  have hw := h.built.wf
  have hb := h.built
  have hlenT := versionTrees_length s0 srcp k
  obtain ⟨nv0, m, vs, b, srcs, g, hcd, hsource, hadded⟩ := hp.from_
  have hne : nv0.inv.contentDirectoryToUse ≠ [] := by rw [hcd]; exact ho.contentDirectory.1
  have hx := hexNames_srcEnv hhash s (srcp ++ [unpaddedName (k + 1)])
  have hq := g.queueReady hadded hsource.names hx hne
  obtain ⟨f, hf, hap⟩ := g.queueSegs hadded hsource.names hx hne
  rw [hcd] at hf
  have hh : SafeName (styleName none (k + 1)) := styleName_safe _ _
  have habs : ∀ q, look s (base ++ styleName none (k + 1) :: q) = none := by
    intro q
    by_contra hne
    obtain ⟨i, hi, he⟩ := hb.only _ q hne
    have := styleName_inj he
    omega
  have hdig := fileDigest_known E.raw ho.algorithm (utf8 (inventoryText E nv.inv))
  obtain ⟨s1, h1⟩ := run_writeInv_ok (o := o) (inv := nv.inv) (VDir.version hh) hw hb.isDir (Or.inl (habs []))
    (by rw [List.append_assoc]; rw [show base ++ ([styleName none (k + 1)] ++ [inventoryFilename]) = base ++ styleName none (k + 1) :: [inventoryFilename] from rfl, habs]; simp)
    (by rw [List.append_assoc]; rw [show base ++ ([styleName none (k + 1)] ++ [sidecarName o.digestAlgorithm]) = base ++ styleName none (k + 1) :: [sidecarName o.digestAlgorithm] from rfl, habs]; simp) ⟨_, hdig⟩
  obtain ⟨i1, -⟩ := run_writeInv_inv (VDir.version hh) hw hb.isDir h1
  have h1' : run (writeInventoryAndSidecar E o base (some nv.inv) (unpaddedName (k + 1))) s = (s1, .ok ()) := h1
  rw [run_bind_ok h1']
  have hsrc : ∀ e ∈ nv.filesToCopy, ∃ r b, FS.resolve (srcp ++ [unpaddedName (k + 1)]) e.1 = srcp ++ r ∧ look s (srcp ++ r) = some (.file b) := by
    intro e he
    obtain ⟨r, b, h1, h2⟩ := (hsource.files e.1).mp (hadded.queueDone e he)
    rw [h2, resolve_join _ ((treeOK_below hw _).names r b h1).2]
    exact ⟨unpaddedName (k + 1) :: r, b, by simp, by have := h1.2; simpa using this⟩
  refine copyQueue_succeeds hh hq (fun x hx => ⟨(hf x hx).1, (hf x hx).2.1, (hf x hx).2.2.1⟩) ho.contentDirectory hap i1.wf
    (look_names hw hb.isDir) ?_ i1.isDir ?_ ?_
  · intro e he e' he' heq
    obtain ⟨r, b, e1, _⟩ := hsrc e he
    rw [e1] at heq
    refine hapart.below r ?_
    rw [heq]
    exact (List.prefix_append _ _).trans (hq.apart hh base he').2.2.2.1
  · intro r
    rw [i1.rest]
    · exact habs _
    · intro he
      rw [List.append_assoc, List.append_cancel_left_eq] at he
      exact hci (List.cons.inj (List.cons.inj he).2).1
    · intro he
      rw [List.append_assoc, List.append_cancel_left_eq] at he
      exact hcs (List.cons.inj (List.cons.inj he).2).1
    · intro he
      rw [List.append_cancel_left_eq] at he
      cases he
  · intro e he
    obtain ⟨r, b, e1, e2⟩ := hsrc e he
    have hn : ∀ q, srcp ++ r ≠ base ++ q := fun q he => hapart.below r (by rw [he]; exact List.prefix_append _ _)
    refine ⟨b, ?_⟩
    rw [e1, i1.rest _ (by rw [List.append_assoc]; exact hn _) (by rw [List.append_assoc]; exact hn _) (hn _)]
    exact e2

/-- The loop succeeds. -/
theorem buildLoop_succeeds {E : Env} (hhash : HashLib E.raw) (hcwd : ∀ w ∈ E.cwd, SafeName w) {o : Obj} (ho : GoodSettings o) (hid : o.id ≠ none)
    (hnorm : o.norm = none ∨ o.norm = some c!"md5" ∨ o.norm = some c!"uri")
    (hci : o.contentDirectory ≠ inventoryFilename) (hcs : o.contentDirectory ≠ sidecarName o.digestAlgorithm)
    {metadata : Nat → VBlock} {base : Path} {srcdir : Str} (hapart : ApartDirs (absComps E.cwd srcdir) base) {s0 : FS} {n : Nat}
    (hmeta : ∀ k < n, GoodMeta (some (metadata (k + 1)))) (hlim : n ≤ 99999)
    (hdirs : ∀ k < n, look s0 (absComps E.cwd srcdir ++ [unpaddedName (k + 1)]) = some .dir)
    (hfile : ∃ r b, FileBelow s0 (absComps E.cwd srcdir ++ [c!"v1"]) r b)
    (hnames : ∀ t ∈ versionTrees s0 (absComps E.cwd srcdir) n, NamesAllowed o t) : ∀ (l : List (Nat × Str)) {s : FS} {k : Nat}
    {inv : Option Inv} {recs : List Rec}, BuildState E o metadata base (absComps E.cwd srcdir) s0 s k inv recs →
    (∀ i, inv = some i → i.contentDirectoryToUse = o.contentDirectory) → k + l.length = n →
    (∀ i x, l[i]? = some x → x = (k + i + 1, unpaddedName (k + i + 1))) →
    ∃ s' inv', run (buildLoop E o srcdir metadata (some base) l inv) s = (s', .ok inv')
  | [], s, k, inv, recs, _, _, _, _ => ⟨s, inv, rfl⟩
  | x :: l, s, k, inv, recs, h, hcd, hk, hl => by
    have hx := hl 0 x rfl
    subst hx
    rw [List.length_cons] at hk
    have hdir : look s (absComps E.cwd srcdir ++ [unpaddedName (k + 1)]) = some .dir := by
      rw [h.elsewhere _ (hapart.below _)]; exact hdirs k (by omega)
    obtain ⟨nv, hprep, hpv⟩ := buildPrepare_succeeds ho hid hnorm h hcd (hmeta k (by omega)) (by omega) hdir
    obtain ⟨s2, h2⟩ := buildRound_succeeds hhash ho hci hcs hapart h hpv
    obtain ⟨r, hstep⟩ := h.step hhash hcwd ho hapart (hmeta k (by omega)) (by omega) (by rintro rfl; exact hfile)
      (hnames _ (List.mem_map.mpr ⟨k, List.mem_range.mpr (by omega), rfl⟩)) hprep h2
    have hcd' : ∀ i, some nv.inv = some i → i.contentDirectoryToUse = o.contentDirectory := by
      rintro i he
      cases he
      obtain ⟨nv0, m, vs, b, srcs, _, hc, _, ha⟩ := hpv.from_
      rw [contentDirectory_added ha, hc]
    obtain ⟨s', inv', hr⟩ := buildLoop_succeeds hhash hcwd ho hid hnorm hci hcs hapart hmeta hlim hdirs hfile hnames l hstep hcd' (by omega) (by
      intro i x hi
      have := hl (i + 1) x (by simpa using hi)
      rw [this, show k + (i + 1) = k + 1 + i by omega])
    refine ⟨s', inv', ?_⟩
    unfold buildLoop
    have hl1 : run (Prog.look (buildPrepare E o srcdir (unpaddedName (k + 1)) (metadata (k + 1)) inv)) s =
        (s, .ok (absComps E.cwd srcdir ++ [unpaddedName (k + 1)], nv)) := by rw [run_look, hprep]
    rw [show k + 0 + 1 = k + 1 from rfl, run_bind_ok hl1, run_bind_ok h2]
    exact hr

/-- `build` succeeds. -/
theorem build_succeeds {E : Env} (hhash : HashLib E.raw) (hword : WordClass E.isWord) (hcwd : ∀ w ∈ E.cwd, SafeName w) {o : Obj}
    (ho : GoodSettings o) (hid : o.id ≠ none) (hnorm : o.norm = none ∨ o.norm = some c!"md5" ∨ o.norm = some c!"uri")
    (hci : o.contentDirectory ≠ inventoryFilename) (hcs : o.contentDirectory ≠ sidecarName o.digestAlgorithm)
    {srcdir objdir : Str} {metadata : Nat → VBlock} {s : FS} (hw : s.WF) {n : Nat}
    (hsources : VersionSources s (absComps E.cwd srcdir) n) (hmeta : ∀ k < n, GoodMeta (some (metadata (k + 1))))
    (hvac : Vacant s (absComps E.cwd objdir)) (hout : ¬ absComps E.cwd srcdir <+: absComps E.cwd objdir)
    (hpar : look s (absComps E.cwd (osPathSplit objdir).1) = some .dir)
    (hfile : ∃ r b, FileBelow s (absComps E.cwd srcdir ++ [c!"v1"]) r b)
    (hnames : ∀ t ∈ versionTrees s (absComps E.cwd srcdir) n, NamesAllowed o t) :
    ∃ s' inv, run (build E o srcdir metadata (some objdir)) s = (s', .ok inv) := by
  have hdir1 : look s (absComps E.cwd srcdir ++ [c!"v1"]) = some .dir := by
    obtain ⟨r, b, h1, h2⟩ := hfile
    exact look_above hw r h1 h2
  have hsd : look s (absComps E.cwd srcdir) = some .dir := look_above hw _ (by simp) hdir1
  obtain ⟨s1, h1⟩ := run_openObjCreate_ok hcwd hw hpar
  obtain ⟨_, w1, _, _, l1⟩ := run_openObjCreate hcwd hw h1
  unfold build
  rw [if_neg hid]
  generalize absComps E.cwd objdir = base at *
  have hapart : ApartDirs (absComps E.cwd srcdir) base := by
    refine ⟨hout, ?_⟩
    rintro ⟨t, ht⟩
    rw [← ht, List.append_assoc, hvac.2 _ (by simp)] at hdir1
    cases hdir1
  have hb1 : run (Prog.bind (openObjCreate E objdir) (fun b => Prog.ret (.ok (some b)))) s = (s1, .ok (some base)) := by
    rw [run_bind_ok h1]; rfl
  show ∃ s' inv, run (Prog.bind (Prog.bind (openObjCreate E objdir) (fun b => Prog.ret (.ok (some b)))) _) s = (s', .ok inv)
  rw [run_bind_ok hb1]
  have hd1 : look s1 base = some .dir := by
    rw [l1]
    split
    · rfl
    · rename_i h
      rcases hvac.1 with h' | h'
      · exact absurd ⟨rfl, h'⟩ h
      · exact h'
  have k1 : ∀ q, q ≠ base → look s1 q = look s q := by
    intro q hq
    rw [l1, if_neg]
    rintro ⟨h, _⟩; exact hq h
  have k1' : ∀ q, look s1 (absComps E.cwd srcdir ++ q) = look s (absComps E.cwd srcdir ++ q) := by
    intro q
    refine k1 _ ?_
    rintro he
    exact hapart.below q (by rw [he]; exact List.prefix_rfl)
  have hsd1 : look s1 (absComps E.cwd srcdir) = some .dir := by
    have := k1' []
    rw [List.append_nil] at this
    rw [this]; exact hsd
  have hsources1 : VersionSources s1 (absComps E.cwd srcdir) n := by
    intro w
    rw [← hsources w]
    unfold VersionSource
    rw [k1']
  have hinit : BuildState E o metadata base (absComps E.cwd srcdir) s s1 0 none [] := by
    refine ⟨⟨w1, hd1, rfl, by simp, List.Pairwise.nil, by simp, by simp, ?_⟩, rfl, ?_, by simp, hw, .nil⟩
    · intro w q hl
      exfalso
      refine hl ?_
      rw [k1 _ (by simp), hvac.2 _ (by simp)]
    · intro q hq
      exact k1 q (by rintro rfl; exact hq List.prefix_rfl)
  have hdirs : ∀ k < n, look s (absComps E.cwd srcdir ++ [unpaddedName (k + 1)]) = some .dir := by
    intro k hk
    obtain ⟨m, hm⟩ := (hsources (unpaddedName (k + 1))).mpr ⟨k, hk, rfl⟩
    exact hm.1
  have hlist : ∀ i x, ((List.range n).map (fun k => (k + 1, unpaddedName (k + 1))))[i]? = some x → x = (0 + i + 1, unpaddedName (0 + i + 1)) := by
    intro i x hi
    rw [List.getElem?_map] at hi
    cases hx : (List.range n)[i]? with
    | none => rw [hx] at hi; cases hi
    | some j =>
      rw [hx] at hi
      obtain ⟨_, hj⟩ := List.getElem?_eq_some_iff.mp hx
      rw [List.getElem_range] at hj
      subst hj
      cases hi
      simp
  obtain ⟨s3, inv3, h3⟩ := buildLoop_succeeds hhash hcwd ho hid hnorm hci hcs hapart hmeta hsources.limit hdirs hfile hnames _ hinit
    (by rintro i he; cases he) (by simp) hlist
  obtain ⟨recs, B⟩ := BuildState.loop hhash hcwd ho hapart hmeta hsources.limit hfile hnames _ hinit (by simp) hlist h3
  have hvs : run (Prog.look (fun s => match fswOpen E.cwd srcdir s with
      | .error e => .error e
      | .ok src => versionDirs s src)) s1 = (s1, .ok ((List.range n).map (fun k => (k + 1, unpaddedName (k + 1))))) := by
    rw [run_look]
    unfold fswOpen
    dsimp only
    rw [if_pos (by rw [isdir_iff]; exact hsd1)]
    dsimp only
    rw [versionDirs_sources w1 hsd1 hsources1]
  erw [run_bind_ok hvs]
  rw [run_bind_ok h3]
  have hb := B.built
  have hlenT := versionTrees_length s (absComps E.cwd srcdir) n
  have hn0 : 1 ≤ n := by
    have : VersionSource s (absComps E.cwd srcdir) c!"v1" 1 := ⟨hdir1, versionNo_iff.mpr (by decide)⟩
    exact (hsources.number this).2.1.trans (hsources.number this).2.2
  obtain ⟨front, rl, hrecs, hvl⟩ := hb.last (by
    intro he
    have := congrArg List.length he
    rw [hlenT] at this
    have : n = 0 := this
    omega)
  have hlast : recs.getLast? = some rl := by rw [hrecs]; simp
  have hinv : inv3 = some rl.inv := by rw [B.inv_eq, hlast]; rfl
  subst hinv
  have hi : (inventoryFilename : Str).head? = some 'i' := rfl
  have hsi : (sidecarName o.digestAlgorithm : Str).head? = some 'i' := rfl
  have hdv : (declarationName o.specVersion : Str).head? = some '0' := rfl
  have habs : ∀ w : Str, w.head? ≠ some 'v' → look s3 (base ++ [w]) = none := by
    intro w hw'
    by_contra hne
    obtain ⟨i, _, he⟩ := hb.only w [] hne
    rw [he, styleName_head] at hw'
    exact hw' rfl
  have h4 := run_writeDeclaration_ok hword ho.specVersion hb.isDir (by rw [habs _ (by rw [hdv]; decide)]; simp)
  have hD : base ++ [declarationName o.specVersion] ≠ [] := by simp
  generalize hs4 : Dict.set s3 (base ++ [declarationName o.specVersion]) (.file (utf8 (c!"ocfl_object_" ++ o.specVersion ++ c!"\n"))) = s4 at h4
  have l4 : ∀ q, q ≠ base ++ [declarationName o.specVersion] → look s4 q = look s3 q := by
    intro q hq
    rw [← hs4, look_set hD, if_neg hq]
  have w4 : FS.WF s4 := by
    rw [← hs4]
    refine WF_set hb.wf hD (by rw [List.dropLast_concat]; exact hb.isDir) ?_ (fun h => absurd h (by rw [habs _ (by rw [hdv]; decide)]; simp))
    intro w hm
    rcases List.mem_append.mp hm with hm | hm
    · exact look_names hb.wf hb.isDir w hm
    · rw [List.mem_singleton.mp hm]; exact declaration_safe ho.specVersion
  have hd4 : look s4 base = some .dir := by rw [l4 _ (Ne.symm concat_ne_self)]; exact hb.isDir
  have n4 : ∀ w : Str, w.head? = some 'i' → look s4 (base ++ [w]) ≠ some .dir := by
    intro w hw'
    rw [l4, habs _ (by rw [hw']; decide)]
    · simp
    · intro he
      have he : w = declarationName o.specVersion := by simpa using he
      rw [he, hdv] at hw'
      cases hw'
  have hdig := fileDigest_known E.raw ho.algorithm (utf8 (inventoryText E rl.inv))
  obtain ⟨s5, h5⟩ := run_writeInv_ok (o := o) (inv := rl.inv) VDir.root w4 hd4 (Or.inr (by rw [List.append_nil]; exact hd4))
    (by rw [List.append_nil]; exact n4 _ hi) (by rw [List.append_nil]; exact n4 _ hsi) ⟨_, hdig⟩
  refine ⟨s5, some rl.inv, ?_⟩
  show run (Prog.bind (writeDeclaration E o base) _) s3 = _
  rw [run_bind_ok h4, run_bind_ok h5]
  rfl

end Ocfl
