import Verif.Proofs.BuildSucceeds
import Verif.Proofs.WriteDone
import Verif.Proofs.NoDifference

/-!
# When an update succeeds
-/

namespace Ocfl

open Spec FS Prog Inv

theorem rehash_succeeds {E : Env} {s : FS} {base : Path} {alg : Str} : ∀ {m : DigestMap} {o2n : Dict Str Str} {acc : DigestMap},
    (∀ e ∈ m, ∃ d, newDigest E s base alg e.2 = .ok d) → ∃ r, rehash E s base alg m o2n acc = .ok r
  | [], o2n, acc, _ => ⟨_, rfl⟩
  | (old, files) :: rest, o2n, acc, h => by
    obtain ⟨d, hd⟩ := h (old, files) (by simp)
    unfold rehash
    simp only [hd]
    exact rehash_succeeds (fun e he => h e (by simp [he]))

theorem rehashState_succeeds {o2n : Dict Str Str} : ∀ {st acc : DigestMap},
    (∀ e ∈ st, ∃ d, Dict.get? o2n e.1 = some d) → ∃ st', rehashState o2n st acc = .ok st'
  | [], acc, _ => ⟨_, rfl⟩
  | (old, files) :: rest, acc, h => by
    obtain ⟨d, hd⟩ := h (old, files) (by simp)
    unfold rehashState
    simp only at hd
    simp only [hd]
    exact rehashState_succeeds (fun e he => h e (by simp [he]))

theorem rehashVersions_succeeds {o2n : Dict Str Str} : ∀ {vs : Dict Str VBlock},
    (∀ v b, (v, b) ∈ vs → ∀ e ∈ b.state.getD [], ∃ d, Dict.get? o2n e.1 = some d) → ∃ vs', rehashVersions o2n vs = .ok vs'
  | [], _ => ⟨_, rfl⟩
  | (v, b) :: rest, h => by
    obtain ⟨st, hst⟩ := rehashState_succeeds (acc := []) (h v b (by simp))
    obtain ⟨vs', hvs⟩ := rehashVersions_succeeds (o2n := o2n) (vs := rest) (fun v b hm => h v b (by simp [hm]))
    unfold rehashVersions
    simp only [hst, hvs]
    exact ⟨_, rfl⟩

/-- The digest algorithm of a sound inventory can be changed, if no digest of the manifest is without files. -/
theorem Describes.change_succeeds {E : Env} {s : FS} {base : Path} {trees : List Tree} {inv : Inv} {alg newAlg : Str}
    {m : DigestMap} {vs : Dict Str VBlock} {fixity : Option (List Str)} (h : Describes E s base trees inv alg m vs)
    (hno : NoCollision E.raw (InTrees trees)) (hnew : newAlg = c!"sha512" ∨ newAlg = c!"sha256")
    (hfiles : newAlg = alg ∨ ∀ e ∈ m, e.2 ≠ []) :
    ∃ inv1, changeDigest E s base alg newAlg (changeFixity { inv with digestAlgorithm := some newAlg } alg newAlg fixity) = .ok inv1 := by
  unfold changeDigest
  by_cases he : newAlg = alg
  · rw [if_pos he]
    exact ⟨_, rfl⟩
  · rw [if_neg he, changeFixity_eq]
    have hne := hfiles.resolve_left he
    have hmd : inv.manifestD = m := h.parsed.good.manifestD
    have hvd : inv.versionsD = vs := h.parsed.good.versionsD
    have hdig : ∀ e ∈ m, ∃ d, newDigest E s base newAlg e.2 = .ok d := by
      intro e hem
      obtain ⟨c0, hc0⟩ := List.exists_mem_of_ne_nil _ (hne e hem)
      obtain ⟨_, _, b0, _, _, _, _, _, k1, k2, k3⟩ := h.segs ⟨e.2, hem, hc0⟩
      refine ⟨E.raw newAlg b0, newDigest_ok.mpr ⟨hne e hem, fun c hc => ?_⟩⟩
      obtain ⟨_, _, b, _, _, _, _, _, l1, l2, l3⟩ := h.segs ⟨e.2, hem, hc⟩
      have hb : b = b0 := noCollision_digest hno h.parsed.good.algName l3 k3 (by rw [l2, k2])
      exact digestAt_ok.mpr ⟨b, l1, by rw [hb]; exact fileDigest_known E.raw hnew b0⟩
    obtain ⟨⟨o2n, m1⟩, hre⟩ := rehash_succeeds (E := E) (o2n := []) (acc := []) hdig
    obtain ⟨f, _, hget, _⟩ := rehash_ok h.parsed.good.manifestKeys hre
    obtain ⟨vs1, hvs⟩ := rehashVersions_succeeds (o2n := o2n) (vs := vs) (by
      intro v b hm e he'
      obtain ⟨st, hst⟩ := h.parsed.good.blocks v b hm
      rw [hst.state] at he'
      obtain ⟨ps, _, hps⟩ := hst.digests e he'
      exact ⟨_, hget _ (Dict.mem_keys_of_mem hps)⟩)
    have hn := h.parsed.numbered
    have hdirs := versionDirectories_names hn.styleOK hn.limit hn.keys hn.names
    have e1 : ({ inv with digestAlgorithm := some newAlg, fixity := (changeFixity { inv with digestAlgorithm := some newAlg } alg newAlg fixity).fixity } : Inv).manifestD = m := hmd
    have e2 : ({ inv with digestAlgorithm := some newAlg, fixity := (changeFixity { inv with digestAlgorithm := some newAlg } alg newAlg fixity).fixity } : Inv).versionsD = vs := hvd
    have e3 : ({ inv with digestAlgorithm := some newAlg, fixity := (changeFixity { inv with digestAlgorithm := some newAlg } alg newAlg fixity).fixity } : Inv).versionDirectories = inv.versionDirectories := rfl
    simp only [e1, e2, e3, hre, hdirs, hvs]
    exact ⟨_, rfl⟩

/-- Writing a new version succeeds; if the digest algorithm changes, the old sidecar must be there and not be a source. -/
theorem writeNewVersion_succeeds {E : Env} {o : Obj} (halg : o.digestAlgorithm = c!"sha512" ∨ o.digestAlgorithm = c!"sha256") {base src : Path}
    {nv : NV} {head cd : Str} {s : FS} (hw : s.WF) (hb : look s base = some .dir) (hhead : nv.inv.head = some head) (hh : SafeName head)
    (hv : head.head? = some 'v') (hq : QueueReady head nv.filesToCopy)
    {f : Str → List Str} (hf : ∀ x ∈ nv.filesToCopy, f x.2 ≠ [] ∧ (∀ w ∈ f x.2, SafeName w) ∧ x.2 = pathOf (head :: cd :: f x.2))
    (hcd : SafeName cd) (hap : ∀ x ∈ nv.filesToCopy, ∀ y ∈ nv.filesToCopy, f x.2 <+: f y.2 → x = y)
    (hci : cd ≠ inventoryFilename) (hcs : cd ≠ sidecarName o.digestAlgorithm)
    (hold : ∀ old, nv.oldDigestAlgorithm = some old → '/' ∉ old)
    (hrm : ∀ q, removedSidecar base nv q → ∃ b, look s q = some (.file b)) (hrmsrc : ∀ e ∈ nv.filesToCopy, ¬ removedSidecar base nv (FS.resolve src e.1))
    (habs : look s (base ++ [head]) = none) (hri : look s (base ++ [inventoryFilename]) ≠ some .dir)
    (hrs : look s (base ++ [sidecarName o.digestAlgorithm]) ≠ some .dir)
    (hsrc : ∀ e ∈ nv.filesToCopy, ∃ b, look s (FS.resolve src e.1) = some (.file b)) :
    ∃ s', run (writeNewVersion E o base src nv) s = (s', .ok nv.inv) := by
  have hsb := look_names hw hb
  have hbaseKept : ¬ removedSidecar base nv base := by
    rintro ⟨old, _, _, h⟩
    have := congrArg List.length h
    simp only [List.length_append, List.length_singleton] at this
    omega
  obtain ⟨s1, hrem⟩ := run_removeOldSidecar_ok hold hrm
  obtain ⟨w1, r1, k1⟩ := run_removeOldSidecar_inv hold hw hrem
  have hb1 : look s1 base = some .dir := by rw [k1 _ hbaseKept]; exact hb
  have habs1 : look s1 (base ++ [head]) = none := by
    by_cases hr : removedSidecar base nv (base ++ [head])
    · exact r1 _ hr
    · rw [k1 _ hr]; exact habs
  have hsrc1 : ∀ e ∈ nv.filesToCopy, ∃ b, look s1 (FS.resolve src e.1) = some (.file b) := by
    intro e he
    rw [k1 _ (hrmsrc e he)]
    exact hsrc e he
  have hnone : ∀ q, base ++ [head] <+: q → look s1 q = none := by
    intro q hp
    by_cases he : base ++ [head] = q
    · rw [← he]; exact habs1
    · exact look_below_none w1 hp he (by rw [habs1]; simp)
  obtain ⟨s2, h2, w2, l2⟩ := run_makedirs_ok w1 true (p := base ++ [head]) (by
      intro w hm
      rcases List.mem_append.mp hm with hm | hm
      · exact hsb w hm
      · rw [List.mem_singleton.mp hm]; exact hh) (clear_concat.mpr ⟨clear_of_dir w1 hb1, Or.inl habs1⟩) (Or.inl rfl)
  have h2' : run (FS.makedir (FS.resolve base head)) s1 = (s2, .ok ()) := by
    rw [resolve_name base hh, run_makedir_absent habs1]; exact h2
  have hd2 : look s2 (base ++ [head]) = some .dir := by rw [l2, if_pos List.prefix_rfl]
  have hdisj : ∀ e ∈ nv.filesToCopy, ∀ e' ∈ nv.filesToCopy, FS.resolve src e.1 ≠ FS.resolve base e'.2 := by
    intro e he e' he' heq
    obtain ⟨b, hb'⟩ := hsrc1 e he
    rw [heq, hnone _ (hq.apart hh base he').2.2.2.1] at hb'
    cases hb'
  have hfile2 : ∀ e ∈ nv.filesToCopy, ∃ b, look s2 (FS.resolve src e.1) = some (.file b) := by
    intro e he
    obtain ⟨b, hb'⟩ := hsrc1 e he
    refine ⟨b, ?_⟩
    rw [l2, if_neg]
    · exact hb'
    · intro hp
      rcases prefix_concat.mp hp with h | h
      · rw [h, habs1] at hb'; cases hb'
      · by_cases he' : FS.resolve src e.1 = base
        · rw [he', hb1] at hb'; cases hb'
        · rw [look_prefix w1 h he' hb1] at hb'; cases hb'
  have hdeep : ∀ q, base ++ [head] <+: q → q ≠ base ++ [head] → look s2 q = none := by
    intro q hp hne
    rw [l2, if_neg]
    · exact hnone q hp
    · intro h
      exact hne (h.eq_of_length (Nat.le_antisymm h.length_le hp.length_le))
  obtain ⟨s3, h3⟩ := copyQueue_succeeds hh hq hf hcd hap w2 hsb hdisj hd2 (by
    intro r
    exact hdeep _ ⟨cd :: r, by simp⟩ (by simp)) hfile2
  have c3 := run_copyAll_inv hh hq w2 hsb hdisj h3
  have hres : ∀ x ∈ nv.filesToCopy, FS.resolve base x.2 = base ++ head :: cd :: f x.2 := by
    intro x hx
    obtain ⟨h1, h2, h3⟩ := hf x hx
    conv_lhs => rw [h3]
    refine resolve_pathOf base ?_
    intro w hw
    rcases List.mem_cons.mp hw with rfl | hw
    · exact hh
    · rcases List.mem_cons.mp hw with rfl | hw
      · exact hcd
      · exact h2 w hw
  have hd3 : look s3 (base ++ [head]) = some .dir := by
    by_cases he : nv.filesToCopy = []
    · rw [c3.rest _ (by simp [he])]; exact hd2
    · obtain ⟨e, he⟩ := List.exists_mem_of_ne_nil _ he
      exact c3.dirs e he _ (hq.apart hh base he).2.2.2.2.1
  have hb3 : look s3 base = some .dir := by simpa using look_parent c3.wf hd3
  have n3 : ∀ w, w ≠ cd → look s3 (base ++ [head] ++ [w]) = none := by
    intro w hwc
    rw [c3.rest]
    · exact hdeep _ (List.prefix_append _ _) (by simp)
    · intro e he hp
      rw [hres e he, List.append_assoc, List.prefix_append_right_inj] at hp
      obtain ⟨t, ht⟩ := hp
      exact hwc (List.cons.inj (List.cons.inj ht).2).1
  have hdig := fileDigest_known E.raw halg (utf8 (inventoryText E nv.inv))
  obtain ⟨s4, h4⟩ := run_writeInv_ok (o := o) (inv := nv.inv) (VDir.version hh) c3.wf hb3 (Or.inr hd3)
    (by rw [n3 _ (Ne.symm hci)]; simp) (by rw [n3 _ (Ne.symm hcs)]; simp) ⟨_, hdig⟩
  have hput : run (putVersion E o base src nv head) s = (s4, .ok ()) := by
    unfold putVersion
    rw [run_bind_ok hrem, run_bind_ok h2', run_bind_ok h3]
    exact h4
  have P := putVersion_ok_inv hw hb hh hv hq hold (by
    intro e he
    obtain ⟨b, hb'⟩ := hsrc e he
    rw [hb']; simp) hput
  have hout : ∀ q n, look s q ≠ some n → ¬ base ++ [head] <+: q → look s4 q ≠ some n ∨ look s4 q = none := by
    intro q n hq' hn
    by_cases hr : removedSidecar base nv q
    · exact Or.inr (P.removed q hr)
    · exact Or.inl (by rw [P.rest q hr hn]; exact hq')
  have hnd : ∀ q, look s q ≠ some .dir → ¬ base ++ [head] <+: q → look s4 q ≠ some .dir := by
    intro q h1 h2
    rcases hout q _ h1 h2 with h | h
    · exact h
    · rw [h]; simp
  have hroot : ∀ w : Str, w.head? = some 'i' → ¬ base ++ [head] <+: base ++ [w] := by
    intro w hw' hp
    rw [List.prefix_append_right_inj, List.cons_prefix_cons] at hp
    rw [hp.1, hw'] at hv
    cases hv
  have hb4 : look s4 base = some .dir := by
    rw [P.rest _ hbaseKept]
    · exact hb
    · intro hp
      have := hp.length_le
      simp only [List.length_append, List.length_singleton] at this
      omega
  obtain ⟨s5, h5⟩ := run_writeInv_ok (o := o) (inv := nv.inv) VDir.root P.wf hb4 (Or.inr (by rw [List.append_nil]; exact hb4))
    (by rw [List.append_nil]; exact hnd _ hri (hroot _ rfl)) (by rw [List.append_nil]; exact hnd _ hrs (hroot _ rfl)) ⟨_, hdig⟩
  refine ⟨s5, ?_⟩
  rw [writeNewVersion_eq hhead, run_bind_ok hput, run_bind_ok h5]
  rfl

/-- An update of an object made by the library succeeds if the validator accepts the object. If the digest algorithm changes, the source must not
contain the object, and no digest of the manifest may be without files. -/
theorem Sound.update_succeeds {E : Env} (hlib : E.lib.Lawful) (hhash : HashLib E.raw) {o : Obj}
    (hnorm : o.norm = none ∨ o.norm = some c!"md5" ∨ o.norm = some c!"uri") {srcdir objdir : Str} {metadata : Option VBlock}
    (hmeta : GoodMeta metadata) {s : FS} {dv : Str} {trees : List Tree} {recs : List Rec}
    (h : Sound E s (absComps E.cwd objdir) dv trees recs) (hno : NoCollision E.raw (InTrees trees)) (hlim : trees.length + 1 ≤ 99999)
    (hsrc : look s (absComps E.cwd srcdir) = some .dir)
    (hvalid : ∃ es, Validator.validateObject E { checkDigests := false, lax := o.lax } 0 s objdir = .ok (true, es)) {rl : Rec}
    (hlast : recs.getLast? = some rl) (hsha : o.digestAlgorithm = c!"sha512" ∨ o.digestAlgorithm = c!"sha256")
    (halg : rl.alg = o.digestAlgorithm ∨ ((∀ e ∈ Dict.sorted rl.m, e.2 ≠ []) ∧ ¬ absComps E.cwd srcdir <+: absComps E.cwd objdir))
    (hci : rl.inv.contentDirectoryToUse ≠ inventoryFilename) (hcs : rl.inv.contentDirectoryToUse ≠ sidecarName o.digestAlgorithm) :
    ∀ abort, ∃ s' x, run (addVersionWithContent E o objdir (some srcdir) metadata abort) s = (s', .ok x) ∧ (abort = false → ∃ inv, x = some inv) := by
  intro abort
  have hw := h.wf
  obtain ⟨front, hrecs⟩ : ∃ front, recs = front ++ [rl] := by
    obtain ⟨l, hl⟩ := List.getLast?_eq_some_iff.mp hlast
    exact ⟨l, hl⟩
  have hpos : 1 ≤ trees.length := by rw [← h.length, hrecs]; simp
  have hidx : recs[trees.length - 1]? = some rl := by rw [← h.length, hrecs]; simp
  have hvl := h.versions _ rl hidx
  rw [show trees.take (trees.length - 1 + 1) = trees by rw [Nat.sub_add_cancel hpos]; exact List.take_length] at hvl
  have hdl := hvl.describes
  have hds := hdl.sorted
  have holdSha := hds.parsed.good.algName
  have hroot := h.root rl hlast
  have hparse := parse_written hlib hdl.parsed hroot.1
  have halg0 : rl.inv.sorted.digestAlgorithm = some rl.alg := hds.parsed.good.algorithm
  obtain ⟨inv1, hinv1⟩ := hds.change_succeeds (fixity := o.fixity) hno hsha (halg.imp Eq.symm And.left)
  obtain ⟨m1, vs1, hd1, _, _, hcd1, hty1, _⟩ := hds.recode hhash hno hsha hinv1
  obtain ⟨sv0, hsv0, htype⟩ : ∃ sv ∈ supported, rl.inv.type = some (typeUri sv) := by
    refine ⟨_, ?_, hvl.type⟩
    split
    · exact h.spec
    · decide
  have hle : NV.strLt c!"1.1" sv0 = false := by
    have : ∀ sv ∈ supported, NV.strLt c!"1.1" sv = false := by decide
    exact this sv0 hsv0
  obtain ⟨nv0, hnext⟩ := nextVersion_succeeds hd1.parsed.numbered (by rw [hty1]; exact htype) hsv0 hle (metadata := metadata) (norm := o.norm)
    (fd := o.forwardDelta) (dd := o.dedupe) (old := some rl.alg)
  have g := ground_next hd1.parsed (sv := c!"1.1") (by decide) hmeta hlim hnext
  obtain ⟨_, type, _, hnv0⟩ := nextVersion_ok hd1.parsed.numbered hnext
  have hn0 : nv0.norm = o.norm := by rw [hnv0]
  have hcd0 : nv0.inv.contentDirectoryToUse = rl.inv.contentDirectoryToUse := by
    have e1 : nv0.inv.contentDirectory = rl.inv.contentDirectory := by rw [hnv0]; exact hcd1
    unfold Inv.contentDirectoryToUse
    rw [e1]
  have hold0 : nv0.oldDigestAlgorithm = some rl.alg := by rw [hnv0]
  obtain ⟨nv, ha⟩ := addFromSrcdir_succeeds (E := E) hw hsrc g.building ⟨_, g.manifest⟩ g.queue g.stateOf (by rw [hn0]; exact hnorm)
    (fun b => ⟨_, by rw [g.algorithm]; exact fileDigest_known E.raw hsha b⟩)
  obtain ⟨srcs, hsource, hadded⟩ := addFromSrcdir_ok hw hsrc g.building ⟨_, g.manifest⟩ g.queue ha
  have hne : nv0.inv.contentDirectoryToUse ≠ [] := by rw [hcd0]; exact hdl.contentDirectory
  have hx := hexNames_srcEnv hhash s (absComps E.cwd srcdir)
  have hq := g.queueReady hadded hsource.names hx hne
  obtain ⟨f, hf, hap⟩ := g.queueSegs hadded hsource.names hx hne
  rw [hcd0] at hf
  have hcdsafe : SafeName rl.inv.contentDirectoryToUse := by
    have h1 := hdl.contentDirectory
    refine ⟨h1, ?_⟩
    unfold Inv.contentDirectoryToUse
    cases hc : rl.inv.contentDirectory with
    | none => decide
    | some cd =>
      obtain ⟨a, b, c⟩ := hdl.parsed.good.contentDirectory cd hc
      exact ⟨b, c, a⟩
  have habs : look s (absComps E.cwd objdir ++ [styleName none (trees.length + 1)]) = none := by
    by_contra hne
    rcases h.only _ [] hne with ⟨k, hk, he⟩ | ⟨_, he | he | ⟨r, _, he⟩⟩
    · have := styleName_inj he
      omega
    all_goals
      have hs := styleName_head none (trees.length + 1)
      rw [he] at hs
      cases hs
  have hslash : '/' ∉ rl.alg := by rcases holdSha with h | h <;> (rw [h]; decide)
  obtain ⟨s', hr⟩ := writeNewVersion_succeeds (E := E) (o := o) (src := absComps E.cwd srcdir) (nv := nv) hsha hw h.isDir
    (head := styleName none (trees.length + 1)) (by rw [hadded.head.1]; exact g.head) (styleName_safe _ _) (styleName_head _ _) hq
    (fun x hx => ⟨(hf x hx).1, (hf x hx).2.1, (hf x hx).2.2.1⟩) hcdsafe hap hci hcs (by
      intro old ho
      rw [hadded.old, hold0] at ho
      cases ho
      exact hslash) (by
      rintro q ⟨old, ho, _, rfl⟩
      rw [hadded.old, hold0] at ho
      cases ho
      obtain ⟨d, _, hd⟩ := hroot.2
      exact ⟨_, hd⟩) (by
      rintro e he ⟨old, ho, hdiff, hq'⟩
      rw [hadded.old, hold0] at ho
      cases ho
      rw [hadded.head.2.1, g.algorithm] at hdiff
      have hnot := (halg.resolve_left (fun h => hdiff (by rw [h]))).2
      obtain ⟨r, b, h1, h2⟩ := (hsource.files e.1).mp (hadded.queueDone e he)
      rw [h2, resolve_join _ ((treeOK_below hw _).names r b h1).2] at hq'
      have hr : r ≠ [] := ((treeOK_below hw _).names r b h1).1
      refine hnot ?_
      have hp : absComps E.cwd srcdir <+: absComps E.cwd objdir ++ [sidecarName rl.alg] := ⟨r, hq'⟩
      rcases prefix_concat.mp hp with h | h
      · rw [h] at hq'
        exact absurd (List.append_right_eq_self.mp hq') hr
      · exact h) habs (by rw [hroot.1]; simp) (by
      by_cases ha : rl.alg = o.digestAlgorithm
      · obtain ⟨d, _, hd⟩ := hroot.2
        rw [← ha, hd]; simp
      · intro hd
        rcases h.only (sidecarName o.digestAlgorithm) [] (by rw [hd]; simp) with ⟨k, _, he⟩ | ⟨_, he | he | ⟨r, hr, he⟩⟩
        · have hs := styleName_head none (k + 1)
          rw [← he] at hs
          cases hs
        · have := congrArg List.length he
          rcases hsha with h' | h' <;> (rw [h'] at this; revert this; decide)
        · cases he
        · rw [hlast] at hr
          cases hr
          exact ha (List.append_cancel_left he).symm) (by
      intro e he
      obtain ⟨r, b, h1, h2⟩ := (hsource.files e.1).mp (hadded.queueDone e he)
      rw [h2, resolve_join _ ((treeOK_below hw _).names r b h1).2]
      exact ⟨b, h1.2⟩)
  have hvk : ∀ v ∈ Dict.keys nv.inv.versionsD, ∃ i, 0 < i ∧ i ≤ trees.length + 1 ∧ v = styleName none i := by
    intro v hv
    rw [hadded.keys] at hv
    unfold Inv.versionsD at hv
    rw [g.versions, Option.getD_some, Dict.mem_keys_set] at hv
    rcases hv with rfl | hv
    · exact ⟨_, Nat.succ_pos _, Nat.le_refl _, rfl⟩
    · obtain ⟨i, hi0, hi, rfl⟩ := (g.names v).mp hv
      exact ⟨i, by omega, by omega, rfl⟩
  obtain ⟨diff, hdiff⟩ : ∃ diff, nv.diffWithPrevious = .ok diff := by
    unfold NV.diffWithPrevious
    cases hvd : nv.inv.versionDirectories with
    | error e =>
      obtain ⟨_, k, hk, he⟩ := versionDirectories_error hvd
      obtain ⟨i, hi0, hi, rfl⟩ := hvk k hk
      rw [parse_styleName (by trivial) hi0 (by show i ≤ 99999; omega)] at he
      cases he
    | ok vs =>
      dsimp only
      split
      · exact ⟨_, rfl⟩
      · split <;> exact ⟨_, rfl⟩
  obtain ⟨es, hes⟩ := hvalid
  have hopen : fswOpen E.cwd srcdir s = .ok (absComps E.cwd srcdir) := by
    unfold fswOpen
    rw [if_pos (by rw [isdir_iff]; exact hsrc)]
  have hprep : prepareUpdate E o objdir (some srcdir) metadata abort s = .ok none ∧ abort = true ∨
      prepareUpdate E o objdir (some srcdir) metadata abort s = .ok (some (absComps E.cwd objdir, absComps E.cwd srcdir, nv)) := by
    unfold prepareUpdate startNewVersion startInventory
    simp only [openObj_dir h.isDir, hes, hparse, halg0, Option.getD_some, hinv1, hopen, hnext, ha, hdiff]
    cases abort with
    | false => exact Or.inr rfl
    | true =>
      cases diff with
      | nil => exact Or.inl ⟨rfl, rfl⟩
      | cons _ _ => exact Or.inr rfl
  unfold addVersionWithContent
  rcases hprep with ⟨hprep, hab⟩ | hprep
  · have hl : run (Prog.look (prepareUpdate E o objdir (some srcdir) metadata abort)) s = (s, .ok none) := by rw [run_look, hprep]
    rw [run_bind_ok hl]
    exact ⟨s, none, rfl, fun hf => by rw [hab] at hf; cases hf⟩
  · have hl : run (Prog.look (prepareUpdate E o objdir (some srcdir) metadata abort)) s =
        (s, .ok (some (absComps E.cwd objdir, absComps E.cwd srcdir, nv))) := by rw [run_look, hprep]
    rw [run_bind_ok hl]
    refine ⟨s', some nv.inv, ?_, fun _ => ⟨_, rfl⟩⟩
    show run (Prog.bind (writeNewVersion E o (absComps E.cwd objdir) (absComps E.cwd srcdir) nv) _) s = _
    rw [run_bind_ok hr]
    rfl

end Ocfl
