import Verif.Spec.Thrifty
import Verif.Proofs.Metadata
import Verif.Props.NewVersion

/-!
# Manifests with one content path for each digest
-/

namespace Ocfl

open Spec FS Prog Ocfl.Inv

/-- No digest has two content paths. -/
def OneEach (m : DigestMap) : Prop := ∀ d c c', Lists m d c → Lists m d c' → c = c'

namespace NV

theorem addAll_run {E : NVEnv} : ∀ {ps : List Str} {nv nv' : NV}, nv.addAll E ps = (nv', .ok ()) →
    nv' = run E (ps.map (fun p => Op.add p p none)) nv
  | [], nv, nv', h => by unfold addAll at h; cases h; rfl
  | p :: ps, nv, nv', h => by
    unfold addAll at h
    split at h
    · cases h
    · rename_i nv1 ha
      have := addAll_run h
      show nv' = run E _ (step E (.add p p none) nv).1
      rw [show (step E (.add p p none) nv) = nv.add E p p none from rfl, ha]
      exact this

/-- With both settings on, nothing is stored that the manifest has. -/
theorem oneEach_addAll {E : NVEnv} {ps : List Str} {nv nv' : NV} {head : Str} (hb : Building nv head) (hd : nv.dedupe = true)
    (hf : nv.forwardDelta = some true) (h : OneEach nv.inv.manifestD) (hr : nv.addAll E ps = (nv', .ok ())) :
    OneEach nv'.inv.manifestD := by
  rw [addAll_run hr]
  generalize hops : ps.map (fun p => Op.add p p none) = ops
  clear hops
  refine (run_induct_building (E := E) (P := fun n => n.dedupe = true ∧ n.forwardDelta = some true ∧ OneEach n.inv.manifestD) ?_ ops nv hb
    ⟨hd, hf, h⟩).2.2
  intro op n1 n2 hb1 he ⟨hd1, hf1, hP⟩
  refine ⟨by rw [he.settings.2.2.1, hd1], by rw [he.settings.2.1, hf1], ?_⟩
  intro d cp cp' h1 h2
  cases he with
  | @add s l c q d' b hc hl hdg hv =>
    rw [afterAdd_manifestD] at h1 h2
    split at h1
    · rename_i hw
      rw [if_pos hw] at h2
      have hno : ∀ x, ¬ Lists n1.inv.manifestD d' x := by
        intro x hx
        have hmem : x ∈ n1.inv.contentPathsForDigest d' := (Lists_iff_get? hb1.manifestKeys).mp hx
        cases hs : startsWith x (head ++ c!"/") with
        | true =>
          have hcur : (n1.inv.contentPathsForDigest d').any (fun p => startsWith p (head ++ c!"/")) = true :=
            List.any_eq_true.mpr ⟨x, hmem, hs⟩
          simp only [wantCopy, hcur, hd1, hf1] at hw
          simp at hw
        | false =>
          have hprev : (n1.inv.contentPathsForDigest d').any (fun p => !startsWith p (head ++ c!"/")) = true :=
            List.any_eq_true.mpr ⟨x, hmem, by rw [hs]; rfl⟩
          simp only [wantCopy, hprev, hd1, hf1] at hw
          simp at hw
      rcases (Lists_stateAppend hb1.manifestKeys).mp h1 with g1 | ⟨e1, rfl⟩ <;>
        rcases (Lists_stateAppend hb1.manifestKeys).mp h2 with g2 | ⟨e2, rfl⟩
      · exact hP d _ _ g1 g2
      · subst e2; exact absurd g1 (hno _)
      · subst e1; exact absurd g2 (hno _)
      · rfl
    · rename_i hw
      rw [if_neg hw] at h2
      exact hP d _ _ h1 h2
  | delete hdel hv =>
    simp only [afterDelete_manifestD] at h1 h2
    split at h1
    · rename_i hl
      rw [if_pos hl] at h2
      exact hP d _ _ ((Lists_dropVersionPaths hb1.manifestKeys).mp h1).1 ((Lists_dropVersionPaths hb1.manifestKeys).mp h2).1
    · rename_i hl
      rw [if_neg hl] at h2
      exact hP d _ _ h1 h2
  | rename hn hdel hv =>
    simp only [afterRename_manifestD] at h1 h2
    split at h1
    · rename_i hl
      rw [if_pos hl] at h2
      exact hP d _ _ ((Lists_dropVersionPaths hb1.manifestKeys).mp h1).1 ((Lists_dropVersionPaths hb1.manifestKeys).mp h2).1
    · rename_i hl
      rw [if_neg hl] at h2
      exact hP d _ _ h1 h2

end NV

theorem addFromSrcdir_addAll {E : Env} {s : FS} {src : Path} {nv nv' : NV} (h : addFromSrcdir E s src nv = .ok nv') :
    ∃ ps, nv.addAll (srcEnv E s src) ps = (nv', .ok ()) := by
  unfold addFromSrcdir at h
  split at h
  · cases h
  · split at h
    · cases h
    · rename_i ha
      cases h
      exact ⟨_, ha⟩

/-- A file that is deep in an object is content, with its digest in the manifest. -/
theorem Sound.keptListed {E : Env} {s : FS} {base : Path} {dv : Str} {trees : List Tree} {recs : List Rec} (h : Sound E s base dv trees recs)
    {r : Rec} (hlast : recs.getLast? = some r) {p : Path} {b : Bytes} (hk : ContentFile s base p b) :
    p ≠ [] ∧ (∀ w ∈ p, SafeName w) ∧ InTrees trees b ∧ ∃ d, Lists r.m d (pathOf p) ∧ fileDigest E.raw r.alg b = some d := by
  obtain ⟨hlen, hl⟩ := hk
  obtain ⟨v, q, rfl, hq⟩ : ∃ v q, p = v :: q ∧ 2 ≤ q.length := by
    cases p with
    | nil => simp at hlen
    | cons v q => exact ⟨v, q, rfl, by simpa using hlen⟩
  obtain ⟨rl, hlast', hdl, _, _, _⟩ := h.last
  rw [hlast] at hlast'
  cases hlast'
  have hq0 : q ≠ [] := by rintro rfl; simp at hq
  rcases h.only v q (by rw [hl]; simp) with ⟨k, hk, rfl⟩ | ⟨h0, _⟩
  · obtain ⟨rk, hrk⟩ : ∃ rk, recs[k]? = some rk := ⟨recs[k]'(by rw [h.length]; exact hk), List.getElem?_eq_getElem _⟩
    have hvk := h.versions k rk hrk
    rcases hvk.only q hq0 (by rw [hl]; simp) with rfl | rfl | ⟨ws, h1, h2, h3, h4⟩
    · simp at hq
    · simp at hq
    · obtain ⟨d, hd⟩ := mem_listed.mp h4
      obtain ⟨v', ws', b', k1, k2, k3, k4, k5, k6, k7, k8⟩ := hvk.describes.segs hd
      have e := pathOf_inj' ⟨by simp, h3⟩ ⟨by simp, k3⟩ k4
      have hf : look s (base ++ styleName none (k + 1) :: ws) = some (.file b') := by rw [e, ← k5]; exact k6
      have hqw : q = ws := by
        by_contra hne
        have := look_prefix h.wf (p := base ++ styleName none (k + 1) :: q) (q := base ++ styleName none (k + 1) :: ws)
          (by rw [List.prefix_append_right_inj, List.cons_prefix_cons]; exact ⟨rfl, h1⟩) (by simpa using hne) hf
        rw [hl] at this
        cases this
      subst hqw
      have hin : pathOf (styleName none (k + 1) :: q) ∈ listed r.m := by
        rcases Nat.lt_or_ge k (recs.length - 1) with hlt | hge
        · have hlast2 : recs[recs.length - 1]? = some r := by rw [← List.getLast?_eq_getElem?]; exact hlast
          obtain ⟨i1, e1⟩ := List.getElem?_eq_some_iff.mp hrk
          obtain ⟨i2, e2⟩ := List.getElem?_eq_some_iff.mp hlast2
          have := List.pairwise_iff_getElem.mp h.mono k (recs.length - 1) i1 i2 hlt
          rw [e1, e2] at this
          exact this _ h4
        · have hkk : k = recs.length - 1 := by have := h.length; omega
          rw [List.getLast?_eq_getElem?, ← hkk, hrk] at hlast
          cases hlast
          exact h4
      obtain ⟨d2, hd2⟩ := mem_listed.mp hin
      obtain ⟨v2, ws2, b2, _, _, m3, m4, m5, m6, m7, m8⟩ := hdl.segs hd2
      have e2 := pathOf_inj' ⟨by simp, h3⟩ ⟨by simp, m3⟩ m4
      rw [m5, ← e2, hl] at m6
      cases m6
      exact ⟨by simp, h3, m8, d2, hd2, m7⟩
  · exact absurd h0 hq0

/-- One path for each digest in the manifest: one file for each content. -/
theorem Sound.keptOnce {E : Env} {s : FS} {base : Path} {dv : Str} {trees : List Tree} {recs : List Rec} (h : Sound E s base dv trees recs)
    {r : Rec} (hlast : recs.getLast? = some r) (hone : OneEach r.m) {p p' : Path} {b : Bytes} (hk : ContentFile s base p b) (hk' : ContentFile s base p' b) :
    p = p' := by
  obtain ⟨h1, h2, _, d, h3, h4⟩ := h.keptListed hlast hk
  obtain ⟨h1', h2', _, d', h3', h4'⟩ := h.keptListed hlast hk'
  rw [h4] at h4'
  cases h4'
  exact pathOf_inj' ⟨h1, h2⟩ ⟨h1', h2'⟩ (hone _ _ _ h3 h3')

/-- One file for each content: one path for each digest in any manifest that describes the files. -/
theorem Describes.oneEach {E : Env} {s : FS} {base : Path} {trees : List Tree} {inv : Inv} {alg : Str} {m : DigestMap} {vs : Dict Str VBlock}
    (h : Describes E s base trees inv alg m vs) (hno : NoCollision E.raw (InTrees trees))
    (hone : ∀ p p' b, ContentFile s base p b → ContentFile s base p' b → p = p') : OneEach m := by
  intro d c c' h1 h2
  obtain ⟨v, ws, b, _, k2, _, k4, k5, k6, k7, k8⟩ := h.segs h1
  obtain ⟨v', ws', b', _, k2', _, k4', k5', k6', k7', k8'⟩ := h.segs h2
  have hb : b = b' := noCollision_digest hno h.parsed.good.algName k8 k8' (by rw [k7, k7'])
  subst hb
  have hlen : ∀ {a x : Str} {l : List Str}, l ≠ [] → 3 ≤ (a :: x :: l).length := by
    intro a x l hl
    have := List.length_pos_of_ne_nil hl
    simp only [List.length_cons]
    omega
  rw [k4, k4', hone _ _ b ⟨hlen k2, by rw [← k5]; exact k6⟩ ⟨hlen k2', by rw [← k5']; exact k6'⟩]

/-- The first version holds nothing twice in its directory. -/
theorem once_first {E : Env} {o : Obj} (ho : GoodSettings o) (hdd : o.dedupe = true) {id : Str} (hid : o.id = some id) {metadata : Option VBlock}
    (hmeta : GoodMeta metadata) {s : FS} {src : Path} {nv0 nv : NV}
    (hfirst : NV.firstVersion id o.specVersion (some o.digestAlgorithm) (some o.contentDirectory) metadata o.dedupe (o.fixity.getD []) o.norm = .ok nv0)
    (hadd : addFromSrcdir E s src nv0 = .ok nv) :
    ∀ d c c', Lists nv.inv.manifestD d c → Lists nv.inv.manifestD d c' → InDir (styleName none 1) c → InDir (styleName none 1) c' → c = c' := by
  obtain ⟨g, _, _, _, _, hd0, _, _⟩ := ground_first (by rintro rfl; exact ho.id hid) ho.specVersion ho.algorithm
    ⟨ho.contentDirectory.2.2.2, ho.contentDirectory.2.1, ho.contentDirectory.2.2.1⟩ (by
      cases hf : o.fixity with
      | none => simp
      | some l => exact ho.fixity l hf) hmeta hfirst
  have hm0 : nv0.inv.manifestD = [] := by unfold Inv.manifestD; rw [g.manifest]; rfl
  obtain ⟨ps, hps⟩ := addFromSrcdir_addAll hadd
  have := C13_dedupe (srcEnv E s src) (ps.map (fun p => NV.Op.add p p none)) nv0 (styleName none 1) g.building (by rw [hd0, hdd]) (by
    intro d c c' h1
    rw [hm0] at h1
    exact absurd h1 (Lists_nil _ _))
  rw [← NV.addAll_run hps] at this
  exact this

/-- The versions that `build` makes. -/
theorem Prepared.oneEach {E : Env} {o : Obj} {metadata : Nat → VBlock} {s : FS} {src : Path} {l : List Inv} (h : Prepared E o metadata s src l)
    (ho : GoodSettings o) (hdd : o.dedupe = true) (hfd : o.forwardDelta = true) (hmeta : ∀ k < l.length, GoodMeta (some (metadata (k + 1))))
    (hgood : ∀ k inv, l[k]? = some inv → ∃ alg m vs, Parsed inv alg m vs none (k + 1)) (hlim : l.length ≤ 99999)
    (hfirst : ∀ inv, l[0]? = some inv → ∀ d c, Lists inv.manifestD d c → InDir (styleName none 1) c) :
    ∀ inv, l.getLast? = some inv → OneEach inv.manifestD := by
  induction h with
  | nil => intro inv hi; cases hi
  | @snoc l nv0 nv before start isDir add ih =>
    rw [List.length_append, List.length_singleton] at hmeta hlim
    have hold : ∀ (k : Nat) (inv : Inv), l[k]? = some inv → (l ++ [nv.inv])[k]? = some inv := by
      intro k inv hk
      rw [List.getElem?_append_left (List.getElem?_eq_some_iff.mp hk).1]
      exact hk
    intro inv hi
    rw [List.getLast?_concat] at hi
    cases hi
    unfold buildStart at start
    rcases List.eq_nil_or_concat l with rfl | ⟨l', inv0, rfl⟩
    · rw [if_pos (show unpaddedName (([] : List Inv).length + 1) = c!"v1" by decide)] at start
      split at start
      · cases start
      rename_i id hid
      have hin := hfirst nv.inv (by simp)
      have hone := once_first ho hdd hid (hmeta 0 (by simp)) start add
      exact fun d c c' h1 h2 => hone d c c' h1 h2 (hin _ _ h1) (hin _ _ h2)
    · rw [List.concat_eq_append] at *
      have hne : unpaddedName ((l' ++ [inv0]).length + 1) ≠ c!"v1" := by
        intro he
        have := styleName_inj (show styleName none _ = styleName none 1 from he)
        simp at this
      rw [if_neg hne, List.getLast?_concat] at start
      obtain ⟨alg, m, vs, hp⟩ := hgood l'.length inv0 (hold _ _ (by simp))
      have hm' := hmeta (l' ++ [inv0]).length (by omega)
      have g := ground_next hp (sv := c!"1.1") (by decide) hm' (by
        rw [List.length_append, List.length_singleton] at hlim
        exact hlim) start
      obtain ⟨_, type, htype, hnv0⟩ := nextVersion_ok hp.numbered start
      obtain ⟨ps, hps⟩ := addFromSrcdir_addAll add
      refine NV.oneEach_addAll g.building (by rw [hnv0]; exact hdd) (by rw [hnv0, hfd]) ?_ hps
      have e1 : nv0.inv.manifestD = m := by unfold Inv.manifestD; rw [g.manifest]; rfl
      have e2 : inv0.manifestD = m := by unfold Inv.manifestD; rw [hp.good.manifest]; rfl
      rw [e1, ← e2]
      exact ih (fun k hk => hmeta k (by omega)) (fun k inv hk => hgood k inv (hold k inv hk)) (by omega)
        (fun inv hi => hfirst inv (hold 0 inv hi)) inv0 (by simp)

/-- The first version. -/
theorem oneEach_create {E : Env} {o : Obj} (ho : GoodSettings o) (hdd : o.dedupe = true) {srcdir objdir : Str} {metadata : Option VBlock}
    (hmeta : GoodMeta metadata) {s s' : FS} {inv : Inv} (hr : run (create E o srcdir metadata (some objdir)) s = (s', .ok inv)) :
    ∀ d c c', Lists inv.manifestD d c → Lists inv.manifestD d c' → InDir (styleName none 1) c → InDir (styleName none 1) c' → c = c' := by
  obtain ⟨src, nv, hp, rfl, _, hrun⟩ := create_inv hr
  unfold prepareFirst at hp
  split at hp
  · cases hp
  rename_i id hid
  split at hp
  · cases hp
  split at hp
  · cases hp
  rename_i nv0 hfirst
  split at hp
  · cases hp
  rename_i nv' hadd
  cases hp
  exact once_first ho hdd hid hmeta hfirst hadd

/-- A later version. -/
theorem Sound.update_oneEach {E : Env} (hlib : E.lib.Lawful) (hhash : HashLib E.raw) {o : Obj}
    (halg : o.digestAlgorithm = c!"sha512" ∨ o.digestAlgorithm = c!"sha256") (hdd : o.dedupe = true) (hfd : o.forwardDelta = true)
    {srcdir objdir : Str} {metadata : Option VBlock}
    (hmeta : GoodMeta metadata) {abort : Bool} {s s' : FS} {base : Path} {dv : Str} {trees : List Tree} {recs : List Rec}
    (h : Sound E s base dv trees recs) (hno : NoCollision E.raw (InTrees trees)) (hlim : trees.length + 1 ≤ 99999)
    (hbase : absComps E.cwd objdir = base) {inv : Inv}
    (hr : run (addVersionWithContent E o objdir (some srcdir) metadata abort) s = (s', .ok (some inv)))
    (hone : ∀ p p' b, ContentFile s base p b → ContentFile s base p' b → p = p') : OneEach inv.manifestD := by
  obtain ⟨rl, hlast, hdl, hroot, _, _⟩ := h.last
  unfold addVersionWithContent at hr
  obtain ⟨s0, r0, h0, hr⟩ := run_bind_inv hr
  rw [run_look] at h0
  obtain ⟨hs0, hprep⟩ := Prod.mk.inj h0
  clear h0
  subst hs0
  cases r0 with
  | none => cases hr
  | some r0 =>
  obtain ⟨base', src, nv⟩ := r0
  obtain ⟨sd, hsd, nv0, inv0, alg, m, vs, style, n, inv1, hst, hadd⟩ := prepareUpdate_started hlib hprep
  cases hsd
  have hbb : base' = base := hst.base_eq.trans hbase
  subst hbb
  have hinv0 : inv0 = rl.inv.sorted := by
    have := hst.parse
    rw [parse_written hlib hdl.parsed hroot.1] at this
    cases this
    rfl
  subst hinv0
  have hds := hdl.sorted
  have ealg : alg = rl.alg := by
    have := hst.parsed.good.algorithm
    rw [hds.parsed.good.algorithm] at this
    cases this
    rfl
  subst ealg
  obtain ⟨m1, vs1, hd1, hlist1, hkeys1, hcd1, hty1, hid1⟩ := hds.recode hhash hno halg hst.change
  have g := ground_next hd1.parsed (sv := c!"1.1") (by decide) hmeta hlim hst.next
  obtain ⟨_, type, htype, hnv0⟩ := nextVersion_ok hd1.parsed.numbered hst.next
  obtain ⟨s2, inv2, hwr, hr⟩ := run_bind_inv hr
  have hr : (s2, Except.ok (some inv2)) = (s', (.ok (some inv) : Py (Option Inv))) := hr
  cases hr
  have hinv : inv = nv.inv := by
    unfold writeNewVersion at hwr
    split at hwr
    · cases hwr
    · obtain ⟨_, _, _, hwr⟩ := run_bind_inv hwr
      obtain ⟨_, _, _, hwr⟩ := run_bind_inv hwr
      obtain ⟨_, _, _, hwr⟩ := run_bind_inv hwr
      obtain ⟨_, _, _, hwr⟩ := run_bind_inv hwr
      obtain ⟨_, _, _, hwr⟩ := run_bind_inv hwr
      cases hwr
      rfl
  subst hinv
  obtain ⟨ps, hps⟩ := addFromSrcdir_addAll hadd
  refine NV.oneEach_addAll g.building (by rw [hnv0]; exact hdd) (by rw [hnv0, hfd]) ?_ hps
  have : nv0.inv.manifestD = m1 := by unfold Inv.manifestD; rw [g.manifest]; rfl
  rw [this]
  exact hd1.oneEach hno hone

end Ocfl
