import Verif.Proofs.BuildSound
import Verif.Proofs.ExtractMore

/-!
# Extraction from objects made by the library
-/

namespace Ocfl

open Spec FS Prog Ocfl.Inv

theorem NoCollision.mono {raw : Str → Bytes → Str} {f g : Bytes → Prop} (h : NoCollision raw g) (hfg : ∀ b, f b → g b) : NoCollision raw f :=
  fun alg ha b b' hb hb' => h alg ha b b' (hfg b hb) (hfg b' hb')

theorem InTrees.append {trees : List Tree} {t : Tree} {b : Bytes} (h : InTrees trees b) : InTrees (trees ++ [t]) b := by
  obtain ⟨t', h1, h2⟩ := h
  exact ⟨t', List.mem_append_left _ h1, h2⟩

/-- The invariant of histories. -/
theorem history_sound {E : Env} (hlib : E.lib.Lawful) (hhash : HashLib E.raw) (hword : WordClass E.isWord)
    (hcwd : ∀ w ∈ E.cwd, SafeName w) {base : Path} {trees : List Tree} {s : FS} (h : History E base trees s)
    (hno : NoCollision E.raw (InTrees trees)) (hlen : trees.length ≤ 99999) : ∃ dv recs, Sound E s base dv trees recs := by
  induction h with
  | create wf settings block base_eq vacant nonempty names done =>
    subst base_eq
    obtain ⟨r, _, _, hs⟩ := sound_create hhash hword hcwd settings block wf vacant nonempty names done
    exact ⟨_, _, hs⟩
  | build wf settings sources blocks base_eq vacant apart nonempty names done =>
    subst base_eq
    obtain ⟨recs, r, _, _, hs, _⟩ := sound_build hhash hword hcwd settings wf sources blocks vacant apart nonempty names done
    exact ⟨_, _, hs⟩
  | elsewhere before wf same ih =>
    obtain ⟨dv, recs, hs⟩ := ih hno hlen
    exact ⟨dv, recs, hs.outside wf same⟩
  | copied before wf same ih =>
    obtain ⟨dv, recs, hs⟩ := ih hno hlen
    exact ⟨dv, recs, hs.copied wf same⟩
  | update before algorithm block base_eq names done ih =>
    rw [List.length_append, List.length_singleton] at hlen
    have hno' := NoCollision.mono hno (fun b hb => InTrees.append hb)
    obtain ⟨dv, recs, hs⟩ := ih hno' (by omega)
    obtain ⟨r, _, _, hs'⟩ := hs.update hlib hhash algorithm block hno' hlen base_eq names done
    exact ⟨dv, _, hs'⟩

theorem pathOf_inj' {a b : List Str} (ha : a ≠ [] ∧ ∀ w ∈ a, SafeName w) (hb : b ≠ [] ∧ ∀ w ∈ b, SafeName w) (h : pathOf a = pathOf b) : a = b :=
  pathOf_inj ha.1 hb.1 (fun w hw => (ha.2 w hw).2.2.2) (fun w hw => (hb.2 w hw).2.2.2) h

/-- The last inventory of an object and that it describes everything. -/
theorem Sound.last {E : Env} {s : FS} {base : Path} {dv : Str} {trees : List Tree} {recs : List Rec} (h : Sound E s base dv trees recs) :
    ∃ r, recs.getLast? = some r ∧ Describes E s base trees r.inv r.alg r.m r.vs ∧ Stored E s base r ∧
      VersionSound E s base dv trees (styleName none trees.length) r ∧ 1 ≤ trees.length := by
  obtain ⟨front, rl, hrecs⟩ : ∃ front rl, recs = front ++ [rl] := ⟨recs.dropLast, recs.getLast h.pos, (List.dropLast_append_getLast h.pos).symm⟩
  have hlast : recs.getLast? = some rl := by rw [hrecs]; simp
  have hpos : 1 ≤ trees.length := by
    rw [← h.length, hrecs]; simp
  have hidx : recs[trees.length - 1]? = some rl := by
    rw [← h.length, hrecs]; simp
  have hvl := h.versions _ rl hidx
  have htake : trees.take (trees.length - 1 + 1) = trees := by
    rw [Nat.sub_add_cancel hpos]; exact List.take_length
  rw [htake, Nat.sub_add_cancel hpos] at hvl
  exact ⟨rl, hlast, hvl.describes, h.root rl hlast, hvl, hpos⟩

theorem plain_of_setup {E : Env} (hlib : E.lib.Lawful) {objdir version : Str} {s : FS} {base : Path} {inv : Inv} {v : Str}
    (h : extractSetup E objdir version s = .ok (base, inv, v)) (hp : ∀ c ∈ listed inv.manifestD, ∃ ws, LogicalPath ws c) :
    PlainContent E.lib s (absComps E.cwd objdir ++ [inventoryFilename]) := by
  obtain ⟨rfl, _, j, m0, vs0, states, hst, hview, _, _, _, _, hlm, _⟩ := extractSetup_ok hlib h
  intro j' m c hst' hm hc
  have hj := storedJson_unique hst' hst
  subst hj
  obtain ⟨_, _, _, _, h3⟩ := hst
  have hwf := hlib.wf _ _ h3
  have h1 := field_of_member hwf hm
  have h2 := field_of_member hwf hview.manifest
  rw [h1] at h2
  have h2 := congrArg DigestMap.ofJson (Option.some.inj h2)
  have e1 := DigestMap.ofJson_toJson m
  have e2 := DigestMap.ofJson_toJson m0
  have : m = m0 := e1.symm.trans (h2.trans e2)
  subst this
  exact hp c ((hlm c).mpr hc)

/-- Extraction gives back the tree that the version was made from: it depends on the root inventory and the content only. -/
theorem Describes.extract {E : Env} (hlib : E.lib.Lawful) (hcwd : ∀ w ∈ E.cwd, SafeName w) {s : FS} (hws : s.WF) {objdir dstdir version : Str}
    {trees : List Tree} {rl : Rec} (hdir : look s (absComps E.cwd objdir) = some .dir)
    (hd0 : Describes E s (absComps E.cwd objdir) trees rl.inv rl.alg rl.m rl.vs)
    (hstored : look s (absComps E.cwd objdir ++ [inventoryFilename]) = some (.file (utf8 (inventoryText E rl.inv))))
    (hno : NoCollision E.raw (InTrees trees)) {k : Nat} {t : Tree} (hk : trees[k]? = some t)
    (hversion : version = styleName none (k + 1) ∨ (version = c!"head" ∧ k + 1 = trees.length))
    (hout : ¬ absComps E.cwd objdir <+: absComps E.cwd dstdir)
    (hp : look s (dstParent E dstdir) = some .dir) (hvac : Vacant s (absComps E.cwd dstdir)) :
    ∃ s' md, run (Ocfl.extract E objdir version dstdir) s = (s', .ok md) ∧
      (∀ r b, FileBelow s' (absComps E.cwd dstdir) r b ↔ t r b) ∧
      ∀ q, ¬ absComps E.cwd dstdir <+: q → look s' q = look s q := by
  have hd := hd0.sorted
  have hklt : k < trees.length := by
    by_contra hc
    rw [List.getElem?_eq_none (by omega)] at hk
    cases hk
  have hsetup : extractSetup E objdir version s = .ok (absComps E.cwd objdir, rl.inv.sorted, styleName none (k + 1)) := by
    unfold extractSetup openObj fswOpen
    rw [if_pos (by unfold FS.isdir; rw [hdir]; rfl)]
    dsimp only
    rw [parse_written hlib hd0.parsed hstored]
    dsimp only
    have hvd := versionDirectories_names (inv := rl.inv.sorted) hd.parsed.numbered.styleOK hd.parsed.numbered.limit
      hd.parsed.numbered.keys hd.parsed.numbered.names
    rcases hversion with rfl | ⟨rfl, hkn⟩
    · rw [if_neg (by intro he; have := congrArg List.head? he; rw [styleName_head] at this; cases this), hvd]
      dsimp only
      rw [if_pos]
      refine List.mem_map.mpr ⟨k + 1, ?_, rfl⟩
      rw [mem_upTo]
      omega
    · rw [if_pos rfl, hd.parsed.good.head, hkn]
      rfl
  have hcp : ∀ c ∈ listed rl.inv.sorted.manifestD, ∃ ws, LogicalPath ws c := by
    intro c hc
    rw [hd.parsed.good.manifestD] at hc
    obtain ⟨d, hl⟩ := mem_listed.mp hc
    obtain ⟨v, ws, b, _, _, h3, h4, _⟩ := hd.segs hl
    exact ⟨_, by simp, h3, h4⟩
  have hstate : ∀ d p, Lists (rl.inv.sorted.stateOf (styleName none (k + 1))) d p ↔
      ∃ r b, t r b ∧ p = pathOf r ∧ fileDigest E.raw rl.alg b = some d := by
    intro d p
    rw [hd.parsed.good.stateIn]
    exact (hd.states k t hk).2 d p
  have hok := hd.ok t (List.mem_of_getElem? hk)
  -- the content of a logical path
  have hres : ∀ p c, Resolves rl.inv.sorted.manifestD (rl.inv.sorted.stateOf (styleName none (k + 1))) p c →
      ∃ r b, t r b ∧ p = pathOf r ∧ look s (FS.resolve (absComps E.cwd objdir) c) = some (.file b) := by
    rintro p c ⟨d, hl1, hl2⟩
    rw [hd.parsed.good.manifestD] at hl2
    obtain ⟨r, b, h1, h2, h3⟩ := (hstate d p).mp hl1
    obtain ⟨_, _, b', _, _, _, _, _, k1, k2, k3⟩ := hd.segs hl2
    have : b = b' := noCollision_digest hno hd.parsed.good.algName ⟨t, List.mem_of_getElem? hk, r, h1⟩ k3 (by rw [h3, k2])
    subst this
    exact ⟨r, b, h1, h2, k1⟩
  have hlisted : ∀ p, p ∈ listed (rl.inv.sorted.stateOf (styleName none (k + 1))) ↔ ∃ r b, t r b ∧ p = pathOf r := by
    intro p
    rw [mem_listed]
    constructor
    · rintro ⟨d, hl⟩
      obtain ⟨r, b, h1, h2, _⟩ := (hstate d p).mp hl
      exact ⟨r, b, h1, h2⟩
    · rintro ⟨r, b, h1, h2⟩
      exact ⟨_, (hstate _ p).mpr ⟨r, b, h1, h2, fileDigest_known E.raw hd.parsed.good.algName b⟩⟩
  obtain ⟨s', md, hrun⟩ := extract_succeeds hlib hcwd hws hsetup hout hcp hp hvac
    (by
      intro p c hr
      obtain ⟨r, b, _, _, h3⟩ := hres p c hr
      exact ⟨b, h3⟩)
    (by
      intro p hp q hq ps qs hps hqs hpre
      obtain ⟨r, b, h1, rfl⟩ := (hlisted p).mp hp
      obtain ⟨r', b', h1', rfl⟩ := (hlisted q).mp hq
      have e1 := pathOf_inj' (hok.names r b h1) ⟨hps.1, hps.2.1⟩ hps.2.2
      have e2 := pathOf_inj' (hok.names r' b' h1') ⟨hqs.1, hqs.2.1⟩ hqs.2.2
      subst e1 e2
      exact hok.apart _ _ _ _ h1 h1' hpre)
  obtain ⟨hw', inv, v, hs, hfiles, j, m, vs, states, _, _, _, _, hlst, hx⟩ :=
    run_extract hlib hcwd hws hout (plain_of_setup hlib hsetup hcp) hrun
  rw [hsetup] at hs
  cases hs
  obtain ⟨_, _, _, _, _, _, _, _, _, hxx, _⟩ := extractSetup_ok hlib hsetup
  have hfwd : ∀ r b, t r b → look s' (absComps E.cwd dstdir ++ r) = some (.file b) := by
    intro r b ht
    obtain ⟨segs, c, b', h1, h2, h3, h4⟩ := hfiles (pathOf r) ((hlisted _).mpr ⟨r, b, ht, rfl⟩)
    have hr := (hxx.item h2).2
    obtain ⟨r', b'', k1, k2, k3⟩ := hres _ _ hr
    have e1 := pathOf_inj' (hok.names r b ht) ⟨h1.1, h1.2.1⟩ h1.2.2
    have e2 := pathOf_inj' (hok.names r b ht) (hok.names r' b'' k1) k2
    subst e1 e2
    have := hok.functional _ _ _ ht k1
    subst this
    rw [h3] at k3
    cases k3
    exact h4
  refine ⟨s', md, hrun, ?_, hx.untouched⟩
  intro r b
  constructor
  · rintro ⟨hr, hl⟩
    obtain ⟨ws, ⟨d, h1, _⟩, _⟩ := hx.files r b hl
    have hp' := (hlst (pathOf r)).mpr (mem_listed.mpr ⟨d, h1⟩)
    obtain ⟨r', b', ht, he⟩ := (hlisted _).mp hp'
    have hsafe : ∀ w ∈ r, SafeName w := fun w hw => look_names hw' hl w (List.mem_append_right _ hw)
    have := pathOf_inj' ⟨hr, hsafe⟩ (hok.names r' b' ht) he
    subst this
    have h2 := hfwd r b' ht
    rw [hl] at h2
    cases h2
    exact ht
  · intro ht
    exact ⟨(hok.names r b ht).1, hfwd r b ht⟩

/-- Extraction gives back the tree that the version was made from. -/
theorem Sound.extract {E : Env} (hlib : E.lib.Lawful) (hcwd : ∀ w ∈ E.cwd, SafeName w) {s : FS} {objdir dstdir version : Str} {dv : Str}
    {trees : List Tree} {recs : List Rec} (h : Sound E s (absComps E.cwd objdir) dv trees recs)
    (hno : NoCollision E.raw (InTrees trees)) {k : Nat} {t : Tree} (hk : trees[k]? = some t)
    (hversion : version = styleName none (k + 1) ∨ (version = c!"head" ∧ k + 1 = trees.length))
    (hout : ¬ absComps E.cwd objdir <+: absComps E.cwd dstdir)
    (hp : look s (dstParent E dstdir) = some .dir) (hvac : Vacant s (absComps E.cwd dstdir)) :
    ∃ s' md, run (Ocfl.extract E objdir version dstdir) s = (s', .ok md) ∧
      (∀ r b, FileBelow s' (absComps E.cwd dstdir) r b ↔ t r b) ∧
      ∀ q, ¬ absComps E.cwd dstdir <+: q → look s' q = look s q := by
  obtain ⟨rl, _, hd0, hstored, _, _⟩ := h.last
  exact hd0.extract hlib hcwd h.wf h.isDir hstored.1 hno hk hversion hout hp hvac

end Ocfl
