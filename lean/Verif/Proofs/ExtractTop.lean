import Verif.Proofs.Extract

/-!
# `extract` and `extract_file` as a whole
-/

namespace Ocfl

open Spec FS Prog Ocfl.Inv

/-! ## Steps -/

/-- What can be seen of two programs in a row. -/
theorem visits_bind {α β : Type} {p : Prog α} {f : α → Prog β} {s s' : FS} (h : Visits (Prog.bind p f) s s') :
    Visits p s s' ∨ ∃ s1 a, run p s = (s1, .ok a) ∧ Visits (f a) s1 s' := by
  induction p generalizing s with
  | ret r =>
    cases r with
    | ok a => exact Or.inr ⟨s, a, rfl, h⟩
    | error e =>
      left
      have h : Visits (.ret (.error e) : Prog β) s s' := h
      cases h
      exact .here
  | get k ih =>
    have h : Visits (.get (fun s => Prog.bind (k s) f)) s s' := h
    cases h with
    | here => exact Or.inl .here
    | get h =>
      rcases ih s h with h1 | ⟨s1, a, h1, h2⟩
      · exact Or.inl (.get h1)
      · exact Or.inr ⟨s1, a, h1, h2⟩
  | op o k ih =>
    have h : Visits (.op o (fun r => Prog.bind (k r) f)) s s' := h
    cases h with
    | here => exact Or.inl .here
    | mid hm => exact Or.inl (.mid hm)
    | next h =>
      rcases ih _ h with h1 | ⟨s1, a, h1, h2⟩
      · exact Or.inl (.next h1)
      · exact Or.inr ⟨s1, a, h1, h2⟩

theorem visits_ret {α : Type} {r : Py α} {s s' : FS} (h : Visits (.ret r : Prog α) s s') : s' = s := by
  cases h; rfl

theorem visits_look {α : Type} {f : FS → Py α} {s s' : FS} (h : Visits (Prog.look f) s s') : s' = s := by
  cases h with
  | here => rfl
  | get h => exact visits_ret h

/-! ## Reading the inventory -/

theorem Good.stateOf {inv : Inv} {alg : Str} {m : DigestMap} {vs : Dict Str VBlock} {style : Option Nat} {n : Nat}
    (h : Good inv alg m vs style n) {v : Str} {b : VBlock} {st : DigestMap} (hvb : (v, b) ∈ vs) (hst : b.state = some st) :
    inv.stateOf v = st := by
  unfold Inv.stateOf Inv.versionData
  rw [h.versionsD, Dict.get?_of_mem h.versionKeys hvb]
  dsimp only
  rw [hst]; rfl

theorem mem_perm_map {m m0 : DigestMap} {f : Str → Str} (h : m.Perm (m0.map (fun e => (f e.1, e.2)))) {d : Str} {ps : List Str} :
    (d, ps) ∈ m ↔ ∃ d0, (d0, ps) ∈ m0 ∧ f d0 = d := by
  rw [h.mem_iff, List.mem_map]
  constructor
  · rintro ⟨⟨d0, ps0⟩, h1, h2⟩
    obtain ⟨rfl, rfl⟩ := Prod.mk.inj h2
    exact ⟨d0, h1, rfl⟩
  · rintro ⟨d0, h1, rfl⟩
    exact ⟨(d0, ps), h1, rfl⟩

/-- What reading the inventory gives, in terms of the document. -/
theorem extractSetup_ok {E : Env} (hlib : E.lib.Lawful) {objdir version : Str} {s : FS} {base : Path} {inv : Inv} {v : Str}
    (h : extractSetup E objdir version s = .ok (base, inv, v)) :
    base = absComps E.cwd objdir ∧ FS.look s base = some .dir ∧ ∃ j m0 vs0 states,
      StoredJson E.lib s (base ++ [inventoryFilename]) j ∧ View j m0 vs0 states ∧ Selects j vs0 version v ∧
      Extractable inv.manifestD (inv.stateOf v) ∧
      (∀ p c, Resolves inv.manifestD (inv.stateOf v) p c ↔ Resolves m0 (states v) p c) ∧
      (∀ p, p ∈ listed (inv.stateOf v) ↔ p ∈ listed (states v)) ∧
      (∀ c, c ∈ listed inv.manifestD ↔ c ∈ listed m0) ∧
      (∀ p ∈ listed (states v), ∀ segs, LogicalPath segs p → pathOf segs.dropLast ∉ listed (states v)) ∧
      ∃ md, versionMetadata inv v = .ok md := by
  unfold extractSetup at h
  split at h
  · cases h
  rename_i base' hb
  obtain ⟨hbe, hbd⟩ := openObj_ok hb
  split at h
  · cases h
  rename_i inv' hinv
  obtain ⟨j, alg, m0, vs0, states, m, vs, style, n, hst, hrf, hp⟩ := parse_readFrom hlib hinv
  have hg := hp.good
  obtain ⟨cd, style', n', hrules⟩ := hrf.rules
  have hsel : base' = base ∧ inv' = inv ∧ Selects j vs0 version v := by
    split at h
    · rename_i hv
      cases h
      refine ⟨rfl, rfl, ?_, ?_⟩
      · have hn := hg.names
        rw [← hrf.versions, hg.head]
        exact (hn.2.2.2 _).mpr ⟨n, hn.2.1, le_refl n, rfl⟩
      · right
        refine ⟨hv, (hrf.head _).mp ?_⟩
        rw [hg.head]; rfl
    · split at h
      · cases h
      · rename_i l hl
        split at h
        · rename_i hv
          cases h
          refine ⟨rfl, rfl, ?_, Or.inl rfl⟩
          rw [← hrf.versions, ← hg.versionsD]
          exact (versionDirectories_ok hl).1.mem_iff.mp hv
        · cases h
  obtain ⟨rfl, rfl, hsel⟩ := hsel
  have hview : View j m0 vs0 states := ⟨hrules.manifest, hrules.versions, fun v b hvb => (hrules.versionRules v b hvb).state⟩
  obtain ⟨b, st, hvb, hbs, hperm⟩ := hrf.state v hsel.1
  obtain ⟨st', hgb⟩ := hg.blocks v b hvb
  have : st' = st := by
    have := hgb.state
    rw [hbs, Option.some.injEq] at this
    exact this.symm
  subst this
  have hso := hg.stateOf hvb hbs
  obtain ⟨hg0, hb0⟩ := good_of_rules hrf.wf hrules
  obtain ⟨⟨v', b0⟩, hvb0, hv0⟩ := List.mem_map.mp hsel.1
  have hv0 : v' = v := hv0
  subst hv0
  have hgb0 := hb0 _ _ hvb0
  have hres : ∀ p c, Resolves m st' p c ↔ Resolves m0 (states v') p c := by
    intro p c
    constructor
    · rintro ⟨d, ⟨ps, h1, h2⟩, cs, h3, h4⟩
      obtain ⟨d1, h5, h6⟩ := (mem_perm_map (f := fun d => normalizedDigest d alg) hperm).mp h1
      obtain ⟨d2, h7, h8⟩ := (mem_perm_map (f := fun d => normalizedDigest d alg) hrf.manifest).mp h3
      obtain ⟨qs, _, hq⟩ := hgb0.digests _ h5
      have : d1 = d2 := hg0.distinct d1 (Dict.mem_keys_of_mem hq) d2 (Dict.mem_keys_of_mem h7) (h6.trans h8.symm)
      subst this
      exact ⟨d1, ⟨ps, h5, h2⟩, cs, h7, h4⟩
    · rintro ⟨d, ⟨ps, h1, h2⟩, cs, h3, h4⟩
      exact ⟨normalizedDigest d alg, ⟨ps, (mem_perm_map (f := fun d => normalizedDigest d alg) hperm).mpr ⟨d, h1, rfl⟩, h2⟩, cs,
        (mem_perm_map (f := fun d => normalizedDigest d alg) hrf.manifest).mpr ⟨d, h3, rfl⟩, h4⟩
  have hlst : ∀ p, p ∈ listed st' ↔ p ∈ listed (states v') := by
    intro p
    rw [(listed_perm hperm).mem_iff, listed_map_key (fun d => normalizedDigest d alg)]
  have hlm : ∀ c, c ∈ listed m ↔ c ∈ listed m0 := by
    intro p
    rw [(listed_perm hrf.manifest).mem_iff, listed_map_key (fun d => normalizedDigest d alg)]
  refine ⟨hbe, hbd, j, m0, vs0, states, ?_, hview, hsel, ?_, ?_, ?_, ?_, ?_, ?_⟩
  · have : resolve base' inventoryFilename = base' ++ [inventoryFilename] := resolve_name base' (by decide)
    rw [← this]; exact hst
  · rw [hso, hg.manifestD]
    exact ⟨hg.manifestKeys, hgb.digests, hgb.paths, hgb.unique⟩
  · rw [hso, hg.manifestD]; exact hres
  · rw [hso]; exact hlst
  · rw [hg.manifestD]; exact hlm
  · exact hgb0.noConflict
  · unfold versionMetadata VMeta.fromInventory
    simp only [hg.versions, Option.orElse, Dict.get?_of_mem hg.versionKeys hvb]
    exact ⟨_, rfl⟩

/-! ## The whole -/

theorem only_copyfile {src dst : Path} : Only (fun o => ∃ b, o = .write dst b) (fswCopyfile src dst) :=
  .bind .look (fun _ => .perform ⟨_, rfl⟩)

theorem only_extractState {base dst : Path} {m : DigestMap} : ∀ {st : DigestMap}, (∀ p ∈ listed st, ∃ segs, LogicalPath segs p) →
    Only (fun o => (∃ q, o = .mkdir q) ∨ ∃ r b, o = .write (dst ++ r) b) (extractState base dst m st)
  | [], _ => .ret
  | (d, files) :: rest, h => by
    unfold extractState
    refine .bind .ret (fun f => .bind (.forEach (fun p hp => ?_)) (fun _ => only_extractState (fun p hp => ?_)))
    · obtain ⟨segs, hs⟩ := h p (by rw [listed_cons]; exact List.mem_append_left _ hp)
      have hl := logical_resolve hs dst
      unfold extractOne
      rw [hl.1]
      refine .bind ((only_makedirs _ _).mono ?_) (fun _ => only_copyfile.mono ?_)
      · rintro o ⟨q, _, _, rfl⟩; exact Or.inl ⟨q, rfl⟩
      · rintro o ⟨b, rfl⟩; exact Or.inr ⟨segs, b, rfl⟩
    · exact h p (by rw [listed_cons]; exact List.mem_append_right _ hp)

theorem only_extractDst (E : Env) (dstdir : Str) : Only (fun o => ∃ q, o = .mkdir q) (extractDst E dstdir) := by
  unfold extractDst
  dsimp only
  refine .bind .look (fun pb => .bind (.get (fun s => ?_)) (fun _ => .ret))
  unfold prepareDst
  refine .ite (fun _ => ?_) (fun _ => (only_makedir _).mono ?_)
  · split
    · exact .ret
    · exact .ite (fun _ => .ret) (fun _ => .ret)
  · rintro o ⟨q, _, _, rfl⟩; exact ⟨q, rfl⟩

/-- At every moment of an extraction, everything that was there outside the destination is as before. -/
theorem extract_visits {E : Env} (hlib : E.lib.Lawful) (hcwd : ∀ w ∈ E.cwd, SafeName w) {s s' : FS} (hw : s.WF)
    {objdir version dstdir : Str} {q : Path} (hq : ¬ absComps E.cwd dstdir <+: q) (hl : FS.look s q ≠ none)
    (hv : Visits (extract E objdir version dstdir) s s') : FS.look s' q = FS.look s q := by
  unfold extract at hv
  rcases visits_bind hv with h | ⟨s1, ⟨base, inv, v⟩, h1, h2⟩
  · rw [visits_look h]
  rw [run_look] at h1
  obtain ⟨rfl, h1'⟩ := Prod.mk.inj h1
  obtain ⟨_, _, j, m0, vs0, states, _, _, _, hx, _⟩ := extractSetup_ok hlib h1'
  have hsp : ∀ o, (∃ q, o = FS.Op.mkdir q) → Spares q o := by
    rintro o ⟨p, rfl⟩ _; exact ⟨p, rfl⟩
  rcases visits_bind h2 with h | ⟨s2, dst, h3, h4⟩
  · exact (only_extractDst E dstdir).visits_spares hsp hl h
  obtain ⟨rfl, _, _, hl2⟩ := run_extractDst hcwd hw h3
  have hqd : FS.look s2 q = FS.look s q := by
    rw [hl2, if_neg]
    rintro rfl
    exact hq List.prefix_rfl
  have hsp2 : ∀ o, ((∃ q, o = FS.Op.mkdir q) ∨ ∃ r b, o = FS.Op.write (absComps E.cwd dstdir ++ r) b) → Spares q o := by
    rintro o (⟨p, rfl⟩ | ⟨r, b, rfl⟩) ht
    · exact ⟨p, rfl⟩
    · exact absurd (by rw [← ht]; exact List.prefix_append _ _) hq
  rcases visits_bind h4 with h | ⟨s3, _, h5, h6⟩
  · rw [(only_extractState hx.paths).visits_spares hsp2 (by rw [hqd]; exact hl) h, hqd]
  · have := (only_extractState (base := base) (dst := absComps E.cwd dstdir) (m := inv.manifestD) hx.paths).run_spares
      (s := s2) hsp2 (by rw [hqd]; exact hl)
    rw [visits_ret h6, ← hqd, ← this, h5]

/-- The program raises and does nothing. -/
def Refuses {α : Type} (p : Prog α) (s : FS) : Prop := (∃ e, run p s = (s, .error e)) ∧ ∀ s', Visits p s s' → s' = s

theorem Refuses.ret {α : Type} {e : PyErr} {s : FS} : Refuses (.ret (.error e) : Prog α) s :=
  ⟨⟨e, rfl⟩, fun _ h => visits_ret h⟩

theorem Refuses.get {α : Type} {k : FS → Prog α} {s : FS} (h : Refuses (k s) s) : Refuses (.get k) s := by
  refine ⟨h.1, fun s' hv => ?_⟩
  cases hv with
  | here => rfl
  | get hv => exact h.2 s' hv

theorem Refuses.bind {α β : Type} {p : Prog α} {f : α → Prog β} {s : FS} (h : Refuses p s) : Refuses (Prog.bind p f) s := by
  obtain ⟨⟨e, h1⟩, h2⟩ := h
  refine ⟨⟨e, run_bind_error h1⟩, fun s' hv => ?_⟩
  rcases visits_bind hv with h | ⟨s1, a, h3, _⟩
  · exact h2 s' h
  · rw [h1] at h3; cases h3

/-- A first step that only looks. -/
theorem Refuses.after_look {α β : Type} {g : FS → Py α} {f : α → Prog β} {s : FS}
    (h : ∀ a, g s = .ok a → Refuses (f a) s) : Refuses (Prog.bind (Prog.look g) f) s := by
  cases hg : g s with
  | error e =>
    have h1 : Refuses (Prog.look g) s := by
      apply Refuses.get
      rw [hg]; exact Refuses.ret
    exact h1.bind
  | ok a =>
    obtain ⟨⟨e, h1⟩, h2⟩ := h a hg
    refine ⟨⟨e, ?_⟩, fun s' hv => ?_⟩
    · rw [run_bind_ok (s1 := s) (a := a) (by rw [run_look, hg]), h1]
    · rcases visits_bind hv with h | ⟨s1, a', h3, h4⟩
      · exact visits_look h
      · rw [run_look, hg] at h3
        obtain ⟨rfl, h5⟩ := Prod.mk.inj h3
        cases h5
        exact h2 s' h4

/-- Without room at the destination nothing is done. -/
theorem extract_refuses {E : Env} {s : FS} (hw : s.WF) {objdir version dstdir : Str}
    (hv : ¬ Vacant s (absComps E.cwd dstdir)) : Refuses (extract E objdir version dstdir) s := by
  unfold extract
  refine Refuses.after_look (fun r _ => Refuses.bind ?_)
  unfold extractDst
  dsimp only
  refine Refuses.after_look (fun pbase ho => Refuses.bind (Refuses.get ?_))
  obtain ⟨rfl, hpd⟩ := openObj_ok ho
  have hD := (dstParent_resolve E dstdir).1
  change Refuses (prepareDst (dstParent E dstdir) (osPathSplit (osNormpath dstdir)).2 s) s
  unfold prepareDst
  rw [hD]
  by_cases hid : isdir s (absComps E.cwd dstdir) = true
  · rw [if_pos hid]
    obtain ⟨l, hl, hlen⟩ := listdir_dir (dstParent E dstdir) (osPathSplit (osNormpath dstdir)).2
      (by rw [hD]; exact isdir_iff.mp hid)
    rw [hl]
    dsimp only
    rw [hD] at hlen
    split
    · exact Refuses.ret
    · exfalso
      rename_i hz
      apply hv
      refine ⟨Or.inr (isdir_iff.mp hid), children_nil hw ?_⟩
      rw [← List.length_eq_zero_iff, ← hlen]
      omega
  · rw [if_neg hid]
    unfold makedir
    apply Refuses.get
    have hnd : FS.look s (absComps E.cwd dstdir) ≠ some .dir := fun hh => hid (isdir_iff.mpr hh)
    rw [if_pos]
    · exact Refuses.ret
    · unfold exists_
      cases hx : FS.look s (absComps E.cwd dstdir) with
      | some n => rfl
      | none =>
        exfalso
        apply hv
        refine ⟨Or.inl hx, fun r hr => look_below_none hw (List.prefix_append _ r) ?_ hnd⟩
        intro he
        exact hr (List.append_cancel_left (by rw [List.append_nil]; exact he.symm))

theorem prefix_dropLast {q p : Path} (h : q <+: p) (hne : q ≠ p) : q <+: p.dropLast := by
  rcases List.eq_nil_or_concat p with rfl | ⟨t, w, rfl⟩
  · exact h
  · rw [List.concat_eq_append] at *
    rw [List.dropLast_concat]
    rcases prefix_concat.mp h with he | he
    · exact absurd he hne
    · exact he

theorem storedJson_unique {lib : JsonLib} {s : FS} {p : Path} {j j' : Json} (h : StoredJson lib s p j) (h' : StoredJson lib s p j') :
    j = j' := by
  obtain ⟨b, t, h1, h2, h3⟩ := h
  obtain ⟨b', t', h1', h2', h3'⟩ := h'
  rw [h1] at h1'; cases h1'
  rw [h2] at h2'; cases h2'
  rw [h3] at h3'; cases h3'
  rfl

/-- The files and directories after a successful extraction. -/
theorem run_extract {E : Env} (hlib : E.lib.Lawful) (hcwd : ∀ w ∈ E.cwd, SafeName w) {s s' : FS} (hw : s.WF)
    {objdir version dstdir : Str} {md : VMeta}
    (hout : ¬ absComps E.cwd objdir <+: absComps E.cwd dstdir)
    (hcp : ∀ j m c, StoredJson E.lib s (absComps E.cwd objdir ++ [inventoryFilename]) j →
      Member j c!"manifest" (ofDigestMap m) → c ∈ listed m → ∃ ws, LogicalPath ws c)
    (hr : run (extract E objdir version dstdir) s = (s', .ok md)) :
    s'.WF ∧ ∃ inv v, extractSetup E objdir version s = .ok (absComps E.cwd objdir, inv, v) ∧
      (∀ p ∈ listed (inv.stateOf v), ∃ segs c b, LogicalPath segs p ∧ (c, p) ∈ extractItems inv.manifestD (inv.stateOf v) ∧
        FS.look s (resolve (absComps E.cwd objdir) c) = some (.file b) ∧
        FS.look s' (absComps E.cwd dstdir ++ segs) = some (.file b)) ∧
      ∃ j m vs states, StoredJson E.lib s (absComps E.cwd objdir ++ [inventoryFilename]) j ∧
      View j m vs states ∧ Selects j vs version v ∧ Vacant s (absComps E.cwd dstdir) ∧
      (∀ p, p ∈ listed (inv.stateOf v) ↔ p ∈ listed (states v)) ∧
      Extracted s s' (absComps E.cwd objdir) (absComps E.cwd dstdir) m (states v) := by
  unfold extract at hr
  obtain ⟨s1, ⟨base, inv, v⟩, h1, h2⟩ := run_bind_inv hr
  rw [run_look] at h1
  obtain ⟨rfl, h1'⟩ := Prod.mk.inj h1
  obtain ⟨rfl, hbd, j, m0, vs0, states, hst, hview, hsel, hx, hres, hlst, hlm, _⟩ := extractSetup_ok hlib h1'
  obtain ⟨s2, dst, h3, h4⟩ := run_bind_inv h2
  obtain ⟨rfl, hvac, hw2, hl2⟩ := run_extractDst hcwd hw h3
  obtain ⟨s3, _, h5, h6⟩ := run_bind_inv h4
  have hs3 : s' = s3 := (Prod.mk.inj h6).1.symm
  subst hs3
  have hcp' : ∀ c ∈ listed inv.manifestD, ∃ ws, LogicalPath ws c :=
    fun c hc => hcp j m0 c hst hview.manifest ((hlm c).mp hc)
  have hresc : ∀ {p c}, Resolves inv.manifestD (inv.stateOf v) p c → c ∈ listed inv.manifestD := by
    rintro p c ⟨d, _, h⟩; exact mem_listed.mpr ⟨d, h⟩
  -- the destination is not above the object
  have hnot : ¬ absComps E.cwd dstdir <+: absComps E.cwd objdir := by
    rintro ⟨t, ht⟩
    by_cases htn : t = []
    · rw [htn, List.append_nil] at ht
      exact hout (by rw [ht]; exact List.prefix_rfl)
    · have := hvac.2 t htn
      rw [ht, hbd] at this
      cases this
  have hsrc : ∀ {ws r : List Str}, absComps E.cwd objdir ++ ws ≠ absComps E.cwd dstdir ++ r := by
    intro ws r he
    rcases List.prefix_or_prefix_of_prefix (List.prefix_append (absComps E.cwd objdir) ws)
      (by rw [he]; exact List.prefix_append _ _) with h | h
    · exact hout h
    · exact hnot h
  obtain ⟨g1, g2, g3, g4⟩ := run_extractState_inv hx (absComps_safe hcwd dstdir)
    (by
      intro i hi r
      obtain ⟨ws, hws⟩ := hcp' i.1 (hresc (hx.item hi).2)
      rw [(logical_resolve hws _).1]
      exact hsrc)
    hw2 h5
  have hkeep : ∀ q, ¬ absComps E.cwd dstdir <+: q → FS.look s2 q = FS.look s q := by
    intro q hq
    rw [hl2, if_neg]
    rintro rfl
    exact hq List.prefix_rfl
  have hlook2 : ∀ r, r ≠ [] → FS.look s2 (absComps E.cwd dstdir ++ r) = none := by
    intro r hr
    rw [hl2, if_neg]
    · exact hvac.2 r hr
    · intro he
      exact hr (List.append_cancel_left (by rw [List.append_nil]; exact he))
  have hroot2 : FS.look s2 (absComps E.cwd dstdir) = some .dir := by rw [hl2, if_pos rfl]
  have hcov : ∀ q, FS.look s' q ≠ FS.look s2 q → ∃ p ∈ listed (inv.stateOf v), ∃ segs, LogicalPath segs p ∧
      q <+: absComps E.cwd dstdir ++ segs := by
    intro q hq
    by_contra hc
    push Not at hc
    exact hq (g4 q hc)
  refine ⟨g1, inv, v, h1', ?_, j, m0, vs0, states, hst, hview, hsel, hvac, hlst, ?_, ?_, ?_, ?_, ?_⟩
  · intro p hp
    obtain ⟨segs, hs⟩ := hx.paths p hp
    obtain ⟨c, b, hi, hc, hb, hb'⟩ := g2 p hp segs hs
    refine ⟨segs, c, b, hs, hi, ?_, hb'⟩
    rw [hl2, if_neg] at hb
    · exact hb
    · intro he
      obtain ⟨ws, hws⟩ := hcp' c (hresc hc)
      rw [(logical_resolve hws _).1] at he
      exact hsrc (r := []) (by rw [he, List.append_nil])
  · by_contra hne
    obtain ⟨p, hp, segs, hs, hpre⟩ := hcov _ (by rw [hroot2]; exact hne)
    apply hne
    refine g3 p hp segs hs _ (prefix_dropLast hpre ?_)
    intro he
    exact hs.1 (List.append_cancel_left (by rw [List.append_nil]; exact he.symm))
  · intro q hq
    rw [← hkeep q hq]
    by_contra hne
    obtain ⟨p, hp, segs, hs, hpre⟩ := hcov q hne
    rcases List.prefix_or_prefix_of_prefix hpre (List.prefix_append (absComps E.cwd dstdir) segs) with h | h
    · -- above the destination: a directory before and after
      have hqne : q ≠ absComps E.cwd dstdir := by rintro rfl; exact hq List.prefix_rfl
      have hd := look_prefix hw2 h hqne hroot2
      have hne2 : absComps E.cwd dstdir ++ segs ≠ absComps E.cwd dstdir := by
        intro he
        exact hs.1 (List.append_cancel_left (by rw [List.append_nil]; exact he))
      have hd2 : FS.look s' q = some .dir := by
        refine g3 p hp segs hs q (prefix_dropLast hpre ?_)
        rintro rfl
        exact hq (List.prefix_append _ _)
      exact hne (by rw [hd, hd2])
    · exact hq h
  · intro r b hb
    have hrne : r ≠ [] := by
      rintro rfl
      rw [List.append_nil] at hb
      by_cases hsame : FS.look s' (absComps E.cwd dstdir) = FS.look s2 (absComps E.cwd dstdir)
      · rw [hsame, hroot2] at hb; cases hb
      · obtain ⟨p, hp, segs, hs, hpre⟩ := hcov _ hsame
        have := g3 p hp segs hs _ (prefix_dropLast hpre (by
          intro he
          exact hs.1 (List.append_cancel_left (by rw [List.append_nil]; exact he.symm))))
        rw [this] at hb; cases hb
    obtain ⟨p, hp, segs, hs, hpre⟩ := hcov (absComps E.cwd dstdir ++ r) (by rw [hb, hlook2 r hrne]; simp)
    by_cases he : absComps E.cwd dstdir ++ r = absComps E.cwd dstdir ++ segs
    · have he := List.append_cancel_left he
      subst he
      obtain ⟨c, b', _, hc1, hc2, hc3⟩ := g2 p hp r hs
      rw [hb] at hc3
      cases hc3
      obtain ⟨ws, hws⟩ := hcp' c (hresc hc1)
      rw [(logical_resolve hws _).1] at hc2
      refine ⟨ws, ?_, ?_⟩
      · rw [← hs.2.2, ← hws.2.2]; exact (hres p c).mp hc1
      · rw [hl2, if_neg] at hc2
        · exact hc2
        · intro he
          exact hsrc (r := []) (by rw [he, List.append_nil])
    · have := g3 p hp segs hs _ (prefix_dropLast hpre he)
      rw [hb] at this; cases this
  · intro p hp
    have hp' := (hlst p).mpr hp
    obtain ⟨segs, hs⟩ := hx.paths p hp'
    obtain ⟨c, b, _, _, _, hb⟩ := g2 p hp' segs hs
    exact ⟨segs, b, hs.2.2, hb⟩
  · intro r hd
    by_cases hrne : r = []
    · exact Or.inl hrne
    · right
      obtain ⟨p, hp, segs, hs, hpre⟩ := hcov (absComps E.cwd dstdir ++ r) (by rw [hd, hlook2 r hrne]; simp)
      obtain ⟨t, ht⟩ := (List.prefix_append_right_inj _).mp hpre
      refine ⟨t, ?_, ?_⟩
      · rintro rfl
        rw [List.append_nil] at ht
        subst ht
        obtain ⟨c, b', _, _, _, hc3⟩ := g2 p hp r hs
        rw [hd] at hc3
        cases hc3
      · rw [ht, ← hs.2.2]
        exact (hlst p).mp hp

end Ocfl
