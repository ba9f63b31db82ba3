import Verif.Proofs.ExtractTop

/-!
# When `extract` succeeds; `extract_file`
-/

namespace Ocfl

open Spec FS Prog Ocfl.Inv

/-- Extraction succeeds if there is room, the content that is copied is there, and no logical path lies below another. -/
theorem extract_items_succeeds {E : Env} (hlib : E.lib.Lawful) (hcwd : ∀ w ∈ E.cwd, SafeName w) {s : FS} (hw : s.WF)
    {objdir version dstdir : Str} {base : Path} {inv : Inv} {v : Str}
    (hs : extractSetup E objdir version s = .ok (base, inv, v))
    (hout : ¬ absComps E.cwd objdir <+: absComps E.cwd dstdir)
    (hcp : ∀ c ∈ listed inv.manifestD, ∃ ws, LogicalPath ws c)
    (hp : FS.look s (dstParent E dstdir) = some .dir) (hvac : Vacant s (absComps E.cwd dstdir))
    (hcontent : ∀ c p, (c, p) ∈ extractItems inv.manifestD (inv.stateOf v) → ∃ b, FS.look s (resolve base c) = some (.file b))
    (hnest : ∀ p ∈ listed (inv.stateOf v), ∀ q ∈ listed (inv.stateOf v), ∀ ps qs, LogicalPath ps p → LogicalPath qs q →
      ps <+: qs → ps = qs) :
    ∃ s' md, run (extract E objdir version dstdir) s = (s', .ok md) := by
  obtain ⟨rfl, hbd, j, m0, vs0, states, hst, hview, hsel, hx, hres, hlst, hlm, _, md, hmd⟩ := extractSetup_ok hlib hs
  obtain ⟨s1, h1⟩ := run_extractDst_ok hcwd hw hp hvac
  obtain ⟨-, -, hw1, hl1⟩ := run_extractDst hcwd hw h1
  have hnot : ¬ absComps E.cwd dstdir <+: absComps E.cwd objdir := by
    rintro ⟨t, ht⟩
    by_cases htn : t = []
    · rw [htn, List.append_nil] at ht
      exact hout (by rw [ht]; exact List.prefix_rfl)
    · have := hvac.2 t htn
      rw [ht, hbd] at this
      cases this
  have hsrc : ∀ {ws r : List Str}, absComps E.cwd objdir ++ ws ≠ absComps E.cwd dstdir ++ r := by
    intro ws r he
    rcases List.prefix_or_prefix_of_prefix (List.prefix_append (absComps E.cwd objdir) ws)
      (by rw [he]; exact List.prefix_append _ _) with h | h
    · exact hout h
    · exact hnot h
  have hresc : ∀ {p c}, Resolves inv.manifestD (inv.stateOf v) p c → c ∈ listed inv.manifestD := by
    rintro p c ⟨d, _, h⟩; exact mem_listed.mpr ⟨d, h⟩
  have hstate : ∃ s2, run (extractState (absComps E.cwd objdir) (absComps E.cwd dstdir) inv.manifestD (inv.stateOf v)) s1 =
      (s2, .ok ()) := by
    apply run_extractState_ok hx (absComps_safe hcwd dstdir)
    · intro i hi r
      obtain ⟨ws, hws⟩ := hcp i.1 (hresc (hx.item hi).2)
      rw [(logical_resolve hws _).1]
      exact hsrc
    · exact hnest
    · intro c p hi
      obtain ⟨b, hb⟩ := hcontent c p hi
      have hr := (hx.item hi).2
      refine ⟨b, ?_⟩
      rw [hl1, if_neg]
      · exact hb
      · intro he
        obtain ⟨ws, hws⟩ := hcp c (hresc hr)
        rw [(logical_resolve hws _).1] at he
        exact hsrc (r := []) (by rw [he, List.append_nil])
    · exact hw1
    · rw [hl1, if_pos rfl]
    · intro r hr
      rw [hl1, if_neg]
      · exact hvac.2 r hr
      · intro he
        exact hr (List.append_cancel_left (by rw [List.append_nil]; exact he))
  obtain ⟨s2, h2⟩ := hstate
  refine ⟨s2, md, ?_⟩
  unfold extract
  rw [run_bind_ok (s1 := s) (a := (absComps E.cwd objdir, inv, v)) (by rw [run_look, hs])]
  rw [run_bind_ok h1]
  dsimp only
  rw [run_bind_ok h2, hmd]
  rfl

/-- Extraction succeeds if there is room, the content is there, and no logical path lies below another. -/
theorem extract_succeeds {E : Env} (hlib : E.lib.Lawful) (hcwd : ∀ w ∈ E.cwd, SafeName w) {s : FS} (hw : s.WF)
    {objdir version dstdir : Str} {base : Path} {inv : Inv} {v : Str}
    (hs : extractSetup E objdir version s = .ok (base, inv, v))
    (hout : ¬ absComps E.cwd objdir <+: absComps E.cwd dstdir)
    (hcp : ∀ c ∈ listed inv.manifestD, ∃ ws, LogicalPath ws c)
    (hp : FS.look s (dstParent E dstdir) = some .dir) (hvac : Vacant s (absComps E.cwd dstdir))
    (hcontent : ∀ p c, Resolves inv.manifestD (inv.stateOf v) p c → ∃ b, FS.look s (resolve base c) = some (.file b))
    (hnest : ∀ p ∈ listed (inv.stateOf v), ∀ q ∈ listed (inv.stateOf v), ∀ ps qs, LogicalPath ps p → LogicalPath qs q →
      ps <+: qs → ps = qs) :
    ∃ s' md, run (extract E objdir version dstdir) s = (s', .ok md) := by
  obtain ⟨_, _, _, _, _, _, _, _, _, hx, _⟩ := extractSetup_ok hlib hs
  exact extract_items_succeeds hlib hcwd hw hs hout hcp hp hvac (fun c p hi => hcontent p c (hx.item hi).2) hnest

/-! ## One file -/

/-- Opening a directory that may have to be created. -/
theorem run_openObjCreate {E : Env} (hcwd : ∀ w ∈ E.cwd, SafeName w) {s s1 : FS} (hw : s.WF) {dir : Str} {dst : Path}
    (hr : run (openObjCreate E dir) s = (s1, .ok dst)) :
    dst = absComps E.cwd dir ∧ s1.WF ∧ FS.look s (absComps E.cwd (osPathSplit dir).1) = some .dir ∧
    (FS.look s dst = none → dst.dropLast = absComps E.cwd (osPathSplit dir).1) ∧
    ∀ q, FS.look s1 q = if q = dst ∧ FS.look s q = none then some .dir else FS.look s q := by
  obtain ⟨hD, hns⟩ := absComps_split E.cwd dir
  have hr : run (fswOpenCreate E.cwd dir) s = (s1, .ok dst) := by
    unfold openObjCreate at hr
    rw [run_handle] at hr
    cases h : run (fswOpenCreate E.cwd dir) s with
    | mk s2 r =>
      rw [h] at hr
      cases r with
      | ok a => exact hr
      | error e => cases hr
  unfold fswOpenCreate at hr
  dsimp only at hr
  obtain ⟨s0, pbase, h1, h2⟩ := run_bind_inv hr
  rw [run_look] at h1
  obtain ⟨rfl, h1'⟩ := Prod.mk.inj h1
  unfold fswOpen at h1'
  dsimp only at h1'
  split at h1'
  · rename_i hpd
    cases h1'
    have hpd := isdir_iff.mp hpd
    rw [run_get] at h2
    rw [hD] at h2
    cases hx : FS.look s (absComps E.cwd dir) with
    | some n =>
      rw [if_pos (by unfold exists_; rw [hx]; rfl)] at h2
      rw [run_ret] at h2
      obtain ⟨rfl, h3⟩ := Prod.mk.inj h2
      cases h3
      refine ⟨rfl, hw, hpd, fun hc => by (rw [hx] at hc; cases hc), fun q => ?_⟩
      rw [if_neg]
      rintro ⟨rfl, h⟩
      rw [hx] at h; cases h
    | none =>
      rw [if_neg (by unfold exists_; rw [hx]; simp)] at h2
      obtain ⟨s2, _, h3, h4⟩ := run_bind_inv h2
      rw [run_ret] at h4
      obtain ⟨rfl, h5⟩ := Prod.mk.inj h4
      cases h5
      have habove : (absComps E.cwd dir).dropLast = absComps E.cwd (osPathSplit dir).1 := by
        rw [resolve_no_slash hns] at hD
        rcases normStep_cases (absComps E.cwd (osPathSplit dir).1) (osPathSplit dir).2 with e | e | e
        · rw [e] at hD; rw [hD, hx] at hpd; cases hpd
        · rw [e] at hD
          have := look_parent hw hpd
          rw [hD, hx] at this
          cases this
        · rw [e] at hD
          rw [← hD, List.dropLast_concat]
      rw [run_makedir_absent hx] at h3
      have hc := run_makedirs_inv hw h3
      obtain ⟨s', e1, hw1, hl1⟩ := run_makedirs_ok hw true (absComps_safe hcwd dir) hc (Or.inl rfl)
      rw [e1] at h3
      obtain ⟨rfl, _⟩ := Prod.mk.inj h3
      refine ⟨rfl, hw1, hpd, fun _ => habove, fun q => ?_⟩
      rw [hl1]
      by_cases hq : q = absComps E.cwd dir
      · rw [if_pos (by rw [hq]; exact List.prefix_rfl), if_pos ⟨hq, by rw [hq]; exact hx⟩]
      · rw [if_neg (c := q = absComps E.cwd dir ∧ _) (fun h => hq h.1)]
        by_cases hpre : q <+: absComps E.cwd dir
        · rw [if_pos hpre]
          have := prefix_dropLast hpre hq
          rw [habove] at this
          by_cases hq2 : q = absComps E.cwd (osPathSplit dir).1
          · rw [hq2]; exact hpd.symm
          · exact (look_prefix hw this hq2 hpd).symm
        · rw [if_neg hpre]
  · cases h1'

/-- Opening succeeds if the directory above is there and the directory is, or nothing is. -/
theorem run_openObjCreate_ok {E : Env} (hcwd : ∀ w ∈ E.cwd, SafeName w) {s : FS} (hw : s.WF) {dir : Str}
    (hp : FS.look s (absComps E.cwd (osPathSplit dir).1) = some .dir) :
    ∃ s1, run (openObjCreate E dir) s = (s1, .ok (absComps E.cwd dir)) := by
  obtain ⟨hD, hns⟩ := absComps_split E.cwd dir
  have : ∃ s1, run (fswOpenCreate E.cwd dir) s = (s1, .ok (absComps E.cwd dir)) := by
    unfold fswOpenCreate
    dsimp only
    rw [run_bind_ok (s1 := s) (a := absComps E.cwd (osPathSplit dir).1)
      (by rw [run_look]; unfold fswOpen; dsimp only; rw [if_pos (isdir_iff.mpr hp)]), run_get, hD]
    cases hx : FS.look s (absComps E.cwd dir) with
    | some n =>
      rw [if_pos (by unfold exists_; rw [hx]; rfl)]
      exact ⟨s, rfl⟩
    | none =>
      rw [if_neg (by unfold exists_; rw [hx]; simp)]
      have habove : (absComps E.cwd dir).dropLast = absComps E.cwd (osPathSplit dir).1 := by
        rw [resolve_no_slash hns] at hD
        rcases normStep_cases (absComps E.cwd (osPathSplit dir).1) (osPathSplit dir).2 with e | e | e
        · rw [e] at hD; rw [hD, hx] at hp; cases hp
        · rw [e] at hD
          have := look_parent hw hp
          rw [hD, hx] at this
          cases this
        · rw [e] at hD
          rw [← hD, List.dropLast_concat]
      have hne : absComps E.cwd dir ≠ [] := by
        intro he; rw [he, look_nil] at hx; cases hx
      have hc : Clear s (absComps E.cwd dir) := by
        rw [← List.dropLast_concat_getLast hne, clear_concat, habove]
        refine ⟨clear_of_dir hw hp, Or.inl ?_⟩
        rw [← habove, List.dropLast_concat_getLast hne]
        exact hx
      obtain ⟨s', e1, -, -⟩ := run_makedirs_ok hw true (absComps_safe hcwd dir) hc (Or.inl rfl)
      rw [run_bind_ok (s1 := s') (a := ()) (by rw [run_makedir_absent hx]; exact e1)]
      exact ⟨s', rfl⟩
  obtain ⟨s1, h1⟩ := this
  refine ⟨s1, ?_⟩
  unfold openObjCreate
  rw [run_handle, h1]

theorem findExisting_ok {m st : DigestMap} (hx : Extractable m st) {p : Str} : ∀ {l : DigestMap}, (∀ e ∈ l, e ∈ st) →
    (∀ c, findExisting m p l = .ok c ↔ ∃ d, digestFor l p = some d ∧ c = firstOf m d) ∧
    (p ∉ listed l → findExisting m p l = .error .objectException)
  | [], _ => by simp [findExisting, digestFor]
  | (d, ps) :: rest, hsub => by
    obtain ⟨f, hf, hfo, _⟩ := hx.first (hsub (d, ps) (by simp))
    obtain ⟨ih1, ih2⟩ := findExisting_ok hx (p := p) (l := rest) (fun e he => hsub e (by simp [he]))
    unfold findExisting digestFor
    rw [hf]
    dsimp only at hfo ⊢
    by_cases hp : p ∈ ps
    · rw [if_pos hp, if_pos hp]
      refine ⟨fun c => ?_, fun h => ?_⟩
      · constructor
        · intro h; cases h; exact ⟨d, rfl, hfo.symm⟩
        · rintro ⟨d', h, rfl⟩; cases h; rw [hfo]
      · exact absurd (by rw [listed_cons]; exact List.mem_append_left _ hp) h
    · rw [if_neg hp, if_neg hp]
      refine ⟨ih1, fun h => ih2 ?_⟩
      intro hm
      exact h (by rw [listed_cons]; exact List.mem_append_right _ hm)

theorem extractItems_first {m st : DigestMap} (hx : Extractable m st) {c p : Str} (h : (c, p) ∈ extractItems m st) :
    findExisting m p st = .ok c := by
  unfold extractItems at h
  obtain ⟨e, he, h⟩ := List.mem_flatMap.mp h
  obtain ⟨p', hp, h⟩ := List.mem_map.mp h
  obtain ⟨rfl, rfl⟩ := Prod.mk.inj h
  refine ((findExisting_ok hx (fun _ h => h)).1 _).mpr ⟨e.1, ?_, rfl⟩
  exact (digestFor_iff hx.unique).mpr ⟨e.2, he, hp⟩

/-- What `extract_file` has done when it succeeds. -/
theorem run_extractFile {E : Env} (hlib : E.lib.Lawful) (hcwd : ∀ w ∈ E.cwd, SafeName w) {s s' : FS} (hw : s.WF)
    {objdir version dstdir p : Str} {md : VMeta}
    (hout : ¬ absComps E.cwd objdir <+: absComps E.cwd dstdir)
    (hcp : ∀ j m c, StoredJson E.lib s (absComps E.cwd objdir ++ [inventoryFilename]) j →
      Member j c!"manifest" (ofDigestMap m) → c ∈ listed m → ∃ ws, LogicalPath ws c)
    (hr : run (extractFile E objdir version dstdir p) s = (s', .ok md)) :
    ∃ inv v segs w c b, extractSetup E objdir version s = .ok (absComps E.cwd objdir, inv, v) ∧
      p ∈ listed (inv.stateOf v) ∧ LogicalPath (segs ++ [w]) p ∧ findExisting inv.manifestD p (inv.stateOf v) = .ok c ∧
      FS.look s (resolve (absComps E.cwd objdir) c) = some (.file b) ∧
      FS.look s' (absComps E.cwd dstdir ++ [w]) = some (.file b) ∧
      (∀ q, q ≠ absComps E.cwd dstdir → q ≠ absComps E.cwd dstdir ++ [w] → FS.look s' q = FS.look s q) := by
  unfold extractFile at hr
  obtain ⟨s1, ⟨base, inv, v⟩, h1, h2⟩ := run_bind_inv hr
  rw [run_look] at h1
  obtain ⟨rfl, h1'⟩ := Prod.mk.inj h1
  obtain ⟨rfl, hbd, j, m0, vs0, states, hst, hview, hsel, hx, hres, hlst, hlm, _⟩ := extractSetup_ok hlib h1'
  obtain ⟨s2, dst, h3, h4⟩ := run_bind_inv h2
  obtain ⟨rfl, hw2, _, _, hl2⟩ := run_openObjCreate hcwd hw h3
  obtain ⟨s3, c, h5, h6⟩ := run_bind_inv h4
  obtain ⟨hs3, h5'⟩ := Prod.mk.inj (show (s2, _) = (s3, _) from h5)
  subst hs3
  obtain ⟨s4, _, h7, h8⟩ := run_bind_inv h6
  have hs4 : s' = s4 := (Prod.mk.inj h8).1.symm
  subst hs4
  obtain ⟨hf1, hf2⟩ := findExisting_ok hx (p := p) (l := inv.stateOf v) (fun _ h => h)
  have hfind : findExisting inv.manifestD p (inv.stateOf v) = .ok c := h5'
  have hp : p ∈ listed (inv.stateOf v) := by
    by_contra hc
    rw [hf2 hc] at hfind; cases hfind
  obtain ⟨ps, hs⟩ := hx.paths p hp
  rcases List.eq_nil_or_concat ps with rfl | ⟨segs, w, rfl⟩
  · exact absurd rfl hs.1
  rw [List.concat_eq_append] at hs
  have hw' : SafeName w := hs.2.1 w (by simp)
  have hb : osBasename p = w := by
    rw [hs.2.2, ← joinWith_eq_pathOf]
    exact osBasename_join (by
      intro x hx'
      exact SafeName.isComp (hs.2.1 x (by simp [hx']))) (SafeName.isComp hw')
  dsimp only at h7
  rw [hb, resolve_name _ hw'] at h7
  obtain ⟨d, hd, hcf⟩ := (hf1 c).mp hfind
  have hlists : c ∈ listed inv.manifestD := by
    obtain ⟨ps', h1, h2⟩ := digestFor_some hd
    obtain ⟨f, _, hfo, hl⟩ := hx.first h1
    rw [hcf]
    dsimp only at hfo
    rw [hfo]
    exact mem_listed.mpr ⟨_, hl⟩
  obtain ⟨ws, hws⟩ := hcp j m0 c hst hview.manifest ((hlm c).mp hlists)
  have hrc := (logical_resolve hws (absComps E.cwd objdir)).1
  obtain ⟨⟨b, hb1⟩, _, hnd, _⟩ := run_copyfile_inv h7
  have hne : resolve (absComps E.cwd objdir) c ≠ absComps E.cwd dstdir ++ [w] := by
    rw [hrc]
    intro he
    have hpre : absComps E.cwd objdir <+: absComps E.cwd dstdir ++ [w] := by rw [← he]; exact List.prefix_append _ _
    rcases prefix_concat.mp hpre with h | h
    · apply hnd
      rw [← h, hl2, if_neg (by rintro ⟨_, h⟩; rw [hbd] at h; cases h)]
      exact hbd
    · exact hout h
  have hsame : FS.look s (resolve (absComps E.cwd objdir) c) = some (.file b) := by
    rw [hl2, if_neg] at hb1
    · exact hb1
    · rintro ⟨he, _⟩
      rw [hrc] at he
      exact hout (by rw [← he]; exact List.prefix_append _ _)
  rw [run_copyfile hne hb1] at h7
  obtain ⟨_, _, _, hs'⟩ := exec_write_ok h7
  have hne2 : absComps E.cwd dstdir ++ [w] ≠ [] := by simp
  refine ⟨inv, v, segs, w, c, b, h1', hp, hs, hfind, hsame, ?_, fun q hq1 hq2 => ?_⟩
  · rw [hs', look_set hne2, if_pos rfl]
  · rw [hs', look_set hne2, if_neg hq2, hl2, if_neg (fun h => hq1 h.1)]

/-- What `extract` returns. -/
theorem extract_md {E : Env} {s s' : FS} {objdir version dstdir : Str} {base : Path} {inv : Inv} {v : Str} {md md' : VMeta}
    (hs : extractSetup E objdir version s = .ok (base, inv, v))
    (hr : run (extract E objdir version dstdir) s = (s', .ok md)) (hmd : versionMetadata inv v = .ok md') : md = md' := by
  unfold extract at hr
  obtain ⟨s1, r, h1, h2⟩ := run_bind_inv hr
  rw [run_look, hs] at h1
  cases h1
  obtain ⟨s2, dst, h3, h4⟩ := run_bind_inv h2
  obtain ⟨s3, _, h5, h6⟩ := run_bind_inv h4
  dsimp only at h6
  rw [hmd] at h6
  cases h6
  rfl

theorem extractFile_md {E : Env} {s s' : FS} {objdir version dstdir p : Str} {base : Path} {inv : Inv} {v : Str} {md md' : VMeta}
    (hs : extractSetup E objdir version s = .ok (base, inv, v))
    (hr : run (extractFile E objdir version dstdir p) s = (s', .ok md)) (hmd : versionMetadata inv v = .ok md') : md = md' := by
  unfold extractFile at hr
  obtain ⟨s1, r, h1, h2⟩ := run_bind_inv hr
  rw [run_look, hs] at h1
  cases h1
  obtain ⟨s2, dst, h3, h4⟩ := run_bind_inv h2
  obtain ⟨s3, _, h5, h6⟩ := run_bind_inv h4
  obtain ⟨s4, _, h7, h8⟩ := run_bind_inv h6
  dsimp only at h8
  rw [hmd] at h8
  cases h8
  rfl

end Ocfl
