import Verif.Props.Metadata

/-!
# `extract_file` on objects made by the library
-/

namespace Ocfl

open Spec FS Prog Ocfl.Inv

theorem extractFile_metadata {E : Env} {s s' : FS} {objdir version dstdir p : Str} {base : Path} {inv : Inv} {v : Str} {md : VMeta}
    (hs : extractSetup E objdir version s = .ok (base, inv, v))
    (hr : run (extractFile E objdir version dstdir p) s = (s', .ok md)) : versionMetadata inv v = .ok md := by
  unfold extractFile at hr
  obtain ⟨s1, r, h1, h2⟩ := run_bind_inv hr
  rw [run_look, hs] at h1
  cases h1
  obtain ⟨s2, dst, h3, h4⟩ := run_bind_inv h2
  obtain ⟨s3, c, h5, h6⟩ := run_bind_inv h4
  obtain ⟨s4, _, h7, h8⟩ := run_bind_inv h6
  exact (Prod.mk.inj h8).2

theorem versionMetadata_version {inv : Inv} {v : Str} {md : VMeta} (h : versionMetadata inv v = .ok md) : md.version = some v := by
  unfold versionMetadata VMeta.fromInventory at h
  cases hv : inv.versions with
  | none => simp [hv] at h
  | some vs =>
    simp only [hv, Option.orElse_some] at h
    cases hg : Dict.get? vs v with
    | none => simp [hg] at h
    | some b =>
      simp only [hg] at h
      have h := Except.ok.inj h
      rw [← h]
      cases b with
      | mk created message user state =>
        cases created <;> cases message <;> cases user <;> rfl

/-- Extracting one file of a version gives the file of the tree that the version was made from. -/
theorem Sound.extractFile {E : Env} (hlib : E.lib.Lawful) (hcwd : ∀ w ∈ E.cwd, SafeName w) {s : FS} {objdir dstdir version : Str} {dv : Str}
    {trees : List Tree} {recs : List Rec} (h : Sound E s (absComps E.cwd objdir) dv trees recs)
    (hno : NoCollision E.raw (InTrees trees)) {k : Nat} {t : Tree} (hk : trees[k]? = some t)
    (hversion : version = styleName none (k + 1) ∨ (version = c!"head" ∧ k + 1 = trees.length))
    (hout : ¬ absComps E.cwd objdir <+: absComps E.cwd dstdir)
    (hp : look s (absComps E.cwd (osPathSplit dstdir).1) = some .dir)
    (hdst : look s (absComps E.cwd dstdir) = none ∨ look s (absComps E.cwd dstdir) = some .dir)
    {segs : Path} {w : Str} {b : Bytes} (hf : t (segs ++ [w]) b) (hfree : look s (absComps E.cwd dstdir ++ [w]) ≠ some .dir) :
    ∃ s' md, run (Ocfl.extractFile E objdir version dstdir (pathOf (segs ++ [w]))) s = (s', .ok md) ∧ md.version = some (styleName none (k + 1)) ∧
      look s' (absComps E.cwd dstdir ++ [w]) = some (.file b) ∧
      ∀ q, q ≠ absComps E.cwd dstdir → q ≠ absComps E.cwd dstdir ++ [w] → look s' q = look s q := by
  obtain ⟨rl, hlast, hd0, hstored, _, _⟩ := h.last
  have hd := hd0.sorted
  have hklt : k < trees.length := by
    by_contra hc
    rw [List.getElem?_eq_none (by omega)] at hk
    cases hk
  have hsetup := h.setup hlib (version := version) hklt hversion hlast
  have hcp : ∀ c ∈ listed rl.inv.sorted.manifestD, ∃ ws, LogicalPath ws c := by
    intro c hc
    rw [hd.parsed.good.manifestD] at hc
    obtain ⟨d, hl⟩ := mem_listed.mp hc
    obtain ⟨v, ws, b, _, _, h3, h4, _⟩ := hd.segs hl
    exact ⟨_, by simp, h3, h4⟩
  have hstate : ∀ d p, Lists (rl.inv.sorted.stateOf (styleName none (k + 1))) d p ↔
      ∃ r b, t r b ∧ p = pathOf r ∧ fileDigest E.raw rl.alg b = some d := by
    intro d p
    rw [hd.parsed.good.stateIn]
    exact (hd.states k t hk).2 d p
  have hok := hd.ok t (List.mem_of_getElem? hk)
  obtain ⟨_, _, _, _, _, _, _, _, _, hx, _, _, _, _, md, hmd⟩ := extractSetup_ok hlib hsetup
  have hpl : pathOf (segs ++ [w]) ∈ listed (rl.inv.sorted.stateOf (styleName none (k + 1))) :=
    mem_listed.mpr ⟨_, (hstate _ _).mpr ⟨_, b, hf, rfl, fileDigest_known E.raw hd.parsed.good.algName b⟩⟩
  obtain ⟨c, hc⟩ : ∃ c, (c, pathOf (segs ++ [w])) ∈ extractItems rl.inv.sorted.manifestD (rl.inv.sorted.stateOf (styleName none (k + 1))) := by
    rw [← extractItems_snd rl.inv.sorted.manifestD] at hpl
    obtain ⟨⟨c, p⟩, h1, h2⟩ := List.mem_map.mp hpl
    exact ⟨c, by dsimp only at h2; rw [← h2]; exact h1⟩
  have hfind := extractItems_first hx hc
  obtain ⟨d, hl1, hl2⟩ := (hx.item hc).2
  obtain ⟨ws, hws⟩ := hcp c (mem_listed.mpr ⟨d, hl2⟩)
  have hrc := (logical_resolve hws (absComps E.cwd objdir)).1
  -- the content
  have hlook : look s (FS.resolve (absComps E.cwd objdir) c) = some (.file b) := by
    rw [hd.parsed.good.manifestD] at hl2
    obtain ⟨r, b1, h1, h2, h3⟩ := (hstate d _).mp hl1
    have e1 := pathOf_inj' (hok.names _ _ hf) (hok.names r b1 h1) h2
    subst e1
    have := hok.functional _ _ _ hf h1
    subst this
    obtain ⟨_, _, b', _, _, _, _, _, k1, k2, k3⟩ := hd.segs hl2
    have : b = b' := noCollision_digest hno hd.parsed.good.algName ⟨t, List.mem_of_getElem? hk, _, h1⟩ k3 (by rw [h3, k2])
    subst this
    exact k1
  have hsw : SafeName w := (hok.names _ _ hf).2 w (by simp)
  have hb : osBasename (pathOf (segs ++ [w])) = w := by
    rw [← joinWith_eq_pathOf]
    exact osBasename_join (fun x hx' => SafeName.isComp ((hok.names _ _ hf).2 x (by simp [hx']))) (SafeName.isComp hsw)
  obtain ⟨s1, h1⟩ := run_openObjCreate_ok hcwd h.wf hp
  obtain ⟨-, hw1, _, _, hl⟩ := run_openObjCreate hcwd h.wf h1
  have hbd : look s (absComps E.cwd objdir) = some .dir := h.isDir
  have hne : FS.resolve (absComps E.cwd objdir) c ≠ absComps E.cwd dstdir ++ [w] := by
    rw [hrc]
    intro he
    have hpre : absComps E.cwd objdir <+: absComps E.cwd dstdir ++ [w] := by rw [← he]; exact List.prefix_append _ _
    rcases prefix_concat.mp hpre with h | h
    · exact hfree (by rw [← h]; exact hbd)
    · exact hout h
  have hlook1 : look s1 (FS.resolve (absComps E.cwd objdir) c) = some (.file b) := by
    rw [hl, if_neg (by rintro ⟨_, he⟩; rw [hlook] at he; cases he)]
    exact hlook
  have hdst1 : look s1 (absComps E.cwd dstdir) = some .dir := by
    rw [hl]
    rcases hdst with h | h
    · rw [if_pos ⟨rfl, h⟩]
    · rw [if_neg (by rintro ⟨_, he⟩; rw [h] at he; cases he)]; exact h
  have hfree1 : look s1 (absComps E.cwd dstdir ++ [w]) ≠ some .dir := by
    rw [hl, if_neg (by rintro ⟨he, _⟩; have := congrArg List.length he; simp at this)]
    exact hfree
  obtain ⟨s2, h2⟩ : ∃ s2, FS.exec (.write (absComps E.cwd dstdir ++ [w]) b) s1 = (s2, .ok ()) :=
    ⟨_, FS.exec_write hfree1 (by rw [List.dropLast_concat]; exact hdst1)⟩
  have hrun : run (Ocfl.extractFile E objdir version dstdir (pathOf (segs ++ [w]))) s = (s2, .ok md) := by
    unfold Ocfl.extractFile
    rw [run_bind_ok (s1 := s) (a := (absComps E.cwd objdir, rl.inv.sorted, styleName none (k + 1))) (by rw [run_look, hsetup]),
      run_bind_ok h1]
    dsimp only
    rw [hfind, run_bind_ok (s1 := s1) (a := c) rfl, hb, resolve_name _ hsw, run_bind_ok (s1 := s2) (a := ())
      (by rw [run_copyfile hne hlook1]; exact h2), hmd]
    rfl
  obtain ⟨_, _, _, hs'⟩ := exec_write_ok h2
  have hne2 : absComps E.cwd dstdir ++ [w] ≠ [] := by simp
  refine ⟨s2, md, hrun, versionMetadata_version hmd, ?_, fun q hq1 hq2 => ?_⟩
  · rw [hs', look_set hne2, if_pos rfl]
  · rw [hs', look_set hne2, if_neg hq2, hl, if_neg (fun h => hq1 h.1)]

end Ocfl
