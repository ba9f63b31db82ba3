import Verif.Proofs.ExtractMore
import Verif.Props.ExampleObject

/-!
# Properties of `ocfl/object.py`: extraction

C20 and C69.
-/

namespace Ocfl

open Spec FS Prog Ocfl.Inv

/-! ## C20 -/

/-- C20: after `extract(objdir, version, dstdir)` has succeeded, the destination, which was empty or
not there, holds exactly the files of the version: at each logical path the bytes of a content file
of the stored object that the manifest lists for its digest, and no directory that is not above
such a file. Nothing else has changed.

Two things are assumed. The destination is not in the object: `C20_inside` shows that the object
changes otherwise. The content paths are relative paths: an inventory that passes validation may
have a content path that leaves the object (`C32_newline`). -/
theorem C20_partial {E : Env} (hlib : E.lib.Lawful) (hcwd : ∀ w ∈ E.cwd, SafeName w) {s s' : FS} (hw : s.WF)
    {objdir version dstdir : Str} {md : VMeta}
    (hout : ¬ absComps E.cwd objdir <+: absComps E.cwd dstdir)
    (hcp : PlainContent E.lib s (absComps E.cwd objdir ++ [inventoryFilename]))
    (hr : run (extract E objdir version dstdir) s = (s', .ok md)) :
    ∃ j m vs states v, StoredJson E.lib s (absComps E.cwd objdir ++ [inventoryFilename]) j ∧
      View j m vs states ∧ Selects j vs version v ∧ Vacant s (absComps E.cwd dstdir) ∧
      Extracted s s' (absComps E.cwd objdir) (absComps E.cwd dstdir) m (states v) := by
  obtain ⟨_, inv, v, _, _, j, m, vs, states, h1, h2, h3, h4, _, h5⟩ := run_extract hlib hcwd hw hout hcp hr
  exact ⟨j, m, vs, states, v, h1, h2, h3, h4, h5⟩

/-- C20, whatever the outcome and at every moment on the way: what is there and not in the
destination, such as the stored object, does not change. -/
theorem C20_untouched {E : Env} (hlib : E.lib.Lawful) (hcwd : ∀ w ∈ E.cwd, SafeName w) {s s' : FS} (hw : s.WF)
    {objdir version dstdir : Str} {q : Path} (hq : ¬ absComps E.cwd dstdir <+: q) (hl : FS.look s q ≠ none)
    (hv : Visits (extract E objdir version dstdir) s s') : FS.look s' q = FS.look s q :=
  extract_visits hlib hcwd hw hq hl hv

/-- C20: with something at the destination other than an empty directory, there is an exception,
and nothing is written. -/
theorem C20_refuses {E : Env} {s : FS} (hw : s.WF) {objdir version dstdir : Str}
    (hv : ¬ Vacant s (absComps E.cwd dstdir)) :
    (∃ e, run (extract E objdir version dstdir) s = (s, .error e)) ∧
    ∀ s', Visits (extract E objdir version dstdir) s s' → s' = s :=
  extract_refuses hw hv

/-- C20: extraction succeeds when the inventory is accepted and the version is in it, the directory
above the destination is there and the destination is empty or not there, all the content is there,
and no logical path is below another. -/
theorem C20_succeeds {E : Env} (hlib : E.lib.Lawful) (hcwd : ∀ w ∈ E.cwd, SafeName w) {s : FS} (hw : s.WF)
    {objdir version dstdir : Str} (hset : ∃ r, extractSetup E objdir version s = .ok r)
    (hout : ¬ absComps E.cwd objdir <+: absComps E.cwd dstdir)
    (hcp : PlainContent E.lib s (absComps E.cwd objdir ++ [inventoryFilename]))
    (hp : FS.look s (dstParent E dstdir) = some .dir) (hvac : Vacant s (absComps E.cwd dstdir))
    (hcontent : ∀ j m c ws, StoredJson E.lib s (absComps E.cwd objdir ++ [inventoryFilename]) j →
      Member j c!"manifest" (ofDigestMap m) → c ∈ listed m → LogicalPath ws c →
      ∃ b, FS.look s (absComps E.cwd objdir ++ ws) = some (.file b))
    (hnest : ∀ j m vs states v, StoredJson E.lib s (absComps E.cwd objdir ++ [inventoryFilename]) j → View j m vs states →
      Selects j vs version v → ∀ ps qs, pathOf ps ∈ listed (states v) → pathOf qs ∈ listed (states v) → ps <+: qs → ps = qs) :
    ∃ s' md, run (extract E objdir version dstdir) s = (s', .ok md) := by
  obtain ⟨⟨base, inv, v⟩, hset⟩ := hset
  obtain ⟨rfl, _, j, m0, vs0, states, hst, hview, hsel, hx, hres, hlst, hlm, _⟩ := extractSetup_ok hlib hset
  have hcp' : ∀ c ∈ listed inv.manifestD, ∃ ws, LogicalPath ws c :=
    fun c hc => hcp j m0 c hst hview.manifest ((hlm c).mp hc)
  refine extract_succeeds hlib hcwd hw hset hout hcp' hp hvac ?_ ?_
  · rintro p c ⟨d, _, hl⟩
    have hc := mem_listed.mpr ⟨d, hl⟩
    obtain ⟨ws, hws⟩ := hcp' c hc
    rw [(logical_resolve hws _).1]
    exact hcontent j m0 c ws hst hview.manifest ((hlm c).mp hc) hws
  · intro p hp q hq ps qs hps hqs hpre
    refine hnest j m0 vs0 states v hst hview hsel ps qs ?_ ?_ hpre
    · rw [← hps.2.2]; exact (hlst p).mp hp
    · rw [← hqs.2.2]; exact (hlst q).mp hq

/-! An object is made and extracted. -/

/-- The content paths that the inventory at a path lists, if it can be read. -/
def storedPaths (lib : JsonLib) (s : FS) (p : Path) : Option (List Str) :=
  match FS.look s p with
  | some (.file b) =>
    ((utf8Decode b).bind (fun t => lib.loads (univNewlines t))).map (fun j => listed (Inv.ofJson j).manifestD)
  | _ => none

theorem plainContent_of {lib : JsonLib} (hlib : lib.Lawful) {s : FS} {p : Path} {l : List Str} (h : storedPaths lib s p = some l)
    (hl : ∀ c ∈ l, ∀ w ∈ splitOn '/' c, SafeName w) : PlainContent lib s p := by
  rintro j m c ⟨b, t, h1, h2, h3⟩ hm hc
  have hwf := hlib.wf _ _ h3
  unfold storedPaths at h
  rw [h1] at h
  dsimp only at h
  rw [h2, Option.bind_some, h3, Option.map_some] at h
  have hj : (Inv.ofJson j).manifestD = m := by
    unfold Inv.manifestD
    simp only [Inv.ofJson, field_of_member hwf hm, Option.map_some]
    exact DigestMap.ofJson_toJson m
  rw [hj] at h
  cases h
  exact ⟨splitOn '/' c, splitOn_ne_nil _ _, hl c hc, (pathOf_splitOn c).symm⟩

theorem demo_plain : PlainContent demoEnv.lib demoMade (absComps demoEnv.cwd c!"obj" ++ [inventoryFilename]) :=
  plainContent_of demoEnv_lawful (l := [c!"v1/content/d/b", c!"v1/content/a.txt"]) (by decide +kernel) (by decide)

/-- The state after the extraction. -/
def demoOut : FS := (run (extract demoEnv c!"obj" c!"head" c!"out") demoMade).1

/-- C20 on an object with two content files and three logical paths. -/
example : ∃ j m vs states v, StoredJson demoEnv.lib demoMade (absComps demoEnv.cwd c!"obj" ++ [inventoryFilename]) j ∧
    View j m vs states ∧ Selects j vs c!"head" v ∧ Vacant demoMade (absComps demoEnv.cwd c!"out") ∧
    Extracted demoMade (run (extract demoEnv c!"obj" c!"head" c!"out") demoMade).1 (absComps demoEnv.cwd c!"obj")
      (absComps demoEnv.cwd c!"out") m (states v) := by
  obtain ⟨md, h⟩ := succeeded_ok (r := run (extract demoEnv c!"obj" c!"head" c!"out") demoMade) (by decide +kernel)
  exact C20_partial demoEnv_lawful demoEnv_cwd demoMade_wf (by decide +kernel) demo_plain h

example : FS.look demoOut [c!"w", c!"out", c!"a.txt"] = some (.file [1, 2, 3]) ∧
    FS.look demoOut [c!"w", c!"out", c!"d", c!"b"] = some (.file [4]) ∧
    FS.look demoOut [c!"w", c!"out", c!"d", c!"c"] = some (.file [1, 2, 3]) := by decide +kernel

/-- C20_refuses: the source directory is not empty. -/
example : ¬ Vacant demoMade (absComps demoEnv.cwd c!"src") := by
  intro h
  exact absurd (h.2 [c!"a.txt"] (by simp)) (by decide +kernel)

/-- The destination may be in the object, which is no longer as it was. -/
theorem C20_inside :
    succeeded (run (extract demoEnv c!"obj" c!"head" c!"obj/out") demoMade) = true ∧
    FS.look demoMade (absComps demoEnv.cwd c!"obj" ++ [c!"out", c!"a.txt"]) = none ∧
    FS.look (run (extract demoEnv c!"obj" c!"head" c!"obj/out") demoMade).1
      (absComps demoEnv.cwd c!"obj" ++ [c!"out", c!"a.txt"]) = some (.file [1, 2, 3]) := by
  decide +kernel

/-! ## C69 -/

/-- C69: when a version has been extracted to one directory and a logical path of it, `dir/…/name`,
by `extract_file` to another, then the file `name` in the latter has the bytes of the file at the
logical path in the former. -/
theorem C69 {E : Env} (hlib : E.lib.Lawful) (hcwd : ∀ w ∈ E.cwd, SafeName w) {s s1 s2 : FS} (hw : s.WF)
    {objdir version dst1 dst2 p : Str} {md1 md2 : VMeta}
    (hout1 : ¬ absComps E.cwd objdir <+: absComps E.cwd dst1) (hout2 : ¬ absComps E.cwd objdir <+: absComps E.cwd dst2)
    (hcp : PlainContent E.lib s (absComps E.cwd objdir ++ [inventoryFilename]))
    (h1 : run (extract E objdir version dst1) s = (s1, .ok md1))
    (h2 : run (extractFile E objdir version dst2 p) s = (s2, .ok md2)) :
    ∃ segs w b, LogicalPath (segs ++ [w]) p ∧ FS.look s1 (absComps E.cwd dst1 ++ (segs ++ [w])) = some (.file b) ∧
      FS.look s2 (absComps E.cwd dst2 ++ [w]) = some (.file b) ∧ md1 = md2 := by
  obtain ⟨_, inv, v, hs1, hitems, _⟩ := run_extract hlib hcwd hw hout1 hcp h1
  obtain ⟨inv2, v2, segs, w, c, b, hs2, hp, hlp, hfind, hb, hb2, _⟩ := run_extractFile hlib hcwd hw hout2 hcp h2
  rw [hs1] at hs2
  cases hs2
  obtain ⟨_, _, j, m0, vs0, states, _, _, _, hx, _, _, _, _, md, hmd⟩ := extractSetup_ok hlib hs1
  obtain ⟨segs', c', b', hlp', hi, hb', hb1⟩ := hitems p hp
  rw [extractItems_first hx hi] at hfind
  cases hfind
  rw [hb] at hb'
  cases hb'
  have : segs' = segs ++ [w] := by rw [← split_logical hlp', ← split_logical hlp]
  subst this
  exact ⟨segs, w, b, hlp, hb1, hb2, (extract_md hs1 h1 hmd).trans (extractFile_md hs1 h2 hmd).symm⟩

/-- C69: the file that `extract_file` writes has the bytes of content of the logical path in the
version; nothing else changes, but for the destination directory, which may be new. -/
theorem C69_content {E : Env} (hlib : E.lib.Lawful) (hcwd : ∀ w ∈ E.cwd, SafeName w) {s s' : FS} (hw : s.WF)
    {objdir version dstdir p : Str} {md : VMeta}
    (hout : ¬ absComps E.cwd objdir <+: absComps E.cwd dstdir)
    (hcp : PlainContent E.lib s (absComps E.cwd objdir ++ [inventoryFilename]))
    (hr : run (extractFile E objdir version dstdir p) s = (s', .ok md)) :
    ∃ j m vs states v segs w ws b, StoredJson E.lib s (absComps E.cwd objdir ++ [inventoryFilename]) j ∧
      View j m vs states ∧ Selects j vs version v ∧ p = pathOf (segs ++ [w]) ∧
      Resolves m (states v) p (pathOf ws) ∧ FS.look s (absComps E.cwd objdir ++ ws) = some (.file b) ∧
      FS.look s' (absComps E.cwd dstdir ++ [w]) = some (.file b) ∧
      ∀ q, q ≠ absComps E.cwd dstdir → q ≠ absComps E.cwd dstdir ++ [w] → FS.look s' q = FS.look s q := by
  obtain ⟨inv, v, segs, w, c, b, hs, hp, hlp, hfind, hb, hb2, hq⟩ := run_extractFile hlib hcwd hw hout hcp hr
  obtain ⟨_, _, j, m0, vs0, states, hst, hview, hsel, hx, hres, _, hlm, _⟩ := extractSetup_ok hlib hs
  obtain ⟨d, hd, rfl⟩ := ((findExisting_ok hx (fun _ h => h)).1 c).mp hfind
  have hl := digestFor_some hd
  obtain ⟨f, _, hfo, hlf⟩ := hx.first hl.choose_spec.1
  dsimp only at hfo hlf
  rw [← hfo] at hlf
  have hr : Resolves inv.manifestD (inv.stateOf v) p (firstOf inv.manifestD d) := ⟨d, hl, hlf⟩
  obtain ⟨ws, hws⟩ := hcp j m0 _ hst hview.manifest ((hlm _).mp (mem_listed.mpr ⟨d, hlf⟩))
  refine ⟨j, m0, vs0, states, v, segs, w, ws, b, hst, hview, hsel, hlp.2.2, ?_, ?_, hb2, hq⟩
  · rw [← hws.2.2]; exact (hres _ _).mp hr
  · rw [(logical_resolve hws _).1] at hb; exact hb

/-- C69: a path that is not in the version is refused. -/
theorem C69_refuses {E : Env} (hlib : E.lib.Lawful) {s : FS} {objdir version dstdir p : Str}
    (hp : ∀ j m vs states v, StoredJson E.lib s (absComps E.cwd objdir ++ [inventoryFilename]) j → View j m vs states →
      Selects j vs version v → p ∉ listed (states v)) :
    ∃ s' e, run (extractFile E objdir version dstdir p) s = (s', .error e) := by
  cases hr : run (extractFile E objdir version dstdir p) s with
  | mk s' r =>
    cases r with
    | error e => exact ⟨s', e, rfl⟩
    | ok md =>
      exfalso
      unfold extractFile at hr
      obtain ⟨s1, ⟨base, inv, v⟩, h1, h2⟩ := run_bind_inv hr
      rw [run_look] at h1
      obtain ⟨rfl, h1'⟩ := Prod.mk.inj h1
      obtain ⟨rfl, hbd, j, m0, vs0, states, hst, hview, hsel, hx, hres, hlst, hlm, _⟩ := extractSetup_ok hlib h1'
      obtain ⟨s2, dst, h3, h4⟩ := run_bind_inv h2
      obtain ⟨s3, c, h5, h6⟩ := run_bind_inv h4
      obtain ⟨_, h5'⟩ := Prod.mk.inj (show (s2, _) = (s3, _) from h5)
      have hfind : findExisting inv.manifestD p (inv.stateOf v) = .ok c := h5'
      rw [(findExisting_ok hx (fun _ h => h)).2 (fun h => hp j m0 vs0 states v hst hview hsel ((hlst p).mp h))] at hfind
      cases hfind

/-- C69 on the object of the example. -/
example : ∃ s1 s2 md1 md2, run (extract demoEnv c!"obj" c!"v1" c!"out") demoMade = (s1, .ok md1) ∧
    run (extractFile demoEnv c!"obj" c!"v1" c!"one" c!"d/b") demoMade = (s2, .ok md2) ∧
    FS.look s2 [c!"w", c!"one", c!"b"] = some (.file [4]) := by
  obtain ⟨md1, h1⟩ := succeeded_ok (r := run (extract demoEnv c!"obj" c!"v1" c!"out") demoMade) (by decide +kernel)
  obtain ⟨md2, h2⟩ := succeeded_ok (r := run (extractFile demoEnv c!"obj" c!"v1" c!"one" c!"d/b") demoMade) (by decide +kernel)
  exact ⟨_, _, md1, md2, h1, h2, by decide +kernel⟩

example : (run (extractFile demoEnv c!"obj" c!"v1" c!"one" c!"d/x") demoMade).2 = .error .objectException := by decide +kernel

end Ocfl
