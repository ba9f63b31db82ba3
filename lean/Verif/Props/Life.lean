import Verif.Props.Series
import Verif.Props.CreateSucceeds
import Verif.Proofs.Jobs

/-!
# C117: the life of an object
-/

namespace Ocfl

open Spec FS Prog Ocfl.Inv Validator

/-- `create` changes nothing outside the object directory. -/
theorem create_keeps_outside {E : Env} (hE : Libraries E) (hcwd : ∀ w ∈ E.cwd, SafeName w) {o : Obj} (ho : GoodSettings o) {srcdir objdir : Str}
    {metadata : Option VBlock} (hmeta : GoodMeta metadata) {s s' : FS} (hw : s.WF) (hvac : Vacant s (absComps E.cwd objdir))
    (hpar : look s (absComps E.cwd (osPathSplit objdir).1) = some .dir) {x : Py Inv}
    (hr : run (create E o srcdir metadata (some objdir)) s = (s', x)) {q : Path} (hq : ¬ absComps E.cwd objdir <+: q) :
    look s' q = look s q := by
  have hready : Job.Ready E s (.create o srcdir metadata objdir) := .create ho hmeta hpar hvac
  have hv := visits_run ((Job.create o srcdir metadata objdir).after E s) s
  have he : run ((Job.create o srcdir metadata objdir).after E s) s = run ((Job.create o srcdir metadata objdir).prog E) s := by
    rw [Spec.Job.prog_get]; rfl
  rw [he, show run ((Job.create o srcdir metadata objdir).prog E) s = (s', x) from hr] at hv
  exact (hready.tame hE hcwd hw).frame s s' hw (fun _ _ => rfl) hv q hq

/-- The content directory of a new object is the one of the settings. -/
theorem create_contentDirectory {E : Env} {o : Obj} (ho : GoodSettings o) {srcdir objdir : Str} {metadata : Option VBlock} (hmeta : GoodMeta metadata)
    {s s' : FS} (hw : s.WF) {inv : Inv} (hr : run (create E o srcdir metadata (some objdir)) s = (s', .ok inv)) :
    inv.contentDirectoryToUse = o.contentDirectory := by
  obtain ⟨src, nv, hp, rfl, _⟩ := create_inv hr
  obtain ⟨nv0, srcs, hf⟩ := prepareFirst_ok hw ho hmeta hp
  rw [contentDirectory_added hf.added, hf.contentDirectory]

/-- **C117**: an object is created for version 1.1 and then updated any number of times. No call raises, the object is valid
in the end, nothing outside it has changed, and every version extracts to exactly the files that its source directory has.

What is missing: content directories called like the inventory or a sidecar, lax mode, and sources that contain the object;
for version 1.0 see `C66_violated`, for a first version without files `C21_violated_empty`. -/
theorem C117_partial {E : Env} (hE : Libraries E) (hcwd : ∀ w ∈ E.cwd, SafeName w) {o : Obj} (ho : GoodSettings o) (hid : o.id ≠ none)
    (hspec : o.specVersion = c!"1.1") (hnorm : o.norm = none ∨ o.norm = some c!"md5" ∨ o.norm = some c!"uri")
    (hci : o.contentDirectory ≠ inventoryFilename) (hc1 : o.contentDirectory ≠ sidecarName c!"sha512")
    (hc2 : o.contentDirectory ≠ sidecarName c!"sha256") {srcdir objdir : Str} {metadata : Option VBlock} (hmeta : GoodMeta metadata) {s : FS} (hw : s.WF)
    (hsrc : look s (absComps E.cwd srcdir) = some .dir) (hvac : Vacant s (absComps E.cwd objdir))
    (hpar : look s (absComps E.cwd (osPathSplit objdir).1) = some .dir) (hfile : ∃ r b, FileBelow s (absComps E.cwd srcdir) r b)
    (hnames : NamesAllowed o (FileBelow s (absComps E.cwd srcdir))) {us : List (Obj × Str × Option VBlock)} (hgood : ∀ u ∈ us, GoodUpdate E objdir s u)
    (hno : NoCollision E.raw (InTrees (FileBelow s (absComps E.cwd srcdir) :: sourceTrees E s us))) (hlen : 1 + us.length ≤ 99999) :
    ∃ s', run (life E o srcdir objdir metadata us) s = (s', .ok ()) ∧
      (∀ cfg : Config, cfg.lax = false → ∃ es, validateObject E cfg 0 s' objdir = .ok (true, es)) ∧
      (∀ q, ¬ absComps E.cwd objdir <+: q → look s' q = look s q) ∧
      ∀ k t, (FileBelow s (absComps E.cwd srcdir) :: sourceTrees E s us)[k]? = some t → ∀ dstdir, ¬ absComps E.cwd objdir <+: absComps E.cwd dstdir →
        look s' (dstParent E dstdir) = some .dir → Vacant s' (absComps E.cwd dstdir) →
        ∃ s'' md, run (extract E objdir (styleName none (k + 1)) dstdir) s' = (s'', .ok md) ∧
          ∀ r b, FileBelow s'' (absComps E.cwd dstdir) r b ↔ t r b := by
  have hcs : ∀ a, a = c!"sha512" ∨ a = c!"sha256" → o.contentDirectory ≠ sidecarName a := by
    rintro a (rfl | rfl)
    · exact hc1
    · exact hc2
  obtain ⟨s1, inv, hr⟩ := create_succeeds hE.hash hE.word hcwd ho hid hnorm hci (hcs _ ho.algorithm) hmeta hw hsrc hvac hpar
  have h1 : History E (absComps E.cwd objdir) [FileBelow s (absComps E.cwd srcdir)] s1 := .create hw ho hmeta rfl hvac hfile hnames hr
  have hf : ∀ q, ¬ absComps E.cwd objdir <+: q → look s1 q = look s q := fun q hq => create_keeps_outside hE hcwd ho hmeta hw hvac hpar hr hq
  obtain ⟨r, hri, _, hs⟩ := sound_create hE.hash hE.word hcwd ho hmeta hw hvac hfile hnames hr
  have htrees : sourceTrees E s1 us = sourceTrees E s us := List.map_congr_left (fun u hm => ((hgood u hm).later hf).2)
  have hdecl : look s1 (absComps E.cwd objdir ++ [c!"0=ocfl_object_1.1"]) ≠ none := hs.declared.mpr hspec.symm
  rw [← htrees] at hno ⊢
  obtain ⟨s2, h2, _, hval, h4, h5⟩ := C116_partial hE hcwd (us := us) h1 hdecl (fun u hm => ((hgood u hm).later hf).1) hno (by simpa using hlen) (by
    intro inv' hp
    obtain ⟨r', hlast, hd, hroot, _, _⟩ := hs.last
    have hrr : r = r' := Option.some.inj hlast
    subst hrr
    rw [parse_written hE.json hd.parsed hroot.1] at hp
    cases hp
    rw [sorted_contentDirectory, hri, create_contentDirectory ho hmeta hw hr]
    exact ⟨hci, fun u hm => hcs _ (hgood u hm).algorithm⟩)
  refine ⟨s2, ?_, hval, fun q hq => (h4 q hq).trans (hf q hq), h5⟩
  show run (Prog.bind _ _) s = _
  rw [run_bind_ok hr]
  exact h2

/-- The example: an object is created, and then updated three times, two times with another digest algorithm. -/
example : ∃ s', run (life demoEnv demoObj c!"src" c!"obj" (some demoMeta) demoSeries) demoFS = (s', .ok ()) ∧
    (∀ cfg : Config, cfg.lax = false → ∃ es, validateObject demoEnv cfg 0 s' c!"obj" = .ok (true, es)) := by
  have hgood : ∀ u ∈ demoSeries, GoodUpdate demoEnv c!"obj" demoFS u := by
    intro u hu
    have h := demoSeries_good u hu
    have hd : u.2.1 = c!"src" := by
      simp only [demoSeries, List.mem_cons, List.not_mem_nil, or_false] at hu
      rcases hu with rfl | rfl | rfl <;> rfl
    have hn : u.1.norm = some c!"uri" := by
      simp only [demoSeries, List.mem_cons, List.not_mem_nil, or_false] at hu
      rcases hu with rfl | rfl | rfl <;> rfl
    refine ⟨h.algorithm, h.lax, h.norm, h.block, ?_, (fun h0 => by rw [hn] at h0; cases h0), h.outside, h.around⟩
    rw [hd]
    decide +kernel
  have htrees : ∀ t ∈ sourceTrees demoEnv demoFS demoSeries, t = FileBelow demoFS (absComps demoEnv.cwd c!"src") := by
    intro t ht
    simp only [demoSeries, sourceTrees, List.map_cons, List.map_nil, List.mem_cons, List.not_mem_nil, or_false] at ht
    rcases ht with rfl | rfl | rfl <;> rfl
  obtain ⟨s', h1, h2, _⟩ := C117_partial demoLibraries demoEnv_cwd (o := demoObj) (srcdir := c!"src") (objdir := c!"obj")
    ⟨by decide, by decide, Or.inr rfl, by decide, by rintro l hl; cases hl⟩ (by decide) rfl (Or.inr (Or.inr rfl)) (by decide) (by decide) (by decide)
    demoMeta_good demoFS_wf (by decide +kernel) demo_vacant_obj (by decide +kernel) ⟨[c!"a.txt"], [1, 2, 3], by simp, by decide +kernel⟩
    (fun h => nomatch h) hgood (NoCollision.mono demo_noCollision (fun b ⟨t, ht, h⟩ => ⟨t, by
      rcases List.mem_cons.mp ht with rfl | ht
      · simp [demoTrees]
      · rw [htrees t ht]; simp [demoTrees], h⟩)) (by decide)
  exact ⟨s', h1, h2⟩

end Ocfl
