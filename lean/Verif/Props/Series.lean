import Verif.Spec.Series
import Verif.Props.UpdateSucceeds
import Verif.Props.Update

/-!
# C116: an object can be updated again and again
-/

namespace Ocfl

open Spec FS Prog Ocfl.Inv Validator

/-- Nothing changes outside the object. -/
theorem update_keeps_outside {E : Env} (hE : Libraries E) {o : Obj} {objdir : Str} {srcdir : Option Str} {metadata : Option VBlock} {abort : Bool} {s s' : FS}
    {x : Py (Option Inv)} (hw : s.WF) (hr : run (addVersionWithContent E o objdir srcdir metadata abort) s = (s', x)) {q : Path}
    (hq : ¬ absComps E.cwd objdir <+: q) : look s' q = look s q := by
  have hv := visits_run (addVersionWithContent E o objdir srcdir metadata abort) s
  rw [hr] at hv
  rcases C23_update hE.json hE.hash hw hv with h | ⟨_, _, _, _, _, _, h⟩
  · rw [show s' = s from h]
  · exact Spec.OnlyAdds.outside h hq

/-- Two directories that are apart. -/
theorem apart_from_below {a b : Path} (h1 : ¬ a <+: b) (h2 : ¬ b <+: a) (r : Path) : ¬ a <+: b ++ r := by
  intro h
  rcases List.prefix_or_prefix_of_prefix h (List.prefix_append b r) with h' | h'
  · exact h1 h'
  · exact h2 h'

theorem Spec.GoodUpdate.later {E : Env} {objdir : Str} {s s' : FS} {u : Obj × Str × Option VBlock} (h : GoodUpdate E objdir s u)
    (hf : ∀ q, ¬ absComps E.cwd objdir <+: q → look s' q = look s q) :
    GoodUpdate E objdir s' u ∧ FileBelow s' (absComps E.cwd u.2.1) = FileBelow s (absComps E.cwd u.2.1) := by
  have e : FileBelow s' (absComps E.cwd u.2.1) = FileBelow s (absComps E.cwd u.2.1) := by
    funext r b
    unfold FileBelow
    rw [hf _ (apart_from_below h.outside h.around r)]
  exact ⟨⟨h.algorithm, h.lax, h.norm, h.block, by rw [hf _ h.outside]; exact h.isDir, by rw [e]; exact h.names, h.outside, h.around⟩, e⟩

/-- **C116**: an object made by the library that declares version 1.1 can be updated any number of times, up to version
99999, each time with other settings, with another digest algorithm and from any source directory apart from the object.
None of the updates raises, and afterwards the object is valid and every version, old or new, extracts to exactly the files it was made from.

What is missing: content directories called like the inventory or a sidecar, and lax mode; and for objects of version
1.0 an update of an object of three versions raises (`C66_violated`). -/
theorem C116_partial {E : Env} (hE : Libraries E) (hcwd : ∀ w ∈ E.cwd, SafeName w) {objdir : Str} :
    ∀ {us : List (Obj × Str × Option VBlock)} {trees : List Tree} {s : FS}, History E (absComps E.cwd objdir) trees s →
    look s (absComps E.cwd objdir ++ [c!"0=ocfl_object_1.1"]) ≠ none → (∀ u ∈ us, GoodUpdate E objdir s u) →
    NoCollision E.raw (InTrees (trees ++ sourceTrees E s us)) → trees.length + us.length ≤ 99999 →
    (∀ inv, parseInventory E (absComps E.cwd objdir) s = .ok inv → inv.contentDirectoryToUse ≠ inventoryFilename ∧
      ∀ u ∈ us, inv.contentDirectoryToUse ≠ sidecarName u.1.digestAlgorithm) →
    ∃ s', run (updateAll E objdir us) s = (s', .ok ()) ∧ History E (absComps E.cwd objdir) (trees ++ sourceTrees E s us) s' ∧
      (∀ cfg : Config, cfg.lax = false → ∃ es, validateObject E cfg 0 s' objdir = .ok (true, es)) ∧
      (∀ q, ¬ absComps E.cwd objdir <+: q → look s' q = look s q) ∧
      ∀ k t, (trees ++ sourceTrees E s us)[k]? = some t → ∀ dstdir, ¬ absComps E.cwd objdir <+: absComps E.cwd dstdir →
        look s' (dstParent E dstdir) = some .dir → Vacant s' (absComps E.cwd dstdir) →
        ∃ s'' md, run (extract E objdir (styleName none (k + 1)) dstdir) s' = (s'', .ok md) ∧
          ∀ r b, FileBelow s'' (absComps E.cwd dstdir) r b ↔ t r b
  | [], trees, s, h, hdecl, _, hno, hlen, _ => by
    rw [show sourceTrees E s [] = [] from rfl, List.append_nil] at hno ⊢
    refine ⟨s, rfl, h, (C66_partial hE hcwd h hno (by simpa using hlen)).2 hdecl, fun _ _ => rfl, ?_⟩
    intro k t hk dstdir hout hp hv
    obtain ⟨s'', md, h1, h2, _⟩ := C22_partial hE.json hE.hash hE.word hcwd h hno (by simpa using hlen) hk (Or.inl rfl) hout hp hv
    exact ⟨s'', md, h1, h2⟩
  | (o, srcdir, metadata) :: us, trees, s, h, hdecl, hgood, hno, hlen, hcd => by
    rw [List.length_cons] at hlen
    have hu := hgood _ List.mem_cons_self
    have hno0 : NoCollision E.raw (InTrees trees) := NoCollision.mono hno (fun b hb => by
      obtain ⟨t, ht, hb⟩ := hb
      exact ⟨t, List.mem_append_left _ ht, hb⟩)
    obtain ⟨s1, x, hr, hx⟩ := update_returns hE hcwd h hno0 (by omega) hu.algorithm hu.lax hu.norm hu.block hu.isDir (by
      intro inv hp
      obtain ⟨h1, h2⟩ := hcd inv hp
      exact ⟨h1, h2 _ List.mem_cons_self, Or.inr hu.around⟩) (Or.inl hdecl) false
    obtain ⟨inv, rfl⟩ := hx rfl
    obtain ⟨dv, recs, hs⟩ := history_sound hE.json hE.hash hE.word hcwd h hno0 (by omega)
    obtain ⟨r, hri, _, hs1⟩ := hs.update hE.json hE.hash hu.algorithm hu.block hno0 (by omega) rfl hu.names hr
    have h1 : History E (absComps E.cwd objdir) (trees ++ [FileBelow s (absComps E.cwd srcdir)]) s1 :=
      .update h hu.algorithm hu.block rfl hu.names hr
    have hf : ∀ q, ¬ absComps E.cwd objdir <+: q → look s1 q = look s q := fun q hq => update_keeps_outside hE hs.wf hr hq
    have htrees : sourceTrees E s1 us = sourceTrees E s us := by
      unfold sourceTrees
      exact List.map_congr_left (fun u hm => ((hgood u (List.mem_cons_of_mem _ hm)).later hf).2)
    have hall : trees ++ sourceTrees E s ((o, srcdir, metadata) :: us) = (trees ++ [FileBelow s (absComps E.cwd srcdir)]) ++ sourceTrees E s1 us := by
      rw [htrees]
      simp [sourceTrees]
    rw [hall] at hno ⊢
    obtain ⟨rl, hlast, hdl, hroot, _, _⟩ := hs.last
    have hcd1 : ∀ inv', parseInventory E (absComps E.cwd objdir) s1 = .ok inv' → inv'.contentDirectoryToUse = rl.inv.contentDirectoryToUse := by
      intro inv' hp
      obtain ⟨r', hlast', hd', hroot', _, _⟩ := hs1.last
      rw [parse_written hE.json hd'.parsed hroot'.1] at hp
      cases hp
      have hsame := (hs1.same r' (List.mem_of_getLast? hlast') rl (List.mem_append_left _ (List.mem_of_getLast? hlast))).2
      show (r'.inv.sorted).contentDirectory.getD _ = rl.inv.contentDirectory.getD _
      exact congrArg (fun c : Option Str => c.getD _) hsame
    obtain ⟨k1, k2⟩ := hcd _ (parse_written hE.json hdl.parsed hroot.1)
    obtain ⟨s2, h2, h3, hval, h4, h5⟩ := C116_partial hE hcwd (us := us) h1 (hs1.declared.mpr (hs.declared.mp hdecl))
      (fun u hm => ((hgood u (List.mem_cons_of_mem _ hm)).later hf).1) hno (by simp only [List.length_append, List.length_singleton]; omega) (by
        intro inv' hp
        rw [hcd1 inv' hp]
        exact ⟨k1, fun u hm => k2 u (List.mem_cons_of_mem _ hm)⟩)
    refine ⟨s2, ?_, h3, hval, fun q hq => (h4 q hq).trans (hf q hq), h5⟩
    show run (Prog.bind _ _) s = _
    rw [run_bind_ok hr]
    exact h2

/-- Three updates of the object of one version, two of them with another digest algorithm. -/
def demoSeries : List (Obj × Str × Option VBlock) :=
  [(demoObj, c!"src", some demoMeta), ({ demoObj with digestAlgorithm := c!"sha512" }, c!"src", some demoMeta), (demoObj, c!"src", some demoMeta)]

theorem demoSeries_good (u : Obj × Str × Option VBlock) (hu : u ∈ demoSeries) : GoodUpdate demoEnv c!"obj" demoChanged u := by
  unfold demoSeries at hu
  simp only [List.mem_cons, List.not_mem_nil, or_false] at hu
  rcases hu with rfl | rfl | rfl
  · exact ⟨Or.inr rfl, rfl, Or.inr (Or.inr rfl), demoMeta_good, by decide +kernel, (fun h => nomatch h), by decide +kernel, by decide +kernel⟩
  · exact ⟨Or.inl rfl, rfl, Or.inr (Or.inr rfl), demoMeta_good, by decide +kernel, (fun h => nomatch h), by decide +kernel, by decide +kernel⟩
  · exact ⟨Or.inr rfl, rfl, Or.inr (Or.inr rfl), demoMeta_good, by decide +kernel, (fun h => nomatch h), by decide +kernel, by decide +kernel⟩

example : ∃ s', run (updateAll demoEnv c!"obj" demoSeries) demoChanged = (s', .ok ()) ∧ History demoEnv (absComps demoEnv.cwd c!"obj")
    ([FileBelow demoFS (absComps demoEnv.cwd c!"src")] ++ sourceTrees demoEnv demoChanged demoSeries) s' := by
  obtain ⟨s', h1, h2, _⟩ := C116_partial demoLibraries demoEnv_cwd demoChanged_history (by decide +kernel) demoSeries_good
    (NoCollision.mono demo_noCollision (fun b ⟨t, ht, h⟩ => ⟨t, by
      simp only [demoSeries, sourceTrees, List.map_cons, List.map_nil, List.cons_append, List.nil_append, List.mem_cons, List.not_mem_nil, or_false] at ht
      rcases ht with rfl | rfl | rfl | rfl <;> simp [demoTrees], h⟩)) (by decide) (by
    intro inv hp
    have hk : (match parseInventory demoEnv (absComps demoEnv.cwd c!"obj") demoChanged with
      | .ok inv => decide (inv.contentDirectoryToUse ≠ inventoryFilename ∧ inv.contentDirectoryToUse ≠ sidecarName c!"sha512" ∧
          inv.contentDirectoryToUse ≠ sidecarName c!"sha256")
      | .error _ => false) = true := by decide +kernel
    rw [hp] at hk
    obtain ⟨h1, h2, h3⟩ := of_decide_eq_true hk
    refine ⟨h1, fun u hu => ?_⟩
    rcases (demoSeries_good u hu).algorithm with h | h
    · rw [h]; exact h2
    · rw [h]; exact h3)
  exact ⟨s', h1, h2⟩

end Ocfl
