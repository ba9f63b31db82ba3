import Verif.Proofs.CreateSucceeds
import Verif.Props.LibraryValid
import Verif.Props.Missing

/-!
# When `create` succeeds
-/

namespace Ocfl

open Spec FS Prog

/-- **C113**: `create` cannot fail in the middle of an object. If the `Object` has an identifier and settings that
the library supports, the source directory and the parent of the object directory are there and nothing is in the
way, then `create` returns an inventory; and if there is a file to archive, the object that it leaves can be read
back: `extract` succeeds and gives exactly the source files.

The two conditions on the name of the content directory are missing from the documentation, `C113_violated`. -/
theorem C113_partial {E : Env} (hlib : E.lib.Lawful) (hhash : HashLib E.raw) (hword : WordClass E.isWord) (hcwd : ∀ w ∈ E.cwd, SafeName w)
    {o : Obj} (ho : GoodSettings o) (hid : o.id ≠ none) (hnorm : o.norm = none ∨ o.norm = some c!"md5" ∨ o.norm = some c!"uri")
    (hci : o.contentDirectory ≠ inventoryFilename) (hcs : o.contentDirectory ≠ sidecarName o.digestAlgorithm)
    {srcdir objdir : Str} {metadata : Option VBlock} (hmeta : GoodMeta metadata) {s : FS} (hw : s.WF)
    (hsrc : look s (absComps E.cwd srcdir) = some .dir) (hvac : Vacant s (absComps E.cwd objdir))
    (hpar : look s (absComps E.cwd (osPathSplit objdir).1) = some .dir) :
    ∃ s' inv, run (create E o srcdir metadata (some objdir)) s = (s', .ok inv) ∧
      ((∃ r b, FileBelow s (absComps E.cwd srcdir) r b) → NamesAllowed o (FileBelow s (absComps E.cwd srcdir)) →
        NoCollision E.raw (InTrees [FileBelow s (absComps E.cwd srcdir)]) →
        ∀ dstdir, ¬ absComps E.cwd objdir <+: absComps E.cwd dstdir → look s' (dstParent E dstdir) = some .dir →
          Vacant s' (absComps E.cwd dstdir) →
          ∃ s'' md, run (extract E objdir c!"v1" dstdir) s' = (s'', .ok md) ∧
            ∀ r b, FileBelow s'' (absComps E.cwd dstdir) r b ↔ FileBelow s (absComps E.cwd srcdir) r b) := by
  obtain ⟨s', inv, hr⟩ := create_succeeds hhash hword hcwd ho hid hnorm hci hcs hmeta hw hsrc hvac hpar
  refine ⟨s', inv, hr, ?_⟩
  intro hfile hnames hno dstdir hout hp hv
  obtain ⟨s'', md, h1, h2, _⟩ := C22_partial hlib hhash hword hcwd (.create hw ho hmeta rfl hvac hfile hnames hr) hno (by simp)
    (k := 0) rfl (Or.inl rfl) hout hp hv
  exact ⟨s'', md, h1, h2⟩

/-- **C113**, the other direction: without an identifier, a source directory or a parent for the object directory,
`create` raises and changes nothing. -/
theorem C113_refuses {E : Env} {o : Obj} {srcdir objdir : Str} {metadata : Option VBlock} {s : FS}
    (h : o.id = none ∨ look s (absComps E.cwd srcdir) ≠ some .dir ∨ look s (absComps E.cwd (osPathSplit objdir).1) ≠ some .dir) :
    ∃ e, run (create E o srcdir metadata (some objdir)) s = (s, .error e) := by
  unfold create
  cases hp : prepareFirst E o srcdir metadata s with
  | error e =>
    refine ⟨e, ?_⟩
    rw [run_bind, run_look, hp]
  | ok r =>
    obtain ⟨src, nv⟩ := r
    have hpar : look s (absComps E.cwd (osPathSplit objdir).1) ≠ some .dir := by
      unfold prepareFirst at hp
      split at hp
      · cases hp
      rename_i id hid
      split at hp
      · cases hp
      rename_i src' hsrc
      obtain ⟨h1, h2⟩ := fswOpen_ok hsrc
      subst h1
      rcases h with h | h | h
      · rw [hid] at h; cases h
      · exact absurd h2 h
      · exact h
    refine ⟨.objectException, ?_⟩
    have hl : run (Prog.look (prepareFirst E o srcdir metadata)) s = (s, .ok (src, nv)) := by rw [run_look, hp]
    rw [run_bind_ok hl]
    show run (Prog.bind (writeFirst E o src nv objdir) _) s = _
    unfold writeFirst
    rw [run_bind, run_bind, openObjCreate_missing hpar]

/-! ## Examples -/

theorem demo_vacant_obj : Vacant demoFS (absComps demoEnv.cwd c!"obj") := by
  have h0 : look demoFS (absComps demoEnv.cwd c!"obj") = none := by decide +kernel
  exact ⟨Or.inl h0, fun r hr => look_below_none demoFS_wf (List.prefix_append _ _) (by simpa using hr) (by rw [h0]; simp)⟩

/-- With no settings but the identifier, and the default algorithm. -/
example : ∃ s' inv, run (create demoEnv { id := some c!"info:x" } c!"src" (some demoMeta) (some c!"obj")) demoFS = (s', .ok inv) := by
  obtain ⟨s', inv, h, _⟩ := C113_partial demoLibraries.json demoLibraries.hash demoLibraries.word demoEnv_cwd (o := { id := some c!"info:x" })
    ⟨by decide, by decide, Or.inl rfl, by decide, by rintro l hl; cases hl⟩ (by decide) (Or.inr (Or.inr rfl)) (by decide) (by decide) demoMeta_good demoFS_wf
    (srcdir := c!"src") (by decide +kernel) demo_vacant_obj (by decide +kernel)
  exact ⟨s', inv, h⟩

example : ∃ e, run (create demoEnv demoObj c!"src" (some demoMeta) (some c!"no/obj")) demoFS = (demoFS, .error e) :=
  C113_refuses (Or.inr (Or.inr (by decide +kernel)))

/-- An `Object` whose content directory is called `inventory.json`: the setting is accepted. -/
def inTheWay : Obj := { demoObj with contentDirectory := inventoryFilename }

theorem inTheWay_good : GoodSettings inTheWay := ⟨by decide, by decide, Or.inr rfl, by decide, by rintro l hl; cases hl⟩

/-- **C113** fails for such a name: `create` raises in the middle, when the object has its declaration and two
inventories but none of the content. -/
theorem C113_violated : ∃ (E : Env) (o : Obj) (s s' : FS) (e : PyErr), Libraries E ∧ GoodSettings o ∧ o.id ≠ none ∧ s.WF ∧
    look s (absComps E.cwd c!"src") = some .dir ∧ Vacant s (absComps E.cwd c!"obj") ∧
    run (create E o c!"src" (some demoMeta) (some c!"obj")) s = (s', .error e) ∧
    (look s' (absComps E.cwd c!"obj" ++ [declarationName o.specVersion])).isSome = true ∧
    (look s' (absComps E.cwd c!"obj" ++ [inventoryFilename])).isSome = true := by
  have hs : (match (run (create demoEnv inTheWay c!"src" (some demoMeta) (some c!"obj")) demoFS).2 with | .ok _ => false | .error _ => true) = true := by
    decide +kernel
  cases hr : run (create demoEnv inTheWay c!"src" (some demoMeta) (some c!"obj")) demoFS with
  | mk s' r =>
    have e1 : s' = (run (create demoEnv inTheWay c!"src" (some demoMeta) (some c!"obj")) demoFS).1 := by rw [hr]
    rw [hr] at hs
    cases r with
    | ok r => cases hs
    | error e =>
      refine ⟨demoEnv, inTheWay, demoFS, s', e, demoLibraries, inTheWay_good, by decide, demoFS_wf, by decide +kernel, demo_vacant_obj, hr, ?_, ?_⟩
      · rw [e1]; decide +kernel
      · rw [e1]; decide +kernel

end Ocfl
