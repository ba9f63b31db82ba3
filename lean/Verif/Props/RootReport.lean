import Verif.Proofs.AlikeRoot
import Verif.Proofs.NoDigests
import Verif.Props.Report
import Verif.Props.StorageValidate

/-!
# C97: what is said about a storage root depends only on what is in its directory
-/

namespace Ocfl
open Spec FS Store

theorem openRoot_moved {E : Env} {cwd : Path} {s s' : FS} (hw : s.WF) (hw' : s'.WF) {r : StorageRoot} {path : Str}
    (h : SameContents s (absComps E.cwd r.root) s' (absComps cwd path)) :
    (openRoot E r s = .error .storageRootException ∧ openRoot { E with cwd := cwd } (atPath path r) s' = .error .storageRootException) ∨
      openRoot E r s = .ok (absComps E.cwd r.root) ∧ openRoot { E with cwd := cwd } (atPath path r) s' = .ok (absComps cwd path) ∧
        Moved s (absComps E.cwd r.root) s' (absComps cwd path) := by
  have h0 : isdir s (absComps E.cwd r.root) = isdir s' (absComps cwd path) := by
    have := h []
    rw [List.append_nil, List.append_nil] at this
    unfold isdir
    rw [this]
  unfold openRoot fswOpen atPath
  dsimp only
  rw [← h0]
  cases hd : isdir s (absComps E.cwd r.root) with
  | false => exact .inl ⟨rfl, rfl⟩
  | true => exact .inr ⟨rfl, rfl, hw, hw', isdir_iff.mp hd, h⟩

/-- **C97** (partial): two storage roots with the same contents, in whatever places of whatever file systems, get the same
result and the same counts from `StorageRoot.validate`, or an exception in both cases. The order in which directories are
listed does not matter. With lax digests the digest algorithms in the inventories must not contain slashes. -/
theorem C97_partial {E : Env} (hE : E.lib.Lawful) {reg : Dict Str LayoutObj} {s s' : FS} (hw : s.WF) (hw' : s'.WF) {cwd : Path}
    {r : StorageRoot} {path : Str} (hplain : r.lax = true → ∀ ws, PlainAlgorithms E.lib s (absComps E.cwd r.root ++ ws))
    (h : SameContents s (absComps E.cwd r.root) s' (absComps cwd path)) (objects digests : Bool) :
    SameCounts (validate E reg objects digests s r).2 (validate { E with cwd := cwd } reg objects digests s' { r with root := path }).2 := by
  unfold validate
  dsimp only
  rcases openRoot_moved hw hw' (r := { r with log := true }) (path := path) h with ⟨h1, h2⟩ | ⟨h1, h2, t⟩
  · rw [h1, show openRoot { E with cwd := cwd } { root := path, layoutName := r.layoutName, layout := r.layout, specVersion := r.specVersion, lax := r.lax, log := true, traversalErrors := r.traversalErrors } s' = _ from h2]
    exact .exception
  · rw [h1, show openRoot { E with cwd := cwd } { root := path, layoutName := r.layoutName, layout := r.layout, specVersion := r.specVersion, lax := r.lax, log := true, traversalErrors := r.traversalErrors } s' = _ from h2]
    dsimp only at t ⊢
    have hc := t.checkStructure (E := E) (cwd := cwd) (reg := reg) (r := { r with log := true }) (path := path)
    rw [show ({ root := path, layoutName := r.layoutName, layout := r.layout, specVersion := r.specVersion, lax := r.lax, log := true, traversalErrors := r.traversalErrors } : StorageRoot) = atPath path { r with log := true } from rfl, hc]
    cases hs : Store.checkStructure E reg s (absComps E.cwd r.root) { r with log := true } with
    | mk r1 x =>
      cases x with
      | error e => cases e <;> first | exact .report | exact .exception
      | ok _ =>
        obtain ⟨_, hlax, _, _⟩ := checkStructure_keeps hs
        dsimp only
        rw [show (atPath path r1).log = r1.log from rfl]
        rcases t.objectPaths (E := E) (cwd := cwd) (log := r1.log) with ⟨l, l', hl, hl', he⟩ | ⟨hl, hl'⟩
        · rw [hl, hl']
          dsimp only
          have hnum : l.numErrors = l'.numErrors := by
            unfold Listing.numErrors
            rw [he.errors.length_eq, he.ext]
          rw [show (atPath path r1).traversalErrors = r1.traversalErrors from rfl, show (atPath path r1).lax = r1.lax from rfl, ← hnum,
            ← he.paths.length_eq]
          cases objects with
          | false => exact .report
          | true =>
            rw [if_pos rfl, if_pos rfl]
            rcases t.goodObjects (cwd := cwd) hE (cfg := { checkDigests := digests, lax := r1.lax }) he.paths (objectPaths_dirs t.wf t.dir hl)
              (fun h => hplain (by rw [← hlax]; exact h)) with ⟨n, h3, h4⟩ | ⟨e, e', h3, h4⟩
            · rw [h3, h4]
              exact .report
            · rw [h3, h4]
              exact .exception
        · rw [hl, hl']
          exact .exception

/-- **C97** for `list_objects`: the same objects with the same identifiers, or an exception in both cases. -/
theorem C97_listing {E : Env} {reg : Dict Str LayoutObj} {s s' : FS} (hw : s.WF) (hw' : s'.WF) {cwd : Path} {r : StorageRoot} {path : Str}
    (h : SameContents s (absComps E.cwd r.root) s' (absComps cwd path)) :
    SameObjects (listObjects E reg s r).2 (listObjects { E with cwd := cwd } reg s' { r with root := path }).2 := by
  unfold listObjects
  rcases openRoot_moved hw hw' h with ⟨h1, h2⟩ | ⟨h1, h2, t⟩
  · rw [h1, show openRoot { E with cwd := cwd } { root := path, layoutName := r.layoutName, layout := r.layout, specVersion := r.specVersion, lax := r.lax, log := r.log, traversalErrors := r.traversalErrors } s' = _ from h2]
    exact .exception
  · rw [h1, show openRoot { E with cwd := cwd } { root := path, layoutName := r.layoutName, layout := r.layout, specVersion := r.specVersion, lax := r.lax, log := r.log, traversalErrors := r.traversalErrors } s' = _ from h2]
    dsimp only
    have hc := t.checkStructure (E := E) (cwd := cwd) (reg := reg) (r := r) (path := path)
    rw [show ({ root := path, layoutName := r.layoutName, layout := r.layout, specVersion := r.specVersion, lax := r.lax, log := r.log, traversalErrors := r.traversalErrors } : StorageRoot) = atPath path r from rfl, hc]
    cases hs : Store.checkStructure E reg s (absComps E.cwd r.root) r with
    | mk r1 x =>
      cases x with
      | error e => exact .exception
      | ok _ =>
        dsimp only
        rw [show (atPath path r1).log = r1.log from rfl]
        rcases t.objectPaths (E := E) (cwd := cwd) (log := r1.log) with ⟨l, l', hl, hl', he⟩ | ⟨hl, hl'⟩
        · rw [hl, hl']
          dsimp only
          rcases t.identifiers (E := E) (cwd := cwd) he.paths (objectPaths_dirs t.wf t.dir hl) with ⟨x, y, h3, h4, h5⟩ | ⟨e, e', h3, h4⟩
          · rw [h3, h4]
            exact .objects h5
          · rw [h3, h4]
            exact .exception
        · rw [hl, hl']
          exact .exception

/-- **C96** for storage roots: without `check_digests` the result is the same, for as many objects, of which as many or more
are valid. -/
theorem C96_root {E : Env} {reg : Dict Str LayoutObj} {s : FS} {r r1 : StorageRoot} {objects valid : Bool} {num good : Nat}
    (h : validate E reg objects true s r = (r1, .ok ⟨valid, num, good⟩)) :
    ∃ good', validate E reg objects false s r = (r1, .ok ⟨valid, num, good'⟩) ∧ good ≤ good' := by
  unfold validate at h ⊢
  dsimp only at h ⊢
  split at h
  · cases h
  · split at h
    · cases h
      exact ⟨0, rfl, Nat.le_refl _⟩
    · cases h
    · split at h
      · cases h
      · split at h
        · rename_i hobj
          rw [if_pos hobj]
          split at h
          · cases h
          · rename_i n hg
            obtain ⟨m, hm, hle⟩ := drops_goodObjects (cfg := { lax := _ }) hg
            cases h
            rw [hm]
            exact ⟨m, rfl, hle⟩
        · rename_i hobj
          cases h
          rw [if_neg hobj]
          exact ⟨0, rfl, Nat.le_refl _⟩

/-! ## Examples -/

/-- The storage root with a damaged object in another directory, listed in the opposite order. -/
def movedStore : FS :=
  ([c!"data"], .dir) :: ([c!"data", c!"copy"], .dir) ::
    (storeSpoilt.filter (fun e => [c!"w", c!"root"].isPrefixOf e.1 && e.1.length > 2)).reverse.map (fun e => ([c!"data", c!"copy"] ++ e.1.drop 2, e.2))

theorem movedStore_wf : movedStore.WF where
  nk := by decide +kernel
  noRoot := by decide +kernel
  parent := by decide +kernel
  names := by decide +kernel

theorem movedStore_same : SameContents storeSpoilt (absComps demoEnv.cwd anyStore.root) movedStore (absComps [c!"data"] c!"copy") := by
  rw [show absComps demoEnv.cwd anyStore.root = [c!"w", c!"root"] from by decide +kernel,
    show absComps [c!"data"] c!"copy" = [c!"data", c!"copy"] from by decide +kernel]
  exact sameContents_of (by simp) (by simp) (by decide +kernel) (by decide +kernel)

/-- The copy has one object, which is not valid. -/
example : (validate { demoEnv with cwd := [c!"data"] } defaultRegistry true true movedStore { anyStore with root := c!"copy" }).2 = .ok ⟨true, 1, 0⟩ := by
  have h := C97_partial (reg := defaultRegistry) (cwd := [c!"data"]) (r := anyStore) (path := c!"copy") demoEnv_lawful storeSpoilt_wf movedStore_wf
    (by rintro ⟨⟩) movedStore_same true true
  have h1 : (validate demoEnv defaultRegistry true true storeSpoilt anyStore).2 = .ok ⟨true, 1, 0⟩ := by decide +kernel
  rw [h1] at h
  generalize (validate { demoEnv with cwd := [c!"data"] } defaultRegistry true true movedStore { anyStore with root := c!"copy" }).2 = x at h ⊢
  cases h
  rfl

example : (listObjects { demoEnv with cwd := [c!"data"] } defaultRegistry movedStore { anyStore with root := c!"copy" }).2 =
    .ok [(c!"info:x", some c!"info:x")] := by
  have h := C97_listing (E := demoEnv) (reg := defaultRegistry) (cwd := [c!"data"]) (r := anyStore) (path := c!"copy") storeSpoilt_wf movedStore_wf movedStore_same
  have h1 : (listObjects demoEnv defaultRegistry storeSpoilt anyStore).2 = .ok [(c!"info:x", some c!"info:x")] := by decide +kernel
  rw [h1] at h
  generalize (listObjects { demoEnv with cwd := [c!"data"] } defaultRegistry movedStore { anyStore with root := c!"copy" }).2 = x at h ⊢
  cases h with
  | objects h => rw [List.perm_singleton.mp h.symm]

/-- The damage is not seen without `check_digests`. -/
example : ∃ r, validate demoEnv defaultRegistry true true storeSpoilt anyStore = (r, .ok ⟨true, 1, 0⟩) ∧
    validate demoEnv defaultRegistry true false storeSpoilt anyStore = (r, .ok ⟨true, 1, 1⟩) := by
  obtain ⟨r, h⟩ := report_eq (x := validate demoEnv defaultRegistry true true storeSpoilt anyStore) (y := .ok ⟨true, 1, 0⟩) (by decide +kernel)
  obtain ⟨m, hm, _⟩ := C96_root h
  have h2 : (validate demoEnv defaultRegistry true false storeSpoilt anyStore).2 = .ok ⟨true, 1, 1⟩ := by decide +kernel
  rw [hm] at h2
  cases h2
  exact ⟨r, h, hm⟩

end Ocfl
