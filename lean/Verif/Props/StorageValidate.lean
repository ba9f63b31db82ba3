import Verif.Proofs.StoreStructure
import Verif.Props.StorageAdd
import Verif.Props.ObjectValidation

/-!
# C55: validating a storage root
-/

namespace Ocfl

open Spec FS Store

theorem objectDir_of_valid {E : Env} {check : Bool} {s : FS} {p : Path} (h : ValidObject E check s p) : ObjectDir s p := by
  obtain ⟨spec, j, alg, cd, m, vs, states, style, n, h⟩ := h
  obtain ⟨b, t, hb, _⟩ := h.declaration
  exact ⟨spec, h.supported, ⟨b, hb⟩, fun t b hb => h.oneDeclaration t (by rw [hb]; simp)⟩

theorem openRoot_dir {E : Env} {r : StorageRoot} {s : FS} (h : look s (absComps E.cwd r.root) = some .dir) :
    openRoot E r s = .ok (absComps E.cwd r.root) := by
  unfold openRoot fswOpen
  dsimp only
  rw [isdir_iff.mpr h]
  rfl

/-- What is below the root, apart from the objects themselves, is in order. -/
structure Hierarchy (s : FS) (root : Path) : Prop where
  dirs : ∀ ws, Reached s root ws → FileBearing s (root ++ ws) ∨ EmptyDir s (root ++ ws) → LooseObjectDir s (root ++ ws)
  extensions : ∀ w b, look s (root ++ [c!"extensions", w]) ≠ some (.file b)

/-- A traversal without errors. -/
theorem hierarchy_iff {E : Env} {s : FS} (hw : s.WF) {root : Path} (hd : look s root = some .dir) {l : Listing}
    (h : objectPaths E true s root = .ok l) : l.numErrors = 0 ↔ Hierarchy s root := by
  obtain ⟨l', h', _, _, _, herr, hext⟩ := C53_exact E hw hd (log := true) (.inl rfl)
  rw [h] at h'
  cases h'
  unfold Listing.numErrors
  rw [Nat.add_eq_zero_iff, List.length_eq_zero_iff, List.eq_nil_iff_forall_not_mem, hext]
  constructor
  · rintro ⟨h1, h2⟩
    refine ⟨fun ws hr hfe => ?_, h2⟩
    by_contra hn
    exact h1 _ ((herr _).mpr ⟨ws, rfl, hr, hn, hfe⟩)
  · intro h
    refine ⟨fun p hp => ?_, h.extensions⟩
    obtain ⟨ws, _, hr, hn, hfe⟩ := (herr p).mp hp
    exact hn (h.dirs ws hr hfe)

/-- The structure of a storage root is in order. -/
def RootStructure (E : Env) (reg : Dict Str LayoutObj) (s : FS) (root : Path) (want : Option Str) : Prop :=
  (∃ v, (want = none ∨ want = some v) ∧ RootDeclared E s root v) ∧ RootLayout E reg s root

/-- What the result of `validate` means. -/
theorem C55_result {E : Env} (hraw : Spec.HexDigests E.raw) {reg : Dict Str LayoutObj} {s : FS} (hw : s.WF)
    {r : StorageRoot} (hlay : r.layout = none) (ht : r.traversalErrors = 0) {vo check : Bool} {r' : StorageRoot} {rep : Report}
    (h : validate E reg vo check s r = (r', .ok rep)) :
    rep.valid = true ↔ RootStructure E reg s (absComps E.cwd r.root) r.specVersion ∧ Hierarchy s (absComps E.cwd r.root) := by
  unfold validate at h
  dsimp only at h
  split at h
  · cases (Prod.mk.inj h).2
  · rename_i base hb
    obtain ⟨rfl, hd⟩ := openRoot_ok hb
    have hiff := checkStructure_iff (reg := reg) hraw hw hd (r := { r with log := true }) hlay
    split at h
    · rename_i hc
      obtain ⟨_, h⟩ := Prod.mk.inj h
      cases h
      refine ⟨fun h => (nomatch h), fun hh => ?_⟩
      obtain ⟨r1, h1⟩ := hiff.mpr hh.1
      rw [hc] at h1
      cases (Prod.mk.inj h1).2
    · cases (Prod.mk.inj h).2
    · rename_i r1 _ hc
      have hk := checkStructure_keeps hc
      have hstr := hiff.mp ⟨r1, hc⟩
      rw [hk.2.2.1] at h
      split at h
      · cases (Prod.mk.inj h).2
      · rename_i l hl
        have hh := hierarchy_iff hw hd hl
        have key : decide (r1.traversalErrors + l.numErrors = 0) = true ↔
            RootStructure E reg s (absComps E.cwd r.root) r.specVersion ∧ Hierarchy s (absComps E.cwd r.root) := by
          rw [decide_eq_true_eq, hk.2.2.2]
          change r.traversalErrors + l.numErrors = 0 ↔ _
          rw [ht, Nat.zero_add, hh]
          exact (and_iff_right hstr).symm
        split_ifs at h
        · split at h
          · cases (Prod.mk.inj h).2
          · obtain ⟨_, h⟩ := Prod.mk.inj h
            cases h
            exact key
        · obtain ⟨_, h⟩ := Prod.mk.inj h
          cases h
          exact key

/-- **C55** (partial): all counts agree and the result is `True` exactly if the storage root is valid: it is
declared, its layout is known and has allowed parameters, every directory reached that has files or is empty
is a valid object, and there are no files in the extensions directory. Missing: the result alone does
not say this, see `C55_violated`. -/
theorem C55_partial {E : Env} (hE : Libraries E) (hraw : Spec.HexDigests E.raw) {reg : Dict Str LayoutObj} {s : FS} (hw : s.WF)
    {r : StorageRoot} (hlax : r.lax = false) (hlay : r.layout = none) (ht : r.traversalErrors = 0) {check : Bool} :
    (∃ r' n, validate E reg true check s r = (r', .ok ⟨true, n, n⟩)) ↔
      look s (absComps E.cwd r.root) = some .dir ∧
      (∃ v, (r.specVersion = none ∨ r.specVersion = some v) ∧ RootDeclared E s (absComps E.cwd r.root) v) ∧
      RootLayout E reg s (absComps E.cwd r.root) ∧
      (∀ ws, Reached s (absComps E.cwd r.root) ws →
        FileBearing s (absComps E.cwd r.root ++ ws) ∨ EmptyDir s (absComps E.cwd r.root ++ ws) →
        ValidObject E check s (absComps E.cwd r.root ++ ws)) ∧
      (∀ w b, look s (absComps E.cwd r.root ++ [c!"extensions", w]) ≠ some (.file b)) := by
  constructor
  · rintro ⟨r', n, h⟩
    have hres := (C55_result hraw hw hlay ht h).mp rfl
    unfold validate at h
    dsimp only at h
    split at h
    · cases (Prod.mk.inj h).2
    · rename_i base hb
      obtain ⟨rfl, hd⟩ := openRoot_ok hb
      refine ⟨hd, hres.1.1, hres.1.2, ?_, hres.2.extensions⟩
      split at h
      · cases Except.ok.inj (Prod.mk.inj h).2
      · cases (Prod.mk.inj h).2
      · rename_i r1 _ hc
        have hk := checkStructure_keeps hc
        rw [hk.2.2.1] at h
        split at h
        · cases (Prod.mk.inj h).2
        · rename_i l hl
          rw [if_pos rfl] at h
          split at h
          · cases (Prod.mk.inj h).2
          · rename_i k hg
            have e := Except.ok.inj (Prod.mk.inj h).2
            injection e with _ e1 e2
            obtain ⟨_, hall⟩ := goodObjects_le hg
            have hall := hall (by rw [e1, e2])
            intro ws hr hfe
            obtain ⟨l', hl', _, _, hp, _⟩ := C53_exact E hw hd (log := true) (.inl rfl)
            rw [show objectPaths E true s _ = _ from hl] at hl'
            cases hl'
            have hm := (hp (joinWith '/' ws)).mpr ⟨ws, rfl, hr, hres.2.dirs ws hr hfe⟩
            obtain ⟨es, hes⟩ := hall _ hm
            have hsafe : ∀ w ∈ ws, SafeName w := fun w hm => look_names hw hr.dir w (by simp [hm])
            rw [resolve_join _ hsafe] at hes
            exact (Validator.validateAt_iff hE (by exact hk.2.1.trans hlax) hw hr.dir).mp ⟨es, hes⟩
  · rintro ⟨hd, hdecl, hlayout, hobj, hext⟩
    obtain ⟨r1, hc⟩ := (checkStructure_iff (reg := reg) hraw hw hd (r := { r with log := true }) hlay).mpr ⟨hdecl, hlayout⟩
    have hk := checkStructure_keeps hc
    obtain ⟨l, hl, _, _, hp, herr, hext'⟩ := C53_exact E hw hd (log := true) (.inl rfl)
    have hh : Hierarchy s (absComps E.cwd r.root) :=
      ⟨fun ws hr hfe => looseObjectDir_of (objectDir_of_valid (hobj ws hr hfe)), hext⟩
    have h0 := (hierarchy_iff hw hd hl).mpr hh
    have hg : goodObjects E { checkDigests := check, lax := r1.lax } s (absComps E.cwd r.root) l.paths = .ok l.paths.length := by
      apply goodObjects_all
      intro p hm
      obtain ⟨ws, rfl, hr, hlo⟩ := (hp p).mp hm
      have hsafe : ∀ w ∈ ws, SafeName w := fun w hm => look_names hw hr.dir w (by simp [hm])
      rw [resolve_join _ hsafe]
      refine (Validator.validateAt_iff hE (by exact hk.2.1.trans hlax) hw hr.dir).mpr (hobj ws hr (.inl ?_))
      obtain ⟨v, _, rest, _, ⟨b, hb⟩, _⟩ := hlo
      exact ⟨_, b, hb⟩
    refine ⟨{ r1 with traversalErrors := r1.traversalErrors + l.numErrors }, l.paths.length, ?_⟩
    unfold validate
    dsimp only
    rw [openRoot_dir (r := { r with log := true }) hd]
    dsimp only
    rw [hc]
    dsimp only
    rw [hk.2.2.1]
    dsimp only
    rw [hl]
    dsimp only
    rw [if_pos rfl, hg]
    dsimp only
    have e : r1.traversalErrors + l.numErrors = 0 := by rw [h0, hk.2.2.2]; exact ht
    rw [e]
    rfl

/-! ## Examples -/

/-- The number of objects if the storage root and all objects are valid. -/
def allValid (x : StorageRoot × Py Report) : Option Nat :=
  match x.2 with
  | .ok ⟨true, n, m⟩ => if n = m then some n else none
  | _ => none

theorem allValid_some {x : StorageRoot × Py Report} {n : Nat} (h : allValid x = some n) : ∃ r, x = (r, .ok ⟨true, n, n⟩) := by
  obtain ⟨r, x⟩ := x
  unfold allValid at h
  split at h
  · rename_i n' m hx
    split_ifs at h with e
    cases h
    subst e
    exact ⟨r, by rw [← hx]⟩
  · cases h

example : ValidObject demoEnv true storeAdded [c!"w", c!"root", c!"info:x"] := by
  obtain ⟨r, h⟩ := allValid_some (x := validate demoEnv defaultRegistry true true storeAdded anyStore) (n := 1) (by decide +kernel)
  obtain ⟨_, _, _, hobj, _⟩ := (C55_partial demoLibraries demoRaw_hex storeAdded_wf (r := anyStore) rfl rfl rfl).mp ⟨r, 1, h⟩
  refine hobj [c!"info:x"] ⟨by simp, by decide +kernel, by decide, ?_⟩ (.inl ⟨c!"inventory.json", _, (by decide +kernel : look storeAdded
    [c!"w", c!"root", c!"info:x", c!"inventory.json"] = some (.file (match look storeAdded
    [c!"w", c!"root", c!"info:x", c!"inventory.json"] with | some (.file b) => b | _ => [])))⟩)
  intro a b hab ha hb
  cases a with
  | nil => exact absurd rfl ha
  | cons x a => cases a with
    | nil => simp at hab; exact absurd hab.2.symm (by simpa using hb)
    | cons y a => simp at hab

/-! ## Where the code does not do it -/

theorem report_eq {x : StorageRoot × Py Report} {y : Py Report} (h : x.2 = y) : ∃ r, x = (r, y) := ⟨x.1, Prod.ext rfl h⟩

/-- **C55** fails: the result is `True` although an object is not valid. Only the counts show it. -/
theorem C55_violated : ∃ r, validate demoEnv defaultRegistry true true storeSpoilt anyStore = (r, .ok ⟨true, 1, 0⟩) ∧
    ¬ ValidObject demoEnv true storeSpoilt [c!"w", c!"root", c!"info:x"] := by
  obtain ⟨r, h⟩ := report_eq (x := validate demoEnv defaultRegistry true true storeSpoilt anyStore) (y := .ok ⟨true, 1, 0⟩)
    (by decide +kernel)
  refine ⟨r, h, fun hv => ?_⟩
  obtain ⟨es, he⟩ := (Validator.validateAt_iff demoLibraries (cfg := {}) rfl storeSpoilt_wf
    (by decide +kernel : look storeSpoilt [c!"w", c!"root", c!"info:x"] = some .dir)).mpr hv
  have h' : (match Validator.validateAt demoEnv {} 0 storeSpoilt [c!"w", c!"root", c!"info:x"] with
    | .ok (b, _) => b | .error _ => true) = false := by decide +kernel
  rw [he] at h'
  cases h'

end Ocfl
