import Verif.Model.CommandLine
import Verif.Props.StorageValidate
import Verif.Props.Namaste
import Verif.Props.InventoryValidator

/-!
# C75: the exit status of `ocfl-validate.py`
-/

namespace Ocfl

open Spec FS Cli

/-- What a path has to be for the command to count it as good. -/
inductive PathGood (E : Env) (reg : Dict Str LayoutObj) (check : Bool) (s : FS) (path : Str) : Prop
  /-- A valid object. -/
  | object (ht : findPathType E.cwd path s = .ok .object) (h : ValidObject E check s (absComps E.cwd path))
  /-- A storage root with a hierarchy that is in order. Of the objects nothing is asked but that their
  validation gives a verdict. -/
  | root (ht : findPathType E.cwd path s = .ok .root) (hs : RootStructure E reg s (absComps E.cwd path) none)
    (hh : Hierarchy s (absComps E.cwd path))
    (hv : ∀ ws, Reached s (absComps E.cwd path) ws → LooseObjectDir s (absComps E.cwd path ++ ws) →
      ∃ ok es, Validator.validateAt E { checkDigests := check } 0 s (absComps E.cwd path ++ ws) = .ok (ok, es))
  /-- A file with a valid inventory. -/
  | inventory (ht : findPathType E.cwd path s = .ok .file)
    (h : ∃ j, StoredJson E.lib s (absComps E.cwd path) j ∧ ValidInventory false none j)

theorem goodObjects_ok {E : Env} {cfg : Validator.Config} {s : FS} {base : Path} : ∀ {ps : List Str},
    (∃ n, Store.goodObjects E cfg s base ps = .ok n) ↔
      ∀ p ∈ ps, ∃ ok es, Validator.validateAt E cfg 0 s (resolve base p) = .ok (ok, es)
  | [] => by simp [Store.goodObjects]
  | p :: ps => by
    have ih := goodObjects_ok (E := E) (cfg := cfg) (s := s) (base := base) (ps := ps)
    rw [List.forall_mem_cons, ← ih, Store.goodObjects]
    constructor
    · rintro ⟨n, h⟩
      split at h
      · cases h
      · rename_i ok es hv
        refine ⟨⟨ok, es, hv⟩, ?_⟩
        split at h
        · cases h
        · exact ⟨_, by assumption⟩
    · rintro ⟨⟨ok, es, hv⟩, n, hn⟩
      rw [hv]
      dsimp only
      rw [hn]
      exact ⟨_, rfl⟩

/-- A storage root that is found valid, whatever its objects are. -/
theorem root_good {E : Env} (hraw : Spec.HexDigests E.raw) {reg : Dict Str LayoutObj} {s : FS} (hw : s.WF) {r : StorageRoot}
    (hlax : r.lax = false) (hlay : r.layout = none) (ht : r.traversalErrors = 0) (hd : look s (absComps E.cwd r.root) = some .dir)
    {check : Bool} :
    (∃ r' rep, Store.validate E reg true check s r = (r', .ok rep) ∧ rep.valid = true) ↔
      RootStructure E reg s (absComps E.cwd r.root) r.specVersion ∧ Hierarchy s (absComps E.cwd r.root) ∧
      ∀ ws, Reached s (absComps E.cwd r.root) ws → LooseObjectDir s (absComps E.cwd r.root ++ ws) →
        ∃ ok es, Validator.validateAt E { checkDigests := check } 0 s (absComps E.cwd r.root ++ ws) = .ok (ok, es) := by
  obtain ⟨l, hl, _, _, hp, _⟩ := C53_exact E hw hd (log := true) (.inl rfl)
  have hobjs : (∀ p ∈ l.paths, ∃ ok es, Validator.validateAt E { checkDigests := check } 0 s (resolve (absComps E.cwd r.root) p) = .ok (ok, es)) ↔
      ∀ ws, Reached s (absComps E.cwd r.root) ws → LooseObjectDir s (absComps E.cwd r.root ++ ws) →
        ∃ ok es, Validator.validateAt E { checkDigests := check } 0 s (absComps E.cwd r.root ++ ws) = .ok (ok, es) := by
    constructor
    · intro h ws hr ho
      have hsafe : ∀ w ∈ ws, SafeName w := fun w hm => look_names hw hr.dir w (by simp [hm])
      have := h _ ((hp _).mpr ⟨ws, rfl, hr, ho⟩)
      rwa [resolve_join _ hsafe] at this
    · intro h p hm
      obtain ⟨ws, rfl, hr, ho⟩ := (hp p).mp hm
      have hsafe : ∀ w ∈ ws, SafeName w := fun w hm => look_names hw hr.dir w (by simp [hm])
      rw [resolve_join _ hsafe]
      exact h ws hr ho
  constructor
  · rintro ⟨r', rep, h, hv⟩
    have hres := (C55_result hraw hw hlay ht h).mp hv
    refine ⟨hres.1, hres.2, hobjs.mp ?_⟩
    unfold Store.validate at h
    dsimp only at h
    rw [openRoot_dir (r := { r with log := true }) hd] at h
    dsimp only at h
    split at h
    · obtain ⟨_, h⟩ := Prod.mk.inj h
      cases h
      cases hv
    · cases (Prod.mk.inj h).2
    · rename_i r1 _ hc
      have hk := Store.checkStructure_keeps hc
      rw [hk.2.2.1, hl] at h
      dsimp only at h
      rw [if_pos rfl] at h
      split at h
      · cases (Prod.mk.inj h).2
      · rename_i n hg
        rw [hk.2.1] at hg
        rw [show ({ r with log := true } : StorageRoot).lax = false from hlax] at hg
        exact goodObjects_ok.mp ⟨n, hg⟩
  · rintro ⟨hs, hh, hv⟩
    obtain ⟨r1, hc⟩ := (Store.checkStructure_iff (reg := reg) hraw hw hd (r := { r with log := true }) hlay).mpr hs
    have hk := Store.checkStructure_keeps hc
    obtain ⟨n, hg⟩ := goodObjects_ok.mpr (hobjs.mpr hv)
    have key : Store.validate E reg true check s r =
        ({ r1 with traversalErrors := r1.traversalErrors + l.numErrors }, .ok ⟨decide (r1.traversalErrors + l.numErrors = 0), l.paths.length, n⟩) := by
      unfold Store.validate
      dsimp only
      rw [openRoot_dir (r := { r with log := true }) hd]
      dsimp only
      rw [hc]
      dsimp only
      rw [hk.2.2.1, hl]
      dsimp only
      rw [if_pos rfl, hk.2.1, show ({ r with log := true } : StorageRoot).lax = false from hlax, hg]
    exact ⟨_, _, key, (C55_result hraw hw hlay ht key).mpr ⟨hs, hh⟩⟩

/-- What the command finds out about a path. -/
theorem findPathType_dir {cwd : Path} {path : Str} {s : FS} (h : findPathType cwd path s = .ok .object ∨ findPathType cwd path s = .ok .root) :
    look s (absComps cwd path) = some .dir := by
  cases hd : isdir s (absComps cwd path) with
  | true => exact isdir_iff.mp hd
  | false =>
    exfalso
    unfold findPathType fswOpen at h
    dsimp only at h
    rw [hd] at h
    simp only [Bool.false_eq_true, if_false] at h
    split at h
    · rcases h with h | h <;> cases h
    · split_ifs at h <;> rcases h with h | h <;> cases h

theorem absComps_dot (cwd : Path) : absComps cwd c!"." = absComps cwd [] := by
  simp [absComps, splitOn, normStep, startsWith]

theorem findPathType_file {cwd : Path} {path : Str} {s : FS} (hw : s.WF) (h : findPathType cwd path s = .ok .file) :
    look s (absComps cwd (osPathSplit path).1) = some .dir := by
  unfold findPathType at h
  split at h
  · rename_i base hb
    exfalso
    unfold directoryType at h
    split at h
    · cases h
    · rename_i tv htv
      cases hx : tv.findSome? declaredType with
      | none => rw [hx] at h; cases h
      | some v =>
        rw [hx] at h
        obtain ⟨t, -, ht⟩ := List.exists_of_findSome?_eq_some hx
        simp only [Option.getD_some, Except.ok.injEq] at h
        subst h
        rcases declaredType_cases t with h | h | h <;> rw [h] at ht <;> cases ht
  · dsimp only at h
    split at h
    · cases h
    · rename_i base hb
      unfold fswOpen at hb
      dsimp only at hb
      have e : absComps cwd (if (osPathSplit path).1 = [] then c!"." else (osPathSplit path).1) = absComps cwd (osPathSplit path).1 := by
        split_ifs with h0
        · rw [h0, absComps_dot]
        · rfl
      rw [e] at hb
      split_ifs at hb with hd
      exact isdir_iff.mp hd

theorem inventoryFile_iff {E : Env} (hE : Libraries E) {s : FS} {path : Str} (hd : look s (absComps E.cwd (osPathSplit path).1) = some .dir) :
    validateInventoryFile E false s path = .ok true ↔
      ∃ j, StoredJson E.lib s (absComps E.cwd path) j ∧ ValidInventory false none j := by
  have hopen : fswOpen E.cwd (osPathSplit path).1 s = .ok (absComps E.cwd (osPathSplit path).1) := by
    unfold fswOpen; dsimp only; rw [isdir_iff.mpr hd]; rfl
  have hr := (absComps_split E.cwd path).1
  have hacc : ∀ j, StoredJson E.lib s (absComps E.cwd path) j →
      ((∃ res, Clean (IV.validateBody E.isWord false c!"1.1" none j) (res, true)) ↔ ValidInventory false none j) := by
    intro j hj
    rw [← C37 (isWord := E.isWord) (ds := c!"1.1") (storedJson_wf hE.json hj)]
    unfold Accepts IV.validate
    constructor
    · rintro ⟨res, es, h1, h2⟩
      rw [h1]
      exact ⟨res, es, by simp [h2]⟩
    · rintro ⟨res, es, h⟩
      split at h
      · cases h
      · rename_i res' es' hb
        simp only [Except.ok.injEq, Prod.mk.injEq, decide_eq_true_eq] at h
        obtain ⟨rfl, h, rfl⟩ := h
        exact ⟨res', es', hb, h⟩
      · simp at h
  unfold validateInventoryFile
  dsimp only
  rw [hopen]
  dsimp only
  constructor
  · intro h
    split at h
    · cases h
    · rename_i es hv
      exfalso
      unfold Validator.validateInventory at hv
      split at hv
      · cases hv; simp [IV.numErrors] at h
      · cases hv
      · split at hv
        · cases hv; simp [IV.numErrors] at h
        · split at hv <;> cases hv
    · rename_i jr es hv
      obtain ⟨j, res⟩ := jr
      have hp := (Validator.pass_validateInventory (cfg := { lax := false }) (j := j) (res := res) hr).mp ⟨es, hv, by simpa using h⟩
      exact ⟨j, hp.1, (hacc j hp.1).mp ⟨res, hp.2⟩⟩
  · rintro ⟨j, hj, hv⟩
    obtain ⟨res, hc⟩ := (hacc j hj).mpr hv
    obtain ⟨es, h1, h2⟩ := (Validator.pass_validateInventory (cfg := { lax := false }) (j := j) (res := res) hr).mpr ⟨hj, hc⟩
    rw [h1]
    simp [h2]

/-- One path. -/
theorem path_good {E : Env} (hE : Libraries E) (hraw : Spec.HexDigests E.raw) {reg : Dict Str LayoutObj} {s : FS} (hw : s.WF)
    {args : Args} (hlax : args.lax = false) {path : Str} :
    validatePath E reg args s path = .ok true ↔ PathGood E reg (!args.noCheckDigests) s path := by
  unfold validatePath
  rw [hlax]
  constructor
  · intro h
    split at h
    · cases h
    · rename_i ht
      refine .object ht ?_
      split at h
      · cases h
      · rename_i ok es hv
        cases h
        exact ((C73 hE (cfg := { checkDigests := !args.noCheckDigests }) rfl hw).mp ⟨es, hv⟩).2
    · rename_i ht
      split at h
      · cases h
      · rename_i r' rep hv
        have := (root_good hraw hw (r := { root := path, lax := false }) rfl rfl rfl (findPathType_dir (.inr ht))).mp ⟨r', rep, hv, Except.ok.inj h⟩
        exact .root ht this.1 this.2.1 this.2.2
    · rename_i ht
      exact .inventory ht ((inventoryFile_iff hE (findPathType_file hw ht)).mp h)
    · cases h
  · rintro (⟨ht, h⟩ | ⟨ht, hs, hh, hv⟩ | ⟨ht, h⟩) <;> rw [ht] <;> dsimp only
    · obtain ⟨es, he⟩ := (C73 hE (cfg := { checkDigests := !args.noCheckDigests }) rfl hw).mpr ⟨findPathType_dir (.inl ht), h⟩
      rw [he]
    · obtain ⟨r', rep, he, hval⟩ := (root_good hraw hw (r := { root := path, lax := false }) rfl rfl rfl (findPathType_dir (.inr ht))).mpr ⟨hs, hh, hv⟩
      rw [he]
      simpa using hval
    · exact (inventoryFile_iff hE (findPathType_file hw ht)).mpr h

theorem countGood_le {E : Env} {reg : Dict Str LayoutObj} {args : Args} {s : FS} : ∀ {ps : List Str} {num good a b : Nat},
    countGood E reg args s num good ps = .ok (a, b) → a = num + ps.length ∧ b ≤ good + ps.length ∧
      (b = good + ps.length ↔ ∀ p ∈ ps, validatePath E reg args s p = .ok true)
  | [], _, _, _, _, h => by cases h; simp
  | p :: ps, num, good, a, b, h => by
    unfold countGood at h
    split at h
    · cases h
    · rename_i ok hv
      obtain ⟨h1, h2, h3⟩ := countGood_le h
      rw [List.forall_mem_cons, List.length_cons]
      cases ok with
      | true =>
        simp only [if_true] at h2 h3
        refine ⟨by omega, by omega, ?_⟩
        rw [← h3, and_iff_right hv]
        omega
      | false =>
        simp only [Bool.false_eq_true, if_false] at h2 h3
        refine ⟨by omega, by omega, ⟨fun h => by omega, fun h => ?_⟩⟩
        rw [hv] at h
        cases h.1

theorem countGood_ok {E : Env} {reg : Dict Str LayoutObj} {args : Args} {s : FS} : ∀ {ps : List Str} (num good : Nat),
    (∀ p ∈ ps, validatePath E reg args s p = .ok true) → ∃ x, countGood E reg args s num good ps = .ok x
  | [], _, _, _ => ⟨_, rfl⟩
  | p :: ps, num, good, h => by
    unfold countGood
    rw [h p (by simp)]
    exact countGood_ok _ _ (fun q hq => h q (by simp [hq]))

/-- **C75**: the command ends with exit status 0 exactly if every path is a valid object, a storage root in order, or a
file with a valid inventory. -/
theorem C75 {E : Env} (hE : Libraries E) (hraw : Spec.HexDigests E.raw) {reg : Dict Str LayoutObj} {s : FS} (hw : s.WF)
    {args : Args} (hlax : args.lax = false) :
    exitStatus E reg args s = 0 ↔ ∀ path ∈ args.paths, PathGood E reg (!args.noCheckDigests) s path := by
  have : exitStatus E reg args s = 0 ↔ doValidation E reg args s = .ok true := by
    unfold exitStatus
    split
    · simp_all
    · rename_i h
      simp only [Nat.one_ne_zero, false_iff]
      exact h
  rw [this]
  simp only [← path_good hE hraw hw hlax]
  unfold doValidation
  constructor
  · intro h
    split at h
    · cases h
    · rename_i num good hc
      obtain ⟨h1, _, h3⟩ := countGood_le hc
      refine h3.mp ?_
      have := of_decide_eq_true (Except.ok.inj h)
      omega
  · intro h
    obtain ⟨⟨a, b⟩, hc⟩ := countGood_ok (s := s) (E := E) (reg := reg) (args := args) 0 0 h
    rw [hc]
    obtain ⟨h1, _, h3⟩ := countGood_le hc
    have := h3.mpr h
    simp only [Except.ok.injEq, decide_eq_true_eq]
    omega

/-- No paths at all are fine, too. -/
example {E : Env} {reg : Dict Str LayoutObj} {s : FS} : exitStatus E reg { paths := [] } s = 0 := rfl

/-- The object, the storage root and the inventory of `storeAdded`. -/
def demoArgs : Args := { paths := [c!"obj", c!"root", c!"obj/inventory.json"] }

/-- The kinds of paths that are met. -/
def kinds (s : FS) (args : Args) : List (Py PathType) := args.paths.map (fun p => findPathType demoEnv.cwd p s)

example : exitStatus demoEnv defaultRegistry demoArgs storeAdded = 0 ∧ kinds storeAdded demoArgs = [.ok .object, .ok .root, .ok .file] := by
  decide +kernel

example : ∀ path ∈ demoArgs.paths, PathGood demoEnv defaultRegistry true storeAdded path :=
  (C75 demoLibraries demoRaw_hex storeAdded_wf (args := demoArgs) rfl).mp (by decide +kernel)

/-- **C55** fails for the command, too: its exit status is 0 for a storage root with an object that is not valid. -/
theorem C55_violated_command : exitStatus demoEnv defaultRegistry { paths := [c!"root"] } storeSpoilt = 0 ∧
    ¬ ValidObject demoEnv true storeSpoilt [c!"w", c!"root", c!"info:x"] := by
  obtain ⟨_, _, h⟩ := C55_violated
  exact ⟨by decide +kernel, h⟩

end Ocfl
