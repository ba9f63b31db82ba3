import Verif.Proofs.SoundValid

/-!
# C66, C74: objects made by the library are valid
-/

namespace Ocfl

open Spec FS Prog Ocfl.Inv Validator

/-- The declaration tells the version. -/
theorem Sound.declared {E : Env} {s : FS} {base : Path} {dv : Str} {trees : List Tree} {recs : List Rec} (h : Sound E s base dv trees recs)
    {v : Str} : look s (base ++ [c!"0=ocfl_object_" ++ v]) ≠ none ↔ v = dv := by
  constructor
  · intro hl
    rcases h.only _ _ hl with ⟨k, _, he⟩ | ⟨_, he | he | ⟨r, _, he⟩⟩
    · have := congrArg List.head? he
      rw [styleName_head] at this
      cases this
    · have := congrArg List.head? he
      cases this
    · exact List.append_cancel_left he
    · have := congrArg List.head? he
      cases this
  · rintro rfl
    have := h.declaration
    unfold declarationName at this
    rw [this]
    simp

/-- **C74**: validation, with or without digest checks, reports an object valid that was created from a
source directory and updated from others any number of times, with whatever settings, if the object
declares version 1.1 of the specification (which is the default) or was updated at most once; and only
then. No two different files of the history may have the same digest. -/
theorem C74 {E : Env} (hE : Libraries E) (hcwd : ∀ w ∈ E.cwd, SafeName w) {objdir : Str} {trees : List Tree} {s : FS}
    (h : History E (absComps E.cwd objdir) trees s) (hno : NoCollision E.raw (InTrees trees)) (hlen : trees.length ≤ 99999)
    {cfg : Config} (hlax : cfg.lax = false) :
    (∃ es, validateObject E cfg 0 s objdir = .ok (true, es)) ↔
      (look s (absComps E.cwd objdir ++ [c!"0=ocfl_object_1.1"]) ≠ none ∨ trees.length ≤ 2) := by
  obtain ⟨dv, recs, hs⟩ := history_sound hE.json hE.hash hE.word hcwd h hno hlen
  have hdecl := hs.declared (v := c!"1.1")
  rw [show c!"0=ocfl_object_" ++ c!"1.1" = c!"0=ocfl_object_1.1" from rfl] at hdecl
  rw [C73 hE hlax hs.wf, hdecl]
  constructor
  · rintro ⟨_, hv⟩
    by_contra hc
    rw [not_or] at hc
    exact hs.invalid hE (fun e => hc.1 e.symm) (by omega) _ hv
  · intro hc
    refine ⟨hs.isDir, hs.valid hE hno ?_ _⟩
    rcases hc with hc | hc
    · exact Or.inl hc.symm
    · exact Or.inr hc

/-- **C66**, the part about inventories: `next_version` for a supported version of the specification
gives an inventory that names this version, and the inventory before named the same one or a lower one. -/
theorem C66_next {inv : Inv} {sv : Str} (hsv : sv ∈ supported) {metadata : Option VBlock} {norm : Option Str} {fd dd carry : Bool}
    {old : Option Str} {nv : NV} (h : NV.nextVersion inv sv metadata norm fd dd carry old = .ok nv) :
    nv.inv.specVersion = some sv ∧ ∃ cur, inv.specVersion = some cur ∧ (cur ∈ supported → cur = sv ∨ (cur = c!"1.0" ∧ sv = c!"1.1")) := by
  have hadd : ∀ {i i' : Inv} {vd : Option Str} {md : Option VBlock} {st : Option DigestMap} {w : Option Nat},
      i.addVersion vd md st w = .ok i' → i'.specVersion = i.specVersion := by
    intro i i' vd md st w hi
    unfold Inv.addVersion at hi
    split at hi
    · cases hi
    · cases hi; rfl
  have hty : typeUri sv = c!"https://ocfl.io/" ++ sv ++ c!"/spec/#inventory" := rfl
  unfold NV.nextVersion at h
  dsimp only at h
  split at h
  · rename_i hne
    split at h
    · cases h
    · rename_i cur hcur
      split at h
      · cases h
      · rename_i hlt
        split at h
        · cases h
        · rename_i inv' hi
          cases h
          refine ⟨?_, cur, hcur, ?_⟩
          · show inv'.specVersion = _
            rw [hadd hi]
            exact specVersion_uri rfl hsv
          · intro hc
            have h1 : sv = c!"1.0" ∨ sv = c!"1.1" := by simpa [supported] using hsv
            have h2 : cur = c!"1.0" ∨ cur = c!"1.1" := by simpa [supported] using hc
            rcases h1 with rfl | rfl <;> rcases h2 with rfl | rfl
            · exact Or.inl rfl
            · exact absurd (by decide) hlt
            · exact Or.inr ⟨rfl, rfl⟩
            · exact Or.inl rfl
  · rename_i heq
    rw [not_not] at heq
    split at h
    · cases h
    · rename_i inv' hi
      cases h
      refine ⟨?_, sv, heq.symm, fun _ => Or.inl rfl⟩
      show inv'.specVersion = _
      rw [hadd hi]
      exact heq.symm

/-- **C66**, for objects made by the library: the inventory of the first version names the version of
the specification in the declaration, and those of later versions name 1.1, so that the version never
goes down; if the declaration is of version 1.1, the object passes all checks. What is missing: see
`C66_violated`. -/
theorem C66_partial {E : Env} (hE : Libraries E) (hcwd : ∀ w ∈ E.cwd, SafeName w) {objdir : Str} {trees : List Tree} {s : FS}
    (h : History E (absComps E.cwd objdir) trees s) (hno : NoCollision E.raw (InTrees trees)) (hlen : trees.length ≤ 99999) :
    (∃ dv ∈ supported, look s (absComps E.cwd objdir ++ [c!"0=ocfl_object_" ++ dv]) ≠ none ∧
      ∀ i, 1 ≤ i → i ≤ trees.length → ∃ j, StoredJson E.lib s (absComps E.cwd objdir ++ [styleName none i, c!"inventory.json"]) j ∧
        ∀ v, InventorySpec j v ↔ v = if i = 1 then dv else c!"1.1") ∧
    (look s (absComps E.cwd objdir ++ [c!"0=ocfl_object_1.1"]) ≠ none → ∀ cfg : Config, cfg.lax = false →
      ∃ es, validateObject E cfg 0 s objdir = .ok (true, es)) := by
  obtain ⟨dv, recs, hs⟩ := history_sound hE.json hE.hash hE.word hcwd h hno hlen
  refine ⟨⟨dv, hs.spec, hs.declared.mpr rfl, ?_⟩, fun hd cfg hlax => (C74 hE hcwd h hno hlen hlax).mpr (Or.inl hd)⟩
  intro i h1 h2
  obtain ⟨r, _, _, hv⟩ := hs.at h1 h2
  exact ⟨_, hv.json hE.json, fun v => hs.version_type h1 h2 hv⟩

/-- **C66** fails for every object that was created with version 1.0 of the specification: after the
second update, which succeeds, validation does not accept it any more, and every further update raises
without changing anything. (`NewVersion.next_version` is called without a version and uses 1.1, while the
declaration stays.) -/
theorem C66_broken {E : Env} (hE : Libraries E) (hcwd : ∀ w ∈ E.cwd, SafeName w) {objdir : Str} {trees : List Tree} {s : FS}
    (h : History E (absComps E.cwd objdir) trees s) (hno : NoCollision E.raw (InTrees trees)) (hlen : trees.length ≤ 99999)
    (hdecl : look s (absComps E.cwd objdir ++ [c!"0=ocfl_object_1.0"]) ≠ none) (hthree : 3 ≤ trees.length) :
    (∀ cfg : Config, cfg.lax = false → ¬ ∃ es, validateObject E cfg 0 s objdir = .ok (true, es)) ∧
    ∀ (o : Obj), o.lax = false → ∀ srcdir metadata abort, ∃ e,
      run (addVersionWithContent E o objdir srcdir metadata abort) s = (s, .error e) := by
  obtain ⟨dv, recs, hs⟩ := history_sound hE.json hE.hash hE.word hcwd h hno hlen
  have hdv := hs.declared (v := c!"1.0") |>.mp hdecl
  have hinv : ∀ check, ¬ ValidObject E check s (absComps E.cwd objdir) :=
    fun check => hs.invalid hE (by rw [← hdv]; decide) hthree check
  refine ⟨?_, ?_⟩
  · intro cfg hlax hv
    exact hinv _ ((C73 hE hlax hs.wf).mp hv).2
  · intro o hlax srcdir metadata abort
    have hp : ∃ e, prepareUpdate E o objdir srcdir metadata abort s = .error e := by
      cases hsn : startNewVersion E o objdir srcdir (some o.digestAlgorithm) o.fixity metadata false s with
      | error e =>
        refine ⟨e, ?_⟩
        unfold prepareUpdate
        rw [hsn]
      | ok r =>
        obtain ⟨base', src', nv⟩ := r
        obtain ⟨sd, _, inv0, alg, m, vs, style, n, inv1, hst⟩ := startNewVersion_ok hE.json hsn
        exact absurd ((C73 hE (cfg := { checkDigests := false, lax := o.lax }) hlax hs.wf).mp hst.valid).2 (hinv _)
    obtain ⟨e, he⟩ := hp
    refine ⟨e, ?_⟩
    unfold addVersionWithContent
    rw [run_bind, run_look, he]

/-! ## Examples -/

/-- Was a version written? -/
def gaveVersion (r : FS × Py (Option Inv)) : Bool :=
  match r.2 with
  | .ok (some _) => true
  | _ => false

theorem gaveVersion_ok {r : FS × Py (Option Inv)} (h : gaveVersion r = true) : ∃ inv, r = (r.1, .ok (some inv)) := by
  obtain ⟨s, r⟩ := r
  cases r with
  | error e => cases h
  | ok a =>
    cases a with
    | none => cases h
    | some inv => exact ⟨inv, rfl⟩

/-- Settings with version 1.0 of the specification. -/
def oldObj : Obj := { demoObj with specVersion := c!"1.0" }

theorem oldObj_good : GoodSettings oldObj := ⟨demoObj_good.id, by decide, demoObj_good.algorithm, demoObj_good.contentDirectory, demoObj_good.fixity⟩

/-- An update from the source directory, also without differences. -/
def oldUpdate : Prog (Option Inv) := addVersionWithContent demoEnv oldObj c!"obj" (some c!"src") (some demoMeta) false

def oldMade : FS := (run (create demoEnv oldObj c!"src" (some demoMeta) (some c!"obj")) demoFS).1
def oldOnce : FS := (run oldUpdate oldMade).1
def oldTwice : FS := (run oldUpdate oldOnce).1

/-- The trees of the three versions. -/
def oldTrees : List Tree := [FileBelow demoFS (absComps demoEnv.cwd c!"src"), FileBelow oldMade (absComps demoEnv.cwd c!"src"),
  FileBelow oldOnce (absComps demoEnv.cwd c!"src")]

theorem old_history1 : History demoEnv (absComps demoEnv.cwd c!"obj") [FileBelow demoFS (absComps demoEnv.cwd c!"src")] oldMade := by
  obtain ⟨inv, hr⟩ := succeeded_ok (r := run (create demoEnv oldObj c!"src" (some demoMeta) (some c!"obj")) demoFS) (by decide +kernel)
  exact .create demoFS_wf oldObj_good demoMeta_good rfl (vacant_of demoFS_wf (by decide +kernel))
    ⟨[c!"a.txt"], [1, 2, 3], by decide, by decide +kernel⟩ (fun h => by cases h) hr

theorem old_history2 : History demoEnv (absComps demoEnv.cwd c!"obj")
    [FileBelow demoFS (absComps demoEnv.cwd c!"src"), FileBelow oldMade (absComps demoEnv.cwd c!"src")] oldOnce := by
  obtain ⟨inv, hr⟩ := gaveVersion_ok (r := run oldUpdate oldMade) (by decide +kernel)
  exact .update old_history1 (Or.inr rfl) demoMeta_good rfl (fun h => by cases h) hr

theorem old_history3 : History demoEnv (absComps demoEnv.cwd c!"obj") oldTrees oldTwice := by
  obtain ⟨inv, hr⟩ := gaveVersion_ok (r := run oldUpdate oldOnce) (by decide +kernel)
  exact .update old_history2 (Or.inr rfl) demoMeta_good rfl (fun h => by cases h) hr

theorem old_noCollision : NoCollision demoEnv.raw (InTrees oldTrees) := by
  refine noCollision_of (l := [[1, 2, 3], [4]]) ?_ (by decide +kernel)
  intro t ht r b h
  have hsub : ∀ b ∈ filesBelow demoFS (absComps demoEnv.cwd c!"src") ++ filesBelow oldMade (absComps demoEnv.cwd c!"src") ++
      filesBelow oldOnce (absComps demoEnv.cwd c!"src"), b ∈ [[1, 2, 3], ([4] : Bytes)] := by decide +kernel
  have ht : t = FileBelow demoFS (absComps demoEnv.cwd c!"src") ∨ t = FileBelow oldMade (absComps demoEnv.cwd c!"src") ∨
      t = FileBelow oldOnce (absComps demoEnv.cwd c!"src") := by
    simpa [oldTrees] using ht
  rcases ht with rfl | rfl | rfl
  · exact hsub b (List.mem_append_left _ (List.mem_append_left _ (mem_filesBelow h)))
  · exact hsub b (List.mem_append_left _ (List.mem_append_right _ (mem_filesBelow h)))
  · exact hsub b (List.mem_append_right _ (mem_filesBelow h))

/-- **C66** fails: an object with version 1.0 of the specification is valid when it is created and after
one update; a second update succeeds and leaves an object that is not valid, and cannot be updated. -/
theorem C66_violated : ∃ s0 s1 s2 s3 : FS, ∃ inv0 inv1 inv2,
    run (create demoEnv oldObj c!"src" (some demoMeta) (some c!"obj")) s0 = (s1, .ok inv0) ∧
    run oldUpdate s1 = (s2, .ok (some inv1)) ∧ run oldUpdate s2 = (s3, .ok (some inv2)) ∧
    (∃ es, validateObject demoEnv {} 0 s1 c!"obj" = .ok (true, es)) ∧
    (∃ es, validateObject demoEnv {} 0 s2 c!"obj" = .ok (true, es)) ∧
    (¬ ∃ es, validateObject demoEnv {} 0 s3 c!"obj" = .ok (true, es)) ∧
    ∃ e, run oldUpdate s3 = (s3, .error e) := by
  obtain ⟨inv0, h0⟩ := succeeded_ok (r := run (create demoEnv oldObj c!"src" (some demoMeta) (some c!"obj")) demoFS) (by decide +kernel)
  obtain ⟨inv1, h1⟩ := gaveVersion_ok (r := run oldUpdate oldMade) (by decide +kernel)
  obtain ⟨inv2, h2⟩ := gaveVersion_ok (r := run oldUpdate oldOnce) (by decide +kernel)
  have hno := old_noCollision
  have hsub : ∀ b, InTrees [FileBelow demoFS (absComps demoEnv.cwd c!"src"), FileBelow oldMade (absComps demoEnv.cwd c!"src")] b → InTrees oldTrees b :=
    fun b hb => InTrees.append hb
  have hsub0 : ∀ b, InTrees [FileBelow demoFS (absComps demoEnv.cwd c!"src")] b → InTrees oldTrees b :=
    fun b hb => hsub b (InTrees.append (trees := [_]) hb)
  have hbr := C66_broken demoLibraries demoEnv_cwd old_history3 hno (by decide) (by decide +kernel) (by decide)
  exact ⟨demoFS, oldMade, oldOnce, oldTwice, inv0, inv1, inv2, h0, h1, h2,
    (C74 demoLibraries demoEnv_cwd old_history1 (NoCollision.mono hno hsub0) (by decide) rfl).mpr (Or.inr (by decide)),
    (C74 demoLibraries demoEnv_cwd old_history2 (NoCollision.mono hno hsub) (by decide) rfl).mpr (Or.inr (by decide)),
    hbr.1 {} rfl, hbr.2 oldObj rfl _ _ _⟩

/-- The object of the example, in which the algorithm was changed, is valid. -/
example : ∃ es, validateObject demoEnv {} 0 demoGrown c!"obj" = .ok (true, es) :=
  (C74 demoLibraries demoEnv_cwd demo_history demo_noCollision (by decide) rfl).mpr (Or.inl (by decide +kernel))

/-- Both of its inventories name version 1.1. -/
example : ∃ j, StoredJson demoEnv.lib demoGrown (absComps demoEnv.cwd c!"obj" ++ [c!"v2", c!"inventory.json"]) j ∧ InventorySpec j c!"1.1" := by
  obtain ⟨⟨dv, _, _, h⟩, _⟩ := C66_partial demoLibraries demoEnv_cwd demo_history demo_noCollision (by decide)
  obtain ⟨j, h1, h2⟩ := h 2 (by decide) (by decide)
  exact ⟨j, h1, (h2 _).mpr (by rw [if_neg (by decide)])⟩

/-- An upgrade by `next_version`, and a downgrade that is refused. -/
example : (∃ nv, NV.nextVersion { type := some (typeUri c!"1.0"), versions := some [(c!"v1", {})], head := some c!"v1" }
      c!"1.1" none none true true false none = .ok nv ∧ nv.inv.specVersion = some c!"1.1") ∧
    NV.nextVersion { type := some (typeUri c!"1.1"), versions := some [(c!"v1", {})], head := some c!"v1" }
      c!"1.0" none none true true false none = .error .newVersionException := by
  refine ⟨⟨_, rfl, by decide +kernel⟩, rfl⟩

end Ocfl
