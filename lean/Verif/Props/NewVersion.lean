import Verif.Proofs.NewVersion

/-!
# C06 - C14: building a new version
-/

namespace Ocfl
open Spec Ocfl.Inv NV

/-- An example environment: the digest of a source file is `d` followed by its last character. -/
def exEnv : NVEnv where
  srcDigest _ s := if s = c!"missing" then .error .fileNotFound else .ok ('d' :: s.getLast?.toList)
  md5hex s := s

/-- An example: version 2 in the making, version 1 holds one file. -/
def exInv : Inv :=
  { id := some c!"obj", digestAlgorithm := some c!"sha512", head := some c!"v2"
    manifest := some [(c!"da", [c!"v1/content/a"])]
    versions := some [(c!"v1", { state := some [(c!"da", [c!"a"])] }),
                      (c!"v2", { state := some [(c!"da", [c!"a"])] })] }

def exNV : NV := { inv := exInv, forwardDelta := some true }

theorem exNV_building : Building exNV c!"v2" :=
  ⟨by decide, by decide, by unfold Dict.NK; decide, by unfold PathsUnique; decide, by unfold Dict.NK; decide⟩

/-- **C06.** Whatever calls are made, the manifest keeps listing each content path once. -/
theorem C06_content_paths_unique (E : NVEnv) (nv : NV) (h : PathsUnique nv.inv.manifestD) (ops : List Op) :
    PathsUnique (run E ops nv).inv.manifestD := by
  have := run_induct (E := E) (P := fun nv => nv.inv.contentPaths.Nodup)
    (fun op nv h => step_contentPaths_nodup h) ops nv (by rw [contentPaths_eq]; exact h)
  rw [contentPaths_eq] at this
  exact this

/-- Non-vacuity: two sources with one normal form end up at different content paths. -/
example : PathsUnique exNV.inv.manifestD ∧
    (run exEnv [.add c!"x" c!"x" none, .delete c!"a", .add c!"x" c!"a" none,
        .add c!"q/x" c!"y" (some c!"v2/content/x")] { exNV with dedupe := false }).inv.manifestD =
      [(c!"da", [c!"v1/content/a"]), (c!"dx", [c!"v2/content/x", c!"v2/content/x__2"])] := by
  refine ⟨by unfold PathsUnique; decide, by decide⟩

/-- **C07**, one call. In a new version whose state describes the finite map `f`, a call is
accepted exactly when its arguments pass the checks and the corresponding operation on `f` is
defined, and then the new state describes the result. -/
theorem C07_step (E : NVEnv) (nv : NV) (head : Str) (f : Str → Option Str) (hb : Building nv head)
    (hf : Represents (nv.inv.stateOf head) f) (op : Op) :
    ((step E op nv).2.isOk = true ↔
      ArgsOK nv.norm head nv.inv.contentDirectoryToUse nv.inv.contentPaths op ∧
      (absStep (fun s => (E.srcDigest (nv.inv.digestAlgorithm.getD []) s).toOption) op f).isSome = true) ∧
    ((step E op nv).2.isOk = true →
      ∀ f', absStep (fun s => (E.srcDigest (nv.inv.digestAlgorithm.getD []) s).toOption) op f = some f' →
        Represents ((step E op nv).1.inv.stateOf head) f') := by
  have hmem : ∀ p, p ∈ listed (nv.inv.stateOf head) ↔ (f p).isSome = true := by
    intro p
    rw [mem_listed, Option.isSome_iff_exists]
    constructor
    · rintro ⟨d, hd⟩; exact ⟨d, (hf p d).mp hd⟩
    · rintro ⟨d, hd⟩; exact ⟨d, (hf p d).mpr hd⟩
  constructor
  · cases op with
    | add s l c =>
      simp only [step, add_eq, hb.head_eq, ArgsOK, absStep]
      rw [← chooseContentPath_isOk (E := E), logicalPaths_eq]
      cases hc : nv.chooseContentPath E head s c with
      | error e => simp [Except.isOk, Except.toBool]
      | ok cp =>
        simp only
        by_cases hl : l ∈ listed (nv.inv.stateOf head)
        · have : (f l).isSome = true := (hmem l).mp hl
          cases E.srcDigest (nv.inv.digestAlgorithm.getD []) s <;>
            simp [hl, Except.isOk, Except.toBool, Except.toOption, mapInsert, this]
        · have : ¬ (f l).isSome = true := fun h => hl ((hmem l).mpr h)
          obtain ⟨b, hv⟩ := Option.isSome_iff_exists.mp hb.block
          cases E.srcDigest (nv.inv.digestAlgorithm.getD []) s <;>
            simp_all [Except.isOk, Except.toBool, Except.toOption, mapInsert]
    | delete l =>
      simp only [step, delete_eq, hb.head_eq, ArgsOK, absStep, true_and]
      cases hd : deleteFromState (nv.inv.stateOf head) l with
      | none =>
        have : ¬ (f l).isSome = true := fun h => deleteFromState_none.mp hd ((hmem l).mpr h)
        simp [Except.isOk, Except.toBool, mapDelete, this]
      | some r =>
        have : (f l).isSome = true := by
          rw [← hmem]
          by_contra hc
          rw [deleteFromState_none.mpr hc] at hd; cases hd
        simp [Except.isOk, Except.toBool, mapDelete, this]
    | rename o n =>
      simp only [step, rename_eq, hb.head_eq, ArgsOK, absStep, true_and]
      rw [logicalPaths_eq]
      by_cases hn : n ∈ listed (nv.inv.stateOf head)
      · have : (f n).isSome = true := (hmem n).mp hn
        have h2 : ¬ (f n).isNone = true := by rw [Option.isNone_iff_eq_none]; intro h; simp [h] at this
        simp [hn, Except.isOk, Except.toBool, mapRename, h2]
      · have : ¬ (f n).isSome = true := fun h => hn ((hmem n).mpr h)
        have h2 : (f n).isNone = true := by
          rw [Option.isNone_iff_eq_none]; cases hfn : f n with
          | none => rfl
          | some x => simp [hfn] at this
        cases hd : deleteFromState (nv.inv.stateOf head) o with
        | none =>
          have h3 : ¬ (f o).isSome = true := fun h => deleteFromState_none.mp hd ((hmem o).mpr h)
          simp [hn, Except.isOk, Except.toBool, mapRename, h3]
        | some r =>
          have h3 : (f o).isSome = true := by
            rw [← hmem]
            by_contra hc
            rw [deleteFromState_none.mpr hc] at hd; cases hd
          simp [hn, Except.isOk, Except.toBool, mapRename, h3, h2]
  · intro hok f' hf'
    have hok' : (step E op nv).2 = .ok () := by
      cases h : (step E op nv).2 with
      | error e => rw [h] at hok; cases hok
      | ok u => rfl
    obtain ⟨head', hh, he⟩ := step_ok hok'
    rw [hb.head_eq] at hh; simp at hh; subst hh
    generalize (step E op nv).1 = nv' at he ⊢
    intro p d
    cases he with
    | @add s l c cp dg b hc hl hd hv =>
      rw [afterAdd_stateOf, stateOf_setState_self hv, Lists_stateAppend hb.stateKeys, hf p d]
      have hn : ¬ (f l).isSome = true := fun h => hl ((hmem l).mpr h)
      simp [absStep, hd, Except.toOption, mapInsert, hn] at hf'
      subst hf'
      have hfl : f l = none := by simpa using hn
      by_cases hp : p = l
      · subst hp; simp [hfl, eq_comm]
      · simp [hp]
    | @delete l st dg last b hd hv =>
      simp only
      rw [afterDelete_stateOf, stateOf_setState_self hv, Lists_delete hb.stateKeys hb.statePaths hd, hf p d]
      simp only [absStep, mapDelete] at hf'
      split at hf'
      · simp at hf'; subst hf'
        by_cases hp : p = l
        · simp [hp]
        · simp [hp]
      · cases hf'
    | @rename o n st dg last b hn hd hv =>
      simp only
      rw [afterRename_stateOf, stateOf_setState_self hv,
        Lists_stateAppend (deleteFromState_get hb.stateKeys hd).1,
        Lists_delete hb.stateKeys hb.statePaths hd, hf p d]
      have hod : f o = some dg := (hf o dg).mp (delete_digest hb.stateKeys hd)
      have hn' : ¬ (f n).isSome = true := fun h => hn ((hmem n).mpr h)
      simp only [absStep, mapRename] at hf'
      split at hf'
      · simp at hf'; subst hf'
        by_cases hp : p = n
        · subst hp
          have : f p = none := by simpa using hn'
          simp [hod, this, eq_comm]
        · by_cases hp' : p = o
          · subst hp'; simp [hp]
          · simp [hp, hp']
      · cases hf'

/-- Non-vacuity of `C07_step`: the example state describes a map, and a rename is accepted. -/
example : Building exNV c!"v2" ∧ Represents (exNV.inv.stateOf c!"v2") (fun p => if p = c!"a" then some c!"da" else none) ∧
    (step exEnv (.rename c!"a" c!"b") exNV).1.inv.stateOf c!"v2" = [(c!"da", [c!"b"])] := by
  refine ⟨exNV_building, ?_, by decide⟩
  intro p d
  have hs : exNV.inv.stateOf c!"v2" = [(c!"da", [c!"a"])] := by decide
  rw [hs]
  simp only [Lists, List.mem_singleton, Prod.mk.injEq]
  constructor
  · rintro ⟨ps, ⟨rfl, rfl⟩, hp⟩; simp at hp; simp [hp]
  · intro h
    by_cases hp : p = c!"a"
    · rw [if_pos hp] at h; simp at h; exact ⟨[c!"a"], ⟨h.symm, rfl⟩, by simp [hp]⟩
    · rw [if_neg hp] at h; cases h

/-- **C07**, every sequence of calls. The accepted calls, taken as operations on the finite map
from logical paths to digests, are all defined, and the final state describes their result. -/
theorem C07_run (E : NVEnv) (ops : List Op) :
    ∀ (nv : NV) (head : Str) (f : Str → Option Str), Building nv head →
      Represents (nv.inv.stateOf head) f →
      ∃ f', absRun (fun s => (E.srcDigest (nv.inv.digestAlgorithm.getD []) s).toOption) (outcomes E ops nv) f = some f' ∧
        Represents ((run E ops nv).inv.stateOf head) f' := by
  induction ops with
  | nil => intro nv head f _ hf; exact ⟨f, rfl, hf⟩
  | cons op ops ih =>
    intro nv head f hb hf
    obtain ⟨hiff, hrep⟩ := C07_step E nv head f hb hf op
    have halg : (step E op nv).1.inv.digestAlgorithm = nv.inv.digestAlgorithm := by
      rcases step_cases E op nv with ⟨_, h⟩ | ⟨_, h', _, he⟩
      · rw [h]
      · exact he.digestAlgorithm
    cases hok : (step E op nv).2.isOk with
    | true =>
      obtain ⟨f1, hf1⟩ := Option.isSome_iff_exists.mp (hiff.mp hok).2
      obtain ⟨f', h1, h2⟩ := ih (step E op nv).1 head f1 (step_building hb) (hrep hok f1 hf1)
      refine ⟨f', ?_, h2⟩
      simp only [outcomes, hok, absRun, hf1, Option.bind_some]
      rw [halg] at h1; exact h1
    | false =>
      have hsame : (step E op nv).1 = nv := by
        rcases step_cases E op nv with ⟨_, h⟩ | ⟨h, _⟩
        · exact h
        · rw [h] at hok; cases hok
      obtain ⟨f', h1, h2⟩ := ih (step E op nv).1 head f (step_building hb) (by rw [hsame]; exact hf)
      refine ⟨f', ?_, h2⟩
      simp only [outcomes, hok, absRun]
      rw [halg] at h1; exact h1

/-- Non-vacuity: a history with accepted and refused calls. -/
example : (outcomes exEnv [.add c!"x" c!"a" none, .rename c!"a" c!"b", .add c!"x" c!"a" none, .delete c!"zz"] exNV).map Prod.snd
    = [false, true, true, false] := by decide

/-- **C07.** A call refused because the map operation is undefined raises
`NewVersionException`. -/
theorem C07_refusal (E : NVEnv) (nv : NV) (head : Str) (hb : Building nv head) (op : Op)
    (hargs : ArgsOK nv.norm head nv.inv.contentDirectoryToUse nv.inv.contentPaths op)
    (hsrc : ∀ s l c, op = .add s l c → ∃ d, E.srcDigest (nv.inv.digestAlgorithm.getD []) s = .ok d)
    (h : (step E op nv).2.isOk = false) : (step E op nv).2 = .error .newVersionException := by
  cases op with
  | add s l c =>
    obtain ⟨cp, hc⟩ := (chooseContentPath_isOk (E := E)).mpr hargs
    obtain ⟨d, hd⟩ := hsrc s l c rfl
    obtain ⟨b, hv⟩ := Option.isSome_iff_exists.mp hb.block
    simp only [step, add_eq, hb.head_eq, hc, hd, hv] at h ⊢
    split at h
    · rename_i hl; simp [hl]
    · cases h
  | delete l =>
    simp only [step, delete_eq, hb.head_eq] at h ⊢
    split at h
    · simp
    · cases h
  | rename o n =>
    simp only [step, rename_eq, hb.head_eq] at h ⊢
    split at h
    · rename_i hl; simp [hl]
    · rename_i hl
      split at h
      · simp [hl]
      · cases h

/-- **C08.** A refused call leaves the inventory, the queue of files to copy and all settings
exactly as they were. -/
theorem C08_refused_call_changes_nothing (E : NVEnv) (op : Op) (nv : NV) (e : PyErr)
    (h : (step E op nv).2 = .error e) : (step E op nv).1 = nv := step_error h

example : (step exEnv (.add c!"missing" c!"m" none) exNV).2 = .error .fileNotFound ∧
    (step exEnv (.add c!"x" c!"m" (some c!"v1/content/x")) exNV).2 = .error .newVersionException := by decide

/-- **C09.** No sequence of calls changes any other version, the identification fields, or the
manifest entries of content paths outside the directory of the new version. (An absolute path can
enter the manifest through an absolute source path, see C12.) -/
theorem C09_earlier_versions_untouched (E : NVEnv) (ops : List Op) (nv : NV) (head : Str)
    (hb : Building nv head) (hh : PlainName head) :
    (∀ v, v ≠ head → (run E ops nv).inv.versionData v = nv.inv.versionData v) ∧
    (∀ d p, ¬ InDir head p → ¬ IsAbs p →
      (Lists (run E ops nv).inv.manifestD d p ↔ Lists nv.inv.manifestD d p)) ∧
    (run E ops nv).inv.id = nv.inv.id ∧ (run E ops nv).inv.type = nv.inv.type ∧
    (run E ops nv).inv.head = nv.inv.head ∧
    (run E ops nv).inv.digestAlgorithm = nv.inv.digestAlgorithm ∧
    (run E ops nv).inv.contentDirectory = nv.inv.contentDirectory ∧
    (run E ops nv).inv.fixity = nv.inv.fixity := by
  refine run_induct_building (E := E) (head := head) (P := fun nv' =>
    (∀ v, v ≠ head → nv'.inv.versionData v = nv.inv.versionData v) ∧
    (∀ d p, ¬ InDir head p → ¬ IsAbs p → (Lists nv'.inv.manifestD d p ↔ Lists nv.inv.manifestD d p)) ∧
    nv'.inv.id = nv.inv.id ∧ nv'.inv.type = nv.inv.type ∧ nv'.inv.head = nv.inv.head ∧
    nv'.inv.digestAlgorithm = nv.inv.digestAlgorithm ∧
    nv'.inv.contentDirectory = nv.inv.contentDirectory ∧ nv'.inv.fixity = nv.inv.fixity)
    ?_ ops nv hb ⟨fun _ _ => rfl, fun _ _ _ _ => Iff.rfl, rfl, rfl, rfl, rfl, rfl, rfl⟩
  intro op n1 n2 hb1 he ⟨h1, h2, h3, h4, h5, h6, h7, h8⟩
  refine ⟨fun v hv => by rw [he.versionData hv, h1 v hv], ?_, by rw [he.id, h3], by rw [he.type, h4],
    by rw [he.head, h5], by rw [he.digestAlgorithm, h6], by rw [he.contentDirectory, h7], by rw [he.fixity, h8]⟩
  intro d p hp ha
  rw [← h2 d p hp ha]
  cases he with
  | add hc hl hd hv =>
    rw [afterAdd_manifestD]
    split
    · rw [Lists_stateAppend hb1.manifestKeys]
      have := chooseContentPath_inDir hh hc
      constructor
      · rintro (h | ⟨_, rfl⟩)
        · exact h
        · rcases this with h | h
          · exact absurd h hp
          · exact absurd h ha
      · exact Or.inl
    · rfl
  | delete hd hv =>
    simp only [afterDelete_manifestD]
    split
    · rw [Lists_dropVersionPaths hb1.manifestKeys]
      exact ⟨fun h => h.1, fun h => ⟨h, fun _ => not_inDir_iff.mpr hp⟩⟩
    · rfl
  | rename hn hd hv =>
    simp only [afterRename_manifestD]
    split
    · rw [Lists_dropVersionPaths hb1.manifestKeys]
      exact ⟨fun h => h.1, fun h => ⟨h, fun _ => not_inDir_iff.mpr hp⟩⟩
    · rfl

/-- Non-vacuity: `v1/content/a` is a path of an earlier version, outside `v2`. -/
example : ¬ InDir c!"v2" c!"v1/content/a" ∧ ¬ IsAbs c!"v1/content/a" ∧ PlainName c!"v2" ∧ Building exNV c!"v2" ∧
    Lists exNV.inv.manifestD c!"da" c!"v1/content/a" := by
  refine ⟨by decide, ?_, ⟨by decide, by decide⟩, exNV_building, ⟨[c!"v1/content/a"], by decide, by decide⟩⟩
  rintro ⟨r, h⟩; cases h

/-- Every digest in the state of `head` has content. -/
def HasContent (nv : NV) (head : Str) : Prop :=
  ∀ d p, Lists (nv.inv.stateOf head) d p → ∃ cp, Lists nv.inv.manifestD d cp

/-- **C10** is false of the code: adding a file and renaming it in the same version leaves the
renamed path without any content path. -/
theorem C10_violated :
    ∃ (nv : NV) (ops : List Op), Building nv c!"v2" ∧ HasContent nv c!"v2" ∧
      Lists ((run exEnv ops nv).inv.stateOf c!"v2") c!"dx" c!"y" ∧
      ¬ ∃ cp, Lists (run exEnv ops nv).inv.manifestD c!"dx" cp := by
  refine ⟨exNV, [.add c!"x" c!"x" none, .rename c!"x" c!"y"], exNV_building, ?_, ?_, ?_⟩
  · rintro d p ⟨ps, h, hp⟩
    have hs : exNV.inv.stateOf c!"v2" = [(c!"da", [c!"a"])] := by decide
    rw [hs] at h
    simp at h
    obtain ⟨rfl, rfl⟩ := h
    exact ⟨c!"v1/content/a", [c!"v1/content/a"], by decide, by decide⟩
  · exact ⟨[c!"y"], by decide, by decide⟩
  · rintro ⟨cp, ps, h, hp⟩
    have hm : (run exEnv [.add c!"x" c!"x" none, .rename c!"x" c!"y"] exNV).inv.manifestD =
      [(c!"da", [c!"v1/content/a"]), (c!"dx", [])] := by decide
    rw [hm] at h
    simp at h
    subst h
    simp at hp

/-- The renames that keep content: the path's digest is shared with another logical path of the
new version, or it has content outside the new version's directory. -/
def RenameSafe (head : Str) (nv : NV) : Op → Prop
  | .rename o _ => ∀ d, Lists (nv.inv.stateOf head) d o →
      (∃ p, p ≠ o ∧ Lists (nv.inv.stateOf head) d p) ∨ (∃ cp, Lists nv.inv.manifestD d cp ∧ ¬ InDir head cp)
  | _ => True

/-- **C10** (partial). If every rename in the sequence is of a path whose digest also has another
logical path or content outside the new version, then every logical path keeps having content.
Missing with respect to the full statement: renames of content first stored in this very version,
where the code loses the content (`C10_violated`). -/
theorem C10_has_content_partial (E : NVEnv) (ops : List Op) (nv : NV) (head : Str)
    (hb : Building nv head) (hc : HasContent nv head) (hs : Always E (RenameSafe head) ops nv) :
    HasContent (run E ops nv) head := by
  refine run_induct_always (P := fun nv => HasContent nv head) (C := RenameSafe head) ?_ ops nv hb hs hc
  intro op n1 n2 hb1 he hsafe hP d p hp
  cases he with
  | add hc hl hd hv =>
    rw [afterAdd_stateOf, stateOf_setState_self hv, Lists_stateAppend hb1.stateKeys] at hp
    rw [afterAdd_manifestD]
    split
    · rcases hp with hp | ⟨rfl, _⟩
      · obtain ⟨cp, h⟩ := hP d p hp
        exact ⟨cp, (Lists_stateAppend hb1.manifestKeys).mpr (Or.inl h)⟩
      · exact ⟨_, (Lists_stateAppend hb1.manifestKeys).mpr (Or.inr ⟨rfl, rfl⟩)⟩
    · rename_i hw
      rcases hp with hp | ⟨rfl, _⟩
      · exact hP d p hp
      · cases hps : n1.inv.contentPathsForDigest d with
        | nil => simp [wantCopy, hps] at hw
        | cons q qs =>
          refine ⟨q, (Lists_iff_get? hb1.manifestKeys).mpr ?_⟩
          unfold contentPathsForDigest at hps
          rw [hps]; simp
  | @delete l st dg last b hd hv =>
    simp only [afterDelete_stateOf, stateOf_setState_self hv] at hp
    rw [Lists_delete hb1.stateKeys hb1.statePaths hd] at hp
    obtain ⟨cp, h⟩ := hP d p hp.1
    simp only [afterDelete_manifestD]
    cases last with
    | false => exact ⟨cp, h⟩
    | true =>
      simp only [if_true]
      refine ⟨cp, (Lists_dropVersionPaths hb1.manifestKeys).mpr ⟨h, ?_⟩⟩
      intro hdd
      subst hdd
      obtain ⟨_, _, ps, hg, hpp, _, hlt, _⟩ := deleteFromState_get hb1.stateKeys hd
      obtain ⟨rfl, _⟩ := hlt rfl
      have := (Lists_iff_get? hb1.stateKeys).mp hp.1
      rw [hg] at this
      simp at this
      exact absurd this hp.2
  | @rename o n st dg last b hn hd hv =>
    simp only [afterRename_stateOf, stateOf_setState_self hv] at hp
    rw [Lists_stateAppend (deleteFromState_get hb1.stateKeys hd).1,
      Lists_delete hb1.stateKeys hb1.statePaths hd] at hp
    simp only [afterRename_manifestD]
    have hold := delete_digest hb1.stateKeys hd
    have hlist : ∃ q, Lists (n1.inv.stateOf head) d q := by
      rcases hp with hp | ⟨rfl, _⟩
      · exact ⟨p, hp.1⟩
      · exact ⟨o, hold⟩
    obtain ⟨q, hq⟩ := hlist
    obtain ⟨cp, h⟩ := hP d q hq
    cases last with
    | false => exact ⟨cp, h⟩
    | true =>
      simp only [if_true]
      by_cases hdd : d = dg
      · subst hdd
        obtain ⟨_, _, ps, hg, hpp, _, hlt, _⟩ := deleteFromState_get hb1.stateKeys hd
        obtain ⟨rfl, _⟩ := hlt rfl
        rcases hsafe d hold with ⟨p', hp', hl'⟩ | ⟨cp', hcp', hnd⟩
        · have := (Lists_iff_get? hb1.stateKeys).mp hl'
          rw [hg] at this
          simp at this
          exact absurd this hp'
        · exact ⟨cp', (Lists_dropVersionPaths hb1.manifestKeys).mpr ⟨hcp', fun _ => not_inDir_iff.mpr hnd⟩⟩
      · exact ⟨cp, (Lists_dropVersionPaths hb1.manifestKeys).mpr ⟨h, fun e => absurd e hdd⟩⟩

/-- Non-vacuity: a carried-forward file is renamed, then files are added and removed. -/
example : Building exNV c!"v2" ∧ HasContent exNV c!"v2" ∧
    Always exEnv (RenameSafe c!"v2") [.rename c!"a" c!"b", .add c!"x" c!"x" none, .delete c!"b"] exNV := by
  have hs : exNV.inv.stateOf c!"v2" = [(c!"da", [c!"a"])] := by decide
  refine ⟨exNV_building, ?_, ?_, trivial, trivial, trivial⟩
  · rintro d p ⟨ps, h, hp⟩
    rw [hs] at h
    simp at h
    obtain ⟨rfl, rfl⟩ := h
    exact ⟨c!"v1/content/a", [c!"v1/content/a"], by decide, by decide⟩
  · rintro d ⟨ps, h, hp⟩
    rw [hs] at h
    simp at h
    obtain ⟨rfl, rfl⟩ := h
    exact Or.inr ⟨c!"v1/content/a", ⟨[c!"v1/content/a"], by decide, by decide⟩, by decide⟩

/-- **C10**, exactly when a rename keeps content: after an accepted rename of `o`, every logical
path of the new version has content if and only if the rename was safe. -/
theorem C10_rename_exact (nv : NV) (head : Str) (hb : Building nv head) (hc : HasContent nv head)
    (o n : Str) (h : (nv.rename o n).2 = .ok ()) :
    HasContent (nv.rename o n).1 head ↔ RenameSafe head nv (.rename o n) := by
  let E : NVEnv := ⟨fun _ _ => .error .fileNotFound, fun s => s⟩
  constructor
  · intro hP d hd
    obtain ⟨head', hh, he⟩ := step_ok (E := E) (op := .rename o n) h
    rw [hb.head_eq] at hh; simp at hh; subst hh
    have hs : (step E (.rename o n) nv).1 = (nv.rename o n).1 := rfl
    rw [hs] at he
    generalize (nv.rename o n).1 = nv' at he hP
    cases he with
    | @rename _ _ st dg last b hn hdel hv =>
      have hdg : d = dg := Lists_unique hb.statePaths hd (delete_digest hb.stateKeys hdel)
      subst hdg
      obtain ⟨_, _, ps, hg, hpp, _, hlt, hlf⟩ := deleteFromState_get hb.stateKeys hdel
      cases last with
      | false =>
        left
        have h1 := (hlf rfl).1
        have hnd : ps.Nodup := by
          have := hb.statePaths
          unfold PathsUnique listed at this
          rw [List.nodup_flatten] at this
          exact this.1 _ (List.mem_map.mpr ⟨(d, ps), Dict.mem_of_get? hg, rfl⟩)
        have : ∃ p ∈ ps, p ≠ o := by
          by_contra hcon
          push Not at hcon
          match ps, h1, hnd, hcon with
          | [], h1, _, _ => simp at h1
          | [x], h1, _, _ => simp at h1
          | x :: y :: r, _, hnd, hcon =>
            have e1 := hcon x (by simp)
            have e2 := hcon y (by simp)
            subst e1; subst e2
            simp at hnd
        obtain ⟨p, hp, hne⟩ := this
        exact ⟨p, hne, Lists_of_get? hg hp⟩
      | true =>
        right
        obtain ⟨cp, hcp⟩ := hP d n (by
          simp only [afterRename_stateOf, stateOf_setState_self hv]
          rw [Lists_stateAppend (deleteFromState_get hb.stateKeys hdel).1]
          exact Or.inr ⟨rfl, rfl⟩)
        simp only [afterRename_manifestD, if_true] at hcp
        rw [Lists_dropVersionPaths hb.manifestKeys] at hcp
        exact ⟨cp, hcp.1, not_inDir_iff.mp (hcp.2 rfl)⟩
  · intro hs
    exact C10_has_content_partial E [.rename o n] nv head hb hc ⟨hs, trivial⟩


/-- The queue of files to copy agrees with the manifest: the destinations are exactly the
manifest paths in the directory of the new version, every queued source has the digest under
which its destination is listed, and no destination is queued twice. -/
structure QueueOK (E : NVEnv) (nv : NV) (head : Str) : Prop where
  exact : ∀ cp, ((∃ d, Lists nv.inv.manifestD d cp) ∧ InDir head cp) ↔ ∃ s, (s, cp) ∈ nv.filesToCopy
  digests : ∀ s cp, (s, cp) ∈ nv.filesToCopy →
    ∃ d, E.srcDigest (nv.inv.digestAlgorithm.getD []) s = .ok d ∧ Lists nv.inv.manifestD d cp
  once : (nv.filesToCopy.map Prod.snd).Nodup

/-- **C11** is false of the code, in three ways: (1) add then delete leaves the file queued;
(2) with dedupe off, adding one source twice queues only the second destination; (3) a freed
content path can be queued for two sources. -/
theorem C11_violated :
    QueueOK exEnv exNV c!"v2" ∧
    ¬ QueueOK exEnv (run exEnv [.add c!"x" c!"x" none, .delete c!"x"] exNV) c!"v2" ∧
    ¬ QueueOK exEnv (run exEnv [.add c!"x" c!"x" none, .add c!"x" c!"y" none] { exNV with dedupe := false }) c!"v2" ∧
    ¬ QueueOK exEnv (run exEnv [.add c!"y" c!"1" (some c!"v2/content/Y"), .delete c!"1",
        .add c!"x" c!"1" (some c!"v2/content/X"), .delete c!"1",
        .add c!"y" c!"1" (some c!"v2/content/X")] exNV) c!"v2" := by
  refine ⟨⟨?_, ?_, by decide⟩, ?_, ?_, ?_⟩
  · intro cp
    constructor
    · rintro ⟨⟨d, ps, h, hp⟩, hdir⟩
      have hm : exNV.inv.manifestD = [(c!"da", [c!"v1/content/a"])] := by decide
      rw [hm] at h
      simp at h
      obtain ⟨rfl, rfl⟩ := h
      simp at hp; subst hp
      exact absurd hdir (by decide)
    · rintro ⟨s, h⟩; cases h
  · rintro s cp h; cases h
  · intro h
    obtain ⟨⟨d, ps, h1, h2⟩, _⟩ := (h.exact c!"v2/content/x").mpr ⟨c!"x", by decide⟩
    have hm : (run exEnv [.add c!"x" c!"x" none, .delete c!"x"] exNV).inv.manifestD =
      [(c!"da", [c!"v1/content/a"]), (c!"dx", [])] := by decide
    rw [hm] at h1
    simp at h1
    rcases h1 with ⟨rfl, rfl⟩ | ⟨rfl, rfl⟩ <;> revert h2 <;> decide
  · intro h
    obtain ⟨s, hs⟩ := (h.exact c!"v2/content/x").mp
      ⟨⟨c!"dx", [c!"v2/content/x", c!"v2/content/x__2"], by decide, by decide⟩, by decide⟩
    have hf : (run exEnv [.add c!"x" c!"x" none, .add c!"x" c!"y" none] { exNV with dedupe := false }).filesToCopy =
      [(c!"x", c!"v2/content/x__2")] := by decide
    rw [hf] at hs
    simp at hs
  · intro h
    exact absurd h.once (by decide)

/-- The calls for which the queue stays right: an `add` of a source that is relative and (unless
dedupe is on) not queued yet; a `delete` or `rename` of a path whose digest keeps another logical
path or has no content in the new version. -/
def QueueSafe (E : NVEnv) (head : Str) (nv : NV) : Op → Prop
  | .add s _ c => (nv.dedupe = true ∨ s ∉ nv.filesToCopy.map Prod.fst) ∧
      (c = none → ¬ IsAbs s ∧ ¬ IsAbs (E.md5hex s))
  | .delete o | .rename o _ => ∀ d, Lists (nv.inv.stateOf head) d o →
      (∃ p, p ≠ o ∧ Lists (nv.inv.stateOf head) d p) ∨ ¬ ∃ cp, Lists nv.inv.manifestD d cp ∧ InDir head cp

/-- **C11** (partial). From a consistent queue, every sequence of calls that are `QueueSafe` leads
to a consistent queue; in particular every sequence of adds (with dedupe, or of distinct sources).
Missing with respect to the full statement: the sequences excluded by `QueueSafe`, where the code
is wrong (`C11_violated`). -/
theorem C11_queue_partial (E : NVEnv) (ops : List Op) (nv : NV) (head : Str) (hb : Building nv head)
    (hh : PlainName head) (hcd : PlainName nv.inv.contentDirectoryToUse)
    (hk : (nv.filesToCopy.map Prod.fst).Nodup)
    (hq : QueueOK E nv head) (hs : Always E (QueueSafe E head) ops nv) :
    QueueOK E (run E ops nv) head := by
  refine (run_induct_always (P := fun nv => PlainName nv.inv.contentDirectoryToUse ∧
    (nv.filesToCopy.map Prod.fst).Nodup ∧ QueueOK E nv head) (C := QueueSafe E head) ?_ ops nv hb hs ⟨hcd, hk, hq⟩).2.2
  intro op n1 n2 hb1 he hsafe ⟨hcd1, hk1, hq1⟩
  have hcd2 : PlainName n2.inv.contentDirectoryToUse := by
    unfold contentDirectoryToUse; rw [he.contentDirectory]; exact hcd1
  refine ⟨hcd2, ?_⟩
  have halg := he.digestAlgorithm
  -- `delete` and `rename`: nothing of the new version is dropped
  have hdrop : ∀ (o : Str) st dg last, deleteFromState (n1.inv.stateOf head) o = some (st, dg, last) →
      (∀ d, Lists (n1.inv.stateOf head) d o → (∃ p, p ≠ o ∧ Lists (n1.inv.stateOf head) d p) ∨
        ¬ ∃ cp, Lists n1.inv.manifestD d cp ∧ InDir head cp) →
      ∀ d cp, Lists (if last then dropVersionPaths n1.inv.manifestD head dg else n1.inv.manifestD) d cp ↔
        Lists n1.inv.manifestD d cp := by
    intro o st dg last hd hcond d cp
    cases last with
    | false => rfl
    | true =>
      simp only [if_true]
      rw [Lists_dropVersionPaths hb1.manifestKeys]
      refine ⟨fun h => h.1, fun h => ⟨h, fun e => ?_⟩⟩
      subst e
      obtain ⟨_, _, ps, hg, _, _, hlt, _⟩ := deleteFromState_get hb1.stateKeys hd
      obtain ⟨rfl, _⟩ := hlt rfl
      rcases hcond d (delete_digest hb1.stateKeys hd) with ⟨p, hp, hl⟩ | hno
      · have := (Lists_iff_get? hb1.stateKeys).mp hl
        rw [hg] at this; simp at this; exact absurd this hp
      · exact not_inDir_iff.mpr (fun hin => hno ⟨cp, h, hin⟩)
  cases he with
  | @add s l c cp d b hc hl hd hv =>
    obtain ⟨hnew, hrel⟩ := hsafe
    have hfresh := chooseContentPath_fresh hc
    rw [contentPaths_eq, mem_listed] at hfresh
    have hin : InDir head cp := by
      have := chooseContentPath_inContent hh hcd1 (fun fp hc hfp => mapped_not_abs (hrel hc).1 (hrel hc).2 hfp) hc
      obtain ⟨t, rfl⟩ := this
      exact ⟨n1.inv.contentDirectoryToUse ++ c!"/" ++ t, by simp⟩
    rw [show n1.afterAdd head s l d cp = if n1.wantCopy head (n1.inv.contentPathsForDigest d) then
      { n1 with
        inv := { n1.inv.setState head (stateAppend (n1.inv.stateOf head) d l) with manifest := some (stateAppend n1.inv.manifestD d cp) }
        filesToCopy := Dict.set n1.filesToCopy s cp }
      else { n1 with inv := n1.inv.setState head (stateAppend (n1.inv.stateOf head) d l) } from rfl]
    split
    · rename_i hw
      have hs : s ∉ Dict.keys n1.filesToCopy := by
        intro hmem
        rcases hnew with hded | hn
        · obtain ⟨⟨s', cp0⟩, hm, rfl⟩ := List.mem_map.mp hmem
          obtain ⟨d', hd', hl'⟩ := hq1.digests _ _ hm
          rw [hd] at hd'; simp at hd'; subst hd'
          have hin0 := ((hq1.exact cp0).mpr ⟨_, hm⟩).2
          have hmem0 : cp0 ∈ n1.inv.contentPathsForDigest d := (Lists_iff_get? hb1.manifestKeys).mp hl'
          have hcur : (n1.inv.contentPathsForDigest d).any (fun p => startsWith p (head ++ c!"/")) = true :=
            List.any_eq_true.mpr ⟨cp0, hmem0, inDir_iff.mpr hin0⟩
          simp only [wantCopy, hcur, hded] at hw
          simp at hw
        · exact hn hmem
      rw [Dict.set_of_not_mem _ hs]
      refine ⟨?_, ?_, ?_, ?_⟩
      · simp only [List.map_append, List.map_cons, List.map_nil]
        rw [List.nodup_append]
        refine ⟨hk1, by simp, ?_⟩
        intro a ha b hb' e
        simp at hb'
        subst hb'; subst e
        exact hs ha
      · intro q
        simp only [manifestD, Option.getD_some, List.mem_append, List.mem_singleton, Prod.mk.injEq]
        constructor
        · rintro ⟨⟨d', h'⟩, hi⟩
          rcases (Lists_stateAppend hb1.manifestKeys).mp h' with h' | ⟨rfl, rfl⟩
          · obtain ⟨s', hs'⟩ := (hq1.exact q).mp ⟨⟨d', h'⟩, hi⟩
            exact ⟨s', Or.inl hs'⟩
          · exact ⟨s, Or.inr ⟨rfl, rfl⟩⟩
        · rintro ⟨s', hs' | ⟨rfl, rfl⟩⟩
          · obtain ⟨⟨d', h'⟩, hi⟩ := (hq1.exact q).mpr ⟨s', hs'⟩
            exact ⟨⟨d', (Lists_stateAppend hb1.manifestKeys).mpr (Or.inl h')⟩, hi⟩
          · exact ⟨⟨d, (Lists_stateAppend hb1.manifestKeys).mpr (Or.inr ⟨rfl, rfl⟩)⟩, hin⟩
      · intro s' q hm
        simp only [List.mem_append, List.mem_singleton, Prod.mk.injEq, setState_digestAlgorithm] at hm ⊢
        rcases hm with hm | ⟨rfl, rfl⟩
        · obtain ⟨d', h1, h2⟩ := hq1.digests _ _ hm
          exact ⟨d', h1, (Lists_stateAppend hb1.manifestKeys).mpr (Or.inl h2)⟩
        · exact ⟨d, hd, (Lists_stateAppend hb1.manifestKeys).mpr (Or.inr ⟨rfl, rfl⟩)⟩
      · simp only [List.map_append, List.map_cons, List.map_nil]
        rw [List.nodup_append]
        refine ⟨hq1.once, by simp, ?_⟩
        intro a ha b hb' e
        simp at hb'
        subst hb'; subst e
        obtain ⟨⟨s', q⟩, hm, rfl⟩ := List.mem_map.mp ha
        exact hfresh ((hq1.exact q).mpr ⟨s', hm⟩).1
    · refine ⟨hk1, ?_, ?_, hq1.once⟩
      · intro q
        simp only [setState_manifestD]
        exact hq1.exact q
      · intro s' q hm
        simp only [setState_manifestD, setState_digestAlgorithm]
        exact hq1.digests _ _ hm
  | @delete o st dg last b hd hv =>
    refine ⟨hk1, ?_, ?_, hq1.once⟩
    · intro q
      simp only [afterDelete_manifestD, hdrop o st dg last hd hsafe]
      exact hq1.exact q
    · intro s q hm
      simp only [afterDelete_manifestD, hdrop o st dg last hd hsafe]
      simp only at halg
      rw [halg]
      exact hq1.digests _ _ hm
  | @rename o n st dg last b hn hd hv =>
    refine ⟨hk1, ?_, ?_, hq1.once⟩
    · intro q
      simp only [afterRename_manifestD, hdrop o st dg last hd hsafe]
      exact hq1.exact q
    · intro s q hm
      simp only [afterRename_manifestD, hdrop o st dg last hd hsafe]
      simp only at halg
      rw [halg]
      exact hq1.digests _ _ hm

/-- Non-vacuity: a mixed sequence of safe calls from the example. -/
example : QueueOK exEnv exNV c!"v2" ∧
    Always exEnv (QueueSafe exEnv c!"v2") [.add c!"x" c!"x" none, .add c!"q/x" c!"y" none, .delete c!"a"] exNV := by
  have hna : ∀ c s, c ≠ '/' → ¬ IsAbs (c :: s) := by rintro c s h ⟨r, e⟩; cases e; exact h rfl
  refine ⟨C11_violated.1, ⟨Or.inl rfl, fun _ => ⟨hna _ _ (by decide), hna _ _ (by decide)⟩⟩,
    ⟨Or.inl (by decide), fun _ => ⟨hna _ _ (by decide), hna _ _ (by decide)⟩⟩, ?_, trivial⟩
  intro d hd
  right
  rintro ⟨cp, ⟨ps, h1, h2⟩, h3⟩
  obtain ⟨qs, h4, h5⟩ := hd
  have hs : ((step exEnv (.add c!"q/x" c!"y" none) (step exEnv (.add c!"x" c!"x" none) exNV).1).1.inv.stateOf c!"v2") =
    [(c!"da", [c!"a"]), (c!"dx", [c!"x", c!"y"])] := by decide
  have hm : ((step exEnv (.add c!"q/x" c!"y" none) (step exEnv (.add c!"x" c!"x" none) exNV).1).1.inv.manifestD) =
    [(c!"da", [c!"v1/content/a"]), (c!"dx", [c!"v2/content/x"])] := by decide
  rw [hs] at h4
  rw [hm] at h1
  simp at h4
  rcases h4 with ⟨rfl, rfl⟩ | ⟨rfl, rfl⟩
  · simp at h1; subst h1; simp at h2; subst h2; revert h3; decide
  · simp at h5

/-- **C12** (partial). With a plain version and content directory name and relative source paths,
every content path that any sequence of calls adds to the manifest lies in the content directory
of the new version. Missing: absolute source paths, where the code does otherwise
(`C12_violated`). -/
theorem C12_new_content_in_content_directory_partial (E : NVEnv) (ops : List Op) (nv : NV) (head : Str)
    (hb : Building nv head) (hh : PlainName head) (hcd : PlainName nv.inv.contentDirectoryToUse)
    (hmd : ∀ s, ¬ IsAbs (E.md5hex s))
    (hrel : ∀ s l, Op.add s l none ∈ ops → ¬ IsAbs s) :
    ∀ d cp, Lists (run E ops nv).inv.manifestD d cp →
      Lists nv.inv.manifestD d cp ∨ InDir (head ++ c!"/" ++ nv.inv.contentDirectoryToUse) cp := by
  have hal : ∀ (l : List Op) (nv : NV), (∀ s l', Op.add s l' none ∈ l → ¬ IsAbs s) →
      Always E (fun _ op => ∀ s l', op = .add s l' none → ¬ IsAbs s) l nv := by
    intro l
    induction l with
    | nil => intro _ _; trivial
    | cons op l ih =>
      intro nv h
      exact ⟨fun s l' e => h s l' (by simp [e]), ih _ (fun s l' hm => h s l' (List.mem_cons_of_mem _ hm))⟩
  refine (run_induct_always (P := fun nv' => nv'.inv.contentDirectory = nv.inv.contentDirectory ∧
    ∀ d cp, Lists nv'.inv.manifestD d cp →
      Lists nv.inv.manifestD d cp ∨ InDir (head ++ c!"/" ++ nv.inv.contentDirectoryToUse) cp)
    ?_ ops nv hb (hal ops nv hrel) ⟨rfl, fun d cp h => Or.inl h⟩).2
  intro op n1 n2 hb1 he hr ⟨hcd1, hP⟩
  have hcdu : n1.inv.contentDirectoryToUse = nv.inv.contentDirectoryToUse := by
    unfold contentDirectoryToUse; rw [hcd1]
  refine ⟨by rw [he.contentDirectory, hcd1], ?_⟩
  intro d cp hl
  cases he with
  | @add s l c cp' d' b hc hl' hd hv =>
    rw [afterAdd_manifestD] at hl
    split at hl
    · rcases (Lists_stateAppend hb1.manifestKeys).mp hl with h | ⟨rfl, rfl⟩
      · exact hP d cp h
      · right
        rw [← hcdu]
        exact chooseContentPath_inContent hh (by rw [hcdu]; exact hcd)
          (fun fp hcn hfp => mapped_not_abs (hr s l (by rw [hcn])) (hmd s) hfp) hc
    · exact hP d cp hl
  | delete hd hv =>
    simp only [afterDelete_manifestD] at hl
    split at hl
    · exact hP d cp ((Lists_dropVersionPaths hb1.manifestKeys).mp hl).1
    · exact hP d cp hl
  | rename hn hd hv =>
    simp only [afterRename_manifestD] at hl
    split at hl
    · exact hP d cp ((Lists_dropVersionPaths hb1.manifestKeys).mp hl).1
    · exact hP d cp hl

example : PlainName c!"v2" ∧ PlainName exNV.inv.contentDirectoryToUse ∧
    (run exEnv [.add c!"d/x" c!"x" none] exNV).inv.manifestD =
      [(c!"da", [c!"v1/content/a"]), (c!"dx", [c!"v2/content/d/x"])] :=
  ⟨⟨by decide, by decide⟩, ⟨by decide, by decide⟩, by decide⟩

/-- **C12** is false of the code for an absolute source path: the file is then stored (and the
manifest says so) at that absolute path, outside the object. -/
theorem C12_violated :
    (step exEnv (.add c!"/tmp/x" c!"x" none) exNV).2 = .ok () ∧
    (step exEnv (.add c!"/tmp/x" c!"x" none) exNV).1.inv.manifestD =
      [(c!"da", [c!"v1/content/a"]), (c!"dx", [c!"/tmp/x"])] ∧
    ¬ InDir c!"v2/content" c!"/tmp/x" := by
  refine ⟨by decide, by decide, by decide⟩

/-- No digest has two different content paths in the directory of the new version. -/
def StoredOnce (nv : NV) (head : Str) : Prop :=
  ∀ d cp cp', Lists nv.inv.manifestD d cp → Lists nv.inv.manifestD d cp' → InDir head cp → InDir head cp' → cp = cp'

/-- **C13.** With dedupe on, no sequence of calls stores a content twice in the new version. -/
theorem C13_dedupe (E : NVEnv) (ops : List Op) (nv : NV) (head : Str) (hb : Building nv head)
    (hd : nv.dedupe = true) (h : StoredOnce nv head) : StoredOnce (run E ops nv) head := by
  refine (run_induct_building (P := fun nv' => nv'.dedupe = true ∧ StoredOnce nv' head) ?_ ops nv hb ⟨hd, h⟩).2
  intro op n1 n2 hb1 he ⟨hd1, hP⟩
  refine ⟨by rw [he.settings.2.2.1, hd1], ?_⟩
  intro d cp cp' h1 h2 i1 i2
  cases he with
  | @add s l c q d' b hc hl hdg hv =>
    rw [afterAdd_manifestD] at h1 h2
    split at h1
    · rename_i hw
      rw [if_pos hw] at h2
      have hno : ∀ x, Lists n1.inv.manifestD d' x → ¬ InDir head x := by
        intro x hx hi
        have hmem : x ∈ n1.inv.contentPathsForDigest d' := (Lists_iff_get? hb1.manifestKeys).mp hx
        have hcur : (n1.inv.contentPathsForDigest d').any (fun p => startsWith p (head ++ c!"/")) = true :=
          List.any_eq_true.mpr ⟨x, hmem, inDir_iff.mpr hi⟩
        simp only [wantCopy, hcur, hd1] at hw
        simp at hw
      rcases (Lists_stateAppend hb1.manifestKeys).mp h1 with g1 | ⟨e1, rfl⟩ <;>
        rcases (Lists_stateAppend hb1.manifestKeys).mp h2 with g2 | ⟨e2, rfl⟩
      · exact hP d _ _ g1 g2 i1 i2
      · subst e2; exact absurd i1 (hno _ g1)
      · subst e1; exact absurd i2 (hno _ g2)
      · rfl
    · rename_i hw
      rw [if_neg hw] at h2
      exact hP d _ _ h1 h2 i1 i2
  | delete hdel hv =>
    simp only [afterDelete_manifestD] at h1 h2
    split at h1
    · rename_i hl
      rw [if_pos hl] at h2
      exact hP d _ _ ((Lists_dropVersionPaths hb1.manifestKeys).mp h1).1
        ((Lists_dropVersionPaths hb1.manifestKeys).mp h2).1 i1 i2
    · rename_i hl
      rw [if_neg hl] at h2
      exact hP d _ _ h1 h2 i1 i2
  | rename hn hdel hv =>
    simp only [afterRename_manifestD] at h1 h2
    split at h1
    · rename_i hl
      rw [if_pos hl] at h2
      exact hP d _ _ ((Lists_dropVersionPaths hb1.manifestKeys).mp h1).1
        ((Lists_dropVersionPaths hb1.manifestKeys).mp h2).1 i1 i2
    · rename_i hl
      rw [if_neg hl] at h2
      exact hP d _ _ h1 h2 i1 i2

/-- Non-vacuity: the example stores nothing in `v2` yet; two adds of one content store it once. -/
example : StoredOnce exNV c!"v2" ∧ exNV.dedupe = true ∧
    (run exEnv [.add c!"x" c!"x" none, .add c!"q/x" c!"y" none] exNV).inv.manifestD =
      [(c!"da", [c!"v1/content/a"]), (c!"dx", [c!"v2/content/x"])] := by
  refine ⟨?_, rfl, by decide⟩
  rintro d cp cp' ⟨ps, h, hp⟩ _ hi _
  have hm : exNV.inv.manifestD = [(c!"da", [c!"v1/content/a"])] := by decide
  rw [hm] at h
  simp at h
  obtain ⟨rfl, rfl⟩ := h
  simp at hp; subst hp
  exact absurd hi (by decide)

/-- What an accepted `add` does to manifest and queue: either nothing, or it stores the file at a
content path that was not in the manifest before. -/
theorem add_manifest {E : NVEnv} {nv : NV} {head s l : Str} {c : Option Str} (hb : Building nv head)
    (h : (nv.add E s l c).2 = .ok ()) :
    ∃ d cp, E.srcDigest (nv.inv.digestAlgorithm.getD []) s = .ok d ∧ (∀ d', ¬ Lists nv.inv.manifestD d' cp) ∧
      nv.chooseContentPath E head s c = .ok cp ∧
      (if nv.wantCopy head (nv.inv.contentPathsForDigest d) then
        (∀ d' p, Lists (nv.add E s l c).1.inv.manifestD d' p ↔ Lists nv.inv.manifestD d' p ∨ (d' = d ∧ p = cp)) ∧
        (nv.add E s l c).1.filesToCopy = Dict.set nv.filesToCopy s cp
      else (nv.add E s l c).1.inv.manifestD = nv.inv.manifestD ∧ (nv.add E s l c).1.filesToCopy = nv.filesToCopy) := by
  obtain ⟨head', hh, he⟩ := step_ok (E := E) (op := .add s l c) h
  rw [hb.head_eq] at hh; simp at hh; subst hh
  have hs : (step E (.add s l c) nv).1 = (nv.add E s l c).1 := rfl
  rw [hs] at he
  generalize (nv.add E s l c).1 = nv' at he ⊢
  cases he with
  | @add _ _ _ cp d b hc hl hd hv =>
    refine ⟨d, cp, hd, ?_, hc, ?_⟩
    · have := chooseContentPath_fresh hc
      rw [contentPaths_eq, mem_listed] at this
      intro d' h'; exact this ⟨d', h'⟩
    · split
      · rename_i hw
        refine ⟨?_, by simp [afterAdd, hw]⟩
        intro d' p
        rw [afterAdd_manifestD, if_pos hw, Lists_stateAppend hb.manifestKeys]
      · rename_i hw
        refine ⟨by rw [afterAdd_manifestD, if_neg hw], by simp [afterAdd, hw]⟩

/-- **C13.** With dedupe off (and no forward delta) every accepted `add` stores the file at a
content path of its own, under its digest, and queues it. -/
theorem C13_no_dedupe (E : NVEnv) (nv : NV) (head s l : Str) (c : Option Str) (hb : Building nv head)
    (hd : nv.dedupe = false) (hf : nv.forwardDelta ≠ some true) (h : (nv.add E s l c).2 = .ok ()) :
    ∃ d cp, E.srcDigest (nv.inv.digestAlgorithm.getD []) s = .ok d ∧ (∀ d', ¬ Lists nv.inv.manifestD d' cp) ∧
      (∀ d' p, Lists (nv.add E s l c).1.inv.manifestD d' p ↔ Lists nv.inv.manifestD d' p ∨ (d' = d ∧ p = cp)) ∧
      Dict.get? (nv.add E s l c).1.filesToCopy s = some cp := by
  obtain ⟨d, cp, h1, h2, _, h3⟩ := add_manifest hb h
  have hf' : nv.forwardDelta.getD false = false := by
    cases hfd : nv.forwardDelta with
    | none => rfl
    | some b => cases b with
      | false => rfl
      | true => exact absurd hfd hf
  have hw : nv.wantCopy head (nv.inv.contentPathsForDigest d) = true := by
    simp only [wantCopy, hd, hf']
    cases (nv.inv.contentPathsForDigest d).any (fun p => startsWith p (head ++ c!"/")) <;> simp
  rw [if_pos hw] at h3
  exact ⟨d, cp, h1, h2, h3.1, by rw [h3.2]; exact Dict.get?_set_self _ _ _⟩

example : Building { exNV with dedupe := false, forwardDelta := none } c!"v2" ∧
    (NV.add exEnv c!"q/a" c!"b" none { exNV with dedupe := false, forwardDelta := none }).1.inv.manifestD =
      [(c!"da", [c!"v1/content/a", c!"v2/content/q/a"])] := by
  refine ⟨⟨by decide, by decide, by unfold Dict.NK; decide, by unfold PathsUnique; decide, by unfold Dict.NK; decide⟩, by decide⟩

/-- **C14.** With forward delta (and dedupe on), adding a file whose digest already has content
anywhere in the object stores nothing. -/
theorem C14_forward_delta (E : NVEnv) (nv : NV) (head s l d : Str) (c : Option Str) (hb : Building nv head)
    (hf : nv.forwardDelta = some true) (hdd : nv.dedupe = true) (h : (nv.add E s l c).2 = .ok ())
    (hd : E.srcDigest (nv.inv.digestAlgorithm.getD []) s = .ok d) (hex : ∃ cp, Lists nv.inv.manifestD d cp) :
    (nv.add E s l c).1.inv.manifestD = nv.inv.manifestD ∧
    (nv.add E s l c).1.filesToCopy = nv.filesToCopy := by
  obtain ⟨d', cp, h1, h2, _, h3⟩ := add_manifest hb h
  rw [hd] at h1; simp at h1; subst h1
  obtain ⟨q, hq⟩ := hex
  have hmem : q ∈ nv.inv.contentPathsForDigest d := (Lists_iff_get? hb.manifestKeys).mp hq
  have hw : nv.wantCopy head (nv.inv.contentPathsForDigest d) = false := by
    simp only [wantCopy, hf, hdd]
    cases hs : startsWith q (head ++ c!"/") with
    | true =>
      have : (nv.inv.contentPathsForDigest d).any (fun p => startsWith p (head ++ c!"/")) = true :=
        List.any_eq_true.mpr ⟨q, hmem, hs⟩
      simp [this]
    | false =>
      have : (nv.inv.contentPathsForDigest d).any (fun p => !startsWith p (head ++ c!"/")) = true :=
        List.any_eq_true.mpr ⟨q, hmem, by simp [hs]⟩
      simp [this]
  rw [hw] at h3
  exact h3

example : Building exNV c!"v2" ∧ (exNV.add exEnv c!"q/a" c!"b" none).2 = .ok () ∧
    exEnv.srcDigest c!"sha512" c!"q/a" = .ok c!"da" ∧ Lists exNV.inv.manifestD c!"da" c!"v1/content/a" :=
  ⟨exNV_building, by decide, by decide, ⟨[c!"v1/content/a"], by decide, by decide⟩⟩

/-- **C14.** Without forward delta, adding a file whose digest has no content in the new version
yet gives the new version its own copy, even if an earlier version has the content. -/
theorem C14_no_forward_delta (E : NVEnv) (nv : NV) (head s l d : Str) (c : Option Str) (hb : Building nv head)
    (hf : nv.forwardDelta ≠ some true) (h : (nv.add E s l c).2 = .ok ())
    (hd : E.srcDigest (nv.inv.digestAlgorithm.getD []) s = .ok d)
    (hno : ∀ cp, Lists nv.inv.manifestD d cp → ¬ InDir head cp) :
    ∃ cp, (∀ d', ¬ Lists nv.inv.manifestD d' cp) ∧ Lists (nv.add E s l c).1.inv.manifestD d cp ∧
      Dict.get? (nv.add E s l c).1.filesToCopy s = some cp := by
  obtain ⟨d', cp, h1, h2, _, h3⟩ := add_manifest hb h
  rw [hd] at h1; simp at h1; subst h1
  have hf' : nv.forwardDelta.getD false = false := by
    cases hfd : nv.forwardDelta with
    | none => rfl
    | some b => cases b with
      | false => rfl
      | true => exact absurd hfd hf
  have hw : nv.wantCopy head (nv.inv.contentPathsForDigest d) = true := by
    have : (nv.inv.contentPathsForDigest d).any (fun p => startsWith p (head ++ c!"/")) = false := by
      rw [List.any_eq_false]
      intro p hp hc
      exact hno p ((Lists_iff_get? hb.manifestKeys).mpr hp) (inDir_iff.mp hc)
    simp [wantCopy, this, hf']
  rw [if_pos hw] at h3
  exact ⟨cp, h2, (h3.1 d cp).mpr (Or.inr ⟨rfl, rfl⟩), by rw [h3.2]; exact Dict.get?_set_self _ _ _⟩

example : (NV.add exEnv c!"q/a" c!"b" none { exNV with forwardDelta := some false }).2 = .ok () ∧
    ∀ cp, Lists exNV.inv.manifestD c!"da" cp → ¬ InDir c!"v2" cp := by
  refine ⟨by decide, ?_⟩
  rintro cp ⟨ps, h, hp⟩
  have hm : exNV.inv.manifestD = [(c!"da", [c!"v1/content/a"])] := by decide
  rw [hm] at h
  simp at h; subst h; simp at hp; subst hp; decide

/-! ## Every new version the library makes is a `Building` -/

/-- `NewVersion.first_version` gives a new version under construction with an empty state. -/
theorem firstVersion_building {identifier specVersion : Str} {alg cd : Option Str} {metadata : Option VBlock}
    {dedupe : Bool} {fixity : List Str} {norm : Option Str} {nv : NV}
    (hmeta : (metadata.getD {}).state = none)
    (h : firstVersion identifier specVersion alg cd metadata dedupe fixity norm = .ok nv) :
    ∃ head, Building nv head ∧ nv.inv.stateOf head = [] ∧ nv.inv.manifestD = [] ∧ nv.filesToCopy = [] := by
  unfold firstVersion at h
  simp only at h
  generalize hinv : fixity.foldl (fun inv t => inv.addFixityType t none) (Inv.initManifestAndVersions
    { Inv.setSpecVersion { id := some identifier } specVersion with digestAlgorithm := alg }) = inv0 at h
  have hman : inv0.manifest = some [] := by
    rw [← hinv]
    generalize hj : (Inv.initManifestAndVersions
      { Inv.setSpecVersion { id := some identifier } specVersion with digestAlgorithm := alg }) = j
    have hjm : j.manifest = some [] := by subst hj; rfl
    clear hj hinv h
    induction fixity generalizing j with
    | nil => exact hjm
    | cons t ts ih => exact ih _ (by simp [Inv.addFixityType, hjm])
  cases hadd : inv0.addVersion none metadata none none with
  | error e => rw [hadd] at h; cases h
  | ok inv1 =>
    rw [hadd] at h
    simp only [Except.ok.injEq] at h
    unfold Inv.addVersion at hadd
    simp only at hadd
    cases hn : inv0.nextVersionDir none with
    | error e => rw [hn] at hadd; cases hadd
    | ok v =>
      rw [hn] at hadd
      simp only [Except.ok.injEq] at hadd
      have key : nv.inv.head = some v ∧ nv.inv.versions = some (Dict.set inv0.versionsD v (metadata.getD {})) ∧
          nv.inv.manifest = some [] ∧ nv.filesToCopy = [] := by
        subst h; subst hadd
        cases cd with
        | none => exact ⟨rfl, rfl, hman, rfl⟩
        | some c =>
          refine ⟨?_, ?_, ?_, rfl⟩ <;> (simp only; split <;> first | rfl | exact hman)
      obtain ⟨k1, k2, k3, k4⟩ := key
      have hvd : nv.inv.versionData v = some (metadata.getD {}) := by
        simp [Inv.versionData, Inv.versionsD, k2, Dict.get?_set_self]
      have hst : nv.inv.stateOf v = [] := by
        simp [Inv.stateOf, hvd, hmeta]
      have hmd : nv.inv.manifestD = [] := by simp [Inv.manifestD, k3]
      refine ⟨v, ⟨k1, by simp [hvd], ?_, ?_, ?_⟩, hst, hmd, k4⟩
      · rw [hst]; exact Dict.NK_nil
      · rw [hst]; simp [PathsUnique, listed]
      · rw [hmd]; exact Dict.NK_nil

/-- `NewVersion.next_version` gives a new version under construction whose state is that of the
old head version (or empty) and which keeps the manifest. -/
theorem nextVersion_building {inv : Inv} {specVersion : Str} {metadata : Option VBlock} {norm : Option Str}
    {forwardDelta dedupe carry : Bool} {old : Option Str} {nv : NV}
    (hm : Dict.NK inv.manifestD)
    (hs : ∀ h, inv.head = some h → Dict.NK (inv.stateOf h) ∧ PathsUnique (inv.stateOf h))
    (h : nextVersion inv specVersion metadata norm forwardDelta dedupe carry old = .ok nv) :
    ∃ head, Building nv head ∧ nv.inv.manifestD = inv.manifestD ∧ nv.filesToCopy = [] ∧
      nv.inv.stateOf head = (if carry then (inv.head.elim [] inv.stateOf) else []) := by
  have main : ∀ (inv' : Inv), inv'.manifest = inv.manifest → inv'.head = inv.head → inv'.versions = inv.versions →
      (match inv'.addVersion none metadata (some (if carry then
        match inv'.head with
        | none => []
        | some h => inv'.stateOf h
      else [])) none with
    | .error e => (.error e : Py NV)
    | .ok inv => .ok { inv := inv, norm := norm, forwardDelta := some forwardDelta, dedupe := dedupe,
                       oldDigestAlgorithm := old }) = .ok nv →
      ∃ head, Building nv head ∧ nv.inv.manifestD = inv.manifestD ∧ nv.filesToCopy = [] ∧
      nv.inv.stateOf head = (if carry then (inv.head.elim [] inv.stateOf) else []) := by
    intro inv' e1 e2 e3 h
    have hstof : ∀ v, inv'.stateOf v = inv.stateOf v := by
      intro v; simp [Inv.stateOf, Inv.versionData, Inv.versionsD, e3]
    generalize hst : (if carry then
        match inv'.head with
        | none => []
        | some h => inv'.stateOf h
      else []) = st at h
    have hst' : st = (if carry then (inv.head.elim [] inv.stateOf) else []) := by
      rw [← hst, e2]
      split
      · cases inv.head <;> simp [hstof]
      · rfl
    have hgood : Dict.NK st ∧ PathsUnique st := by
      rw [hst']
      split
      · cases hh : inv.head with
        | none => exact ⟨Dict.NK_nil, by simp [PathsUnique, listed]⟩
        | some x => exact hs x hh
      · exact ⟨Dict.NK_nil, by simp [PathsUnique, listed]⟩
    cases hadd : inv'.addVersion none metadata (some st) none with
    | error e => rw [hadd] at h; cases h
    | ok inv1 =>
      rw [hadd] at h
      simp only [Except.ok.injEq] at h
      unfold Inv.addVersion at hadd
      simp only at hadd
      cases hn : inv'.nextVersionDir none with
      | error e => rw [hn] at hadd; cases hadd
      | ok v =>
        rw [hn] at hadd
        simp only [Except.ok.injEq] at hadd
        subst h; subst hadd
        have hvd : Inv.versionData { inv' with
            versions := some (Dict.set inv'.versionsD v { (metadata.getD {}) with state := some st }), head := some v } v
            = some { (metadata.getD {}) with state := some st } := by
          simp [Inv.versionData, Inv.versionsD, Dict.get?_set_self]
        have hso : Inv.stateOf { inv' with
            versions := some (Dict.set inv'.versionsD v { (metadata.getD {}) with state := some st }), head := some v } v
            = st := by
          simp [Inv.stateOf, hvd]
        have hmd : Inv.manifestD { inv' with
            versions := some (Dict.set inv'.versionsD v { (metadata.getD {}) with state := some st }), head := some v }
            = inv.manifestD := by simp [Inv.manifestD, e1]
        refine ⟨v, ⟨rfl, by simp [hvd], ?_, ?_, ?_⟩, hmd, rfl, ?_⟩
        · rw [hso]; exact hgood.1
        · rw [hso]; exact hgood.2
        · rw [hmd]; exact hm
        · rw [hso]; exact hst'
  unfold nextVersion at h
  simp only at h
  split at h
  · split at h
    · cases h
    · split at h
      · cases h
      · exact main (inv.setSpecVersion specVersion) rfl rfl rfl h
  · exact main inv rfl rfl rfl h

example : ∃ nv, firstVersion c!"info:a" c!"1.1" none none (some { message := some c!"m" }) true [c!"md5"] none = .ok nv ∧
    nv.inv.head = some c!"v1" := ⟨_, rfl, by decide⟩

end Ocfl
