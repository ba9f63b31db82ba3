import Verif.Props.Interrupted
import Verif.Props.StoreObjects
import Verif.Props.Reading

/-!
# C88: examples
-/

namespace Ocfl

open Spec FS Prog Validator Store

/-- The state in which a program is left if, after `n` operations, the next is a write of which only the first `m` bytes are done. -/
def tornAfter {α : Type} (m : Nat) : Nat → Prog α → FS → FS
  | _, .ret _, s => s
  | n, .get k, s => tornAfter m n (k s) s
  | 0, .op (.write p b) _, s => (FS.exec (.write p (b.take m)) s).1
  | 0, .op _ _, s => s
  | n + 1, .op o k, s => tornAfter m n (k (FS.exec o s).2) (FS.exec o s).1

theorem visits_tornAfter {α : Type} (m : Nat) : ∀ (p : Prog α) (n : Nat) (s : FS), Visits p s (tornAfter m n p s)
  | .ret _, n, s => by cases n <;> exact .here
  | .get k, n, s => by
    have h : tornAfter m n (.get k) s = tornAfter m n (k s) s := by cases n <;> rfl
    rw [h]
    exact .get (visits_tornAfter m (k s) n s)
  | .op o k, 0, s => by
    cases o with
    | write p b => exact .mid (.partly m rfl)
    | _ => exact .here
  | .op o k, n + 1, s => by
    have h : tornAfter m (n + 1) (.op o k) s = tornAfter m n (k (FS.exec o s).2) (FS.exec o s).1 := by cases o <;> rfl
    rw [h]
    exact .next (visits_tornAfter m (k (FS.exec o s).2) n (FS.exec o s).1)

/-- The creation of the object of the examples. -/
def demoCreate : Prog Inv := create demoEnv demoObj c!"src" (some demoMeta) (some c!"obj")

/-- Files of two places together have no collisions, if none of two lists have. -/
theorem noCollision_files {raw : Str → Bytes → Str} {P Q : Bytes → Prop} {l : List Bytes} (hP : ∀ b, P b → b ∈ l) (hQ : ∀ b, Q b → b ∈ l)
    (h : ∀ alg ∈ [c!"sha512", c!"sha256"], ∀ b ∈ l, ∀ b' ∈ l, raw alg b = raw alg b' → b = b') : NoCollision raw (fun b => P b ∨ Q b) := by
  rintro alg ha b b' h1 h2
  exact h alg (by rcases ha with rfl | rfl <;> simp) b (h1.elim (hP b) (hQ b)) b' (h2.elim (hP b') (hQ b'))

/-- **C88** on the copy of an object in a storage root. -/
example : ∃ s1 md, run (extract demoEnv c!"root/info:x" c!"head" c!"out") storeAdded = (s1, .ok md) ∧
    ∀ r b, FileBelow s1 (absComps demoEnv.cwd c!"out") r b ↔ FileBelow demoFS (absComps demoEnv.cwd c!"src") r b := by
  obtain ⟨es, hv⟩ := accepted_object (E := demoEnv) (cfg := {}) (s := storeAdded) (path := c!"root/info:x") (by decide +kernel)
  cases ht : look demoMade (absComps demoEnv.cwd c!"obj" ++ [c!"inventory.json"]) with
  | none => exact absurd ht (by decide +kernel)
  | some x =>
    cases x with
    | dir => exact absurd ht (by decide +kernel)
    | file text =>
      have hsame : look storeAdded (absComps demoEnv.cwd c!"root/info:x" ++ [c!"inventory.json"]) =
          look demoMade (absComps demoEnv.cwd c!"obj" ++ [c!"inventory.json"]) := by decide +kernel
      obtain ⟨_, s1, md, h1, h2, _⟩ := C88_partial demoLibraries pyJson_noPrefix demoEnv_cwd demo_history1 (by decide) (cfg := {}) rfl rfl
        storeAdded_wf hv ht (n := text.length) (by rw [List.take_length, hsame, ht])
        (noCollision_files (l := filesBelow demoFS (absComps demoEnv.cwd c!"src") ++ filesBelow storeAdded (absComps demoEnv.cwd c!"root/info:x"))
          (by
            rintro b ⟨t, ht, r, hb⟩
            rw [List.mem_singleton] at ht
            subst ht
            exact List.mem_append_left _ (mem_filesBelow hb))
          (fun b ⟨r, hb⟩ => List.mem_append_right _ (mem_filesBelow hb)) (by decide +kernel))
        (dstdir := c!"out") (version := c!"head") (k := 0) rfl (Or.inr ⟨rfl, rfl⟩) (by decide +kernel) (by decide +kernel)
        (vacant_of storeAdded_wf (by decide +kernel))
      exact ⟨s1, md, h1, h2⟩

/-- **C88** on a call of `create` that was stopped after its last operation. Stopped before, the object is not valid. -/
example : objectVerdict demoEnv c!"obj" (stopAfter 10 demoCreate demoFS) = some false ∧
    ∃ s1 md, run (extract demoEnv c!"obj" c!"v1" c!"out") (stopAfter 11 demoCreate demoFS) = (s1, .ok md) ∧
      ∀ r b, FileBelow s1 (absComps demoEnv.cwd c!"out") r b ↔ FileBelow demoFS (absComps demoEnv.cwd c!"src") r b := by
  refine ⟨by decide +kernel, ?_⟩
  obtain ⟨inv, hr⟩ := succeeded_ok (r := run demoCreate demoFS) (by decide +kernel)
  obtain ⟨es, hv⟩ := accepted_object (E := demoEnv) (cfg := {}) (s := stopAfter 11 demoCreate demoFS) (path := c!"obj") (by decide +kernel)
  have hw : (stopAfter 11 demoCreate demoFS).WF := by
    rw [show stopAfter 11 demoCreate demoFS = demoMade by decide +kernel]
    exact demoMade_wf
  obtain ⟨s1, md, h1, h2, _⟩ := C88_create demoLibraries pyJson_noPrefix demoEnv_cwd demoObj_good demoMeta_good demoFS_wf
    (vacant_of demoFS_wf (by decide +kernel)) ⟨[c!"a.txt"], [1, 2, 3], by decide, by decide +kernel⟩ (fun h => by cases h) hr
    (visits_stopAfter demoCreate 11 demoFS) (cfg := {}) rfl rfl hv
    (noCollision_files (l := filesBelow demoFS (absComps demoEnv.cwd c!"src") ++ filesBelow (stopAfter 11 demoCreate demoFS) (absComps demoEnv.cwd c!"obj"))
      (fun b ⟨r, hb⟩ => List.mem_append_left _ (mem_filesBelow hb)) (fun b ⟨r, hb⟩ => List.mem_append_right _ (mem_filesBelow hb))
      (by decide +kernel))
    (dstdir := c!"out") (by decide +kernel) (by decide +kernel) (vacant_of hw (by decide +kernel))
  exact ⟨s1, md, h1, h2⟩

/-- **C88** on an update that was stopped before the new sidecar was written. Without digests the object is valid, and so both versions
can be extracted. -/
example : objectVerdict demoEnv c!"obj" (stopAfter 6 demoUpdate demoChanged) = some false ∧
    ∃ s1 md, run (extract demoEnv c!"obj" c!"v2" c!"out") (stopAfter 6 demoUpdate demoChanged) = (s1, .ok md) ∧
      ∀ r b, FileBelow s1 (absComps demoEnv.cwd c!"out") r b ↔ FileBelow demoChanged (absComps demoEnv.cwd c!"src") r b := by
  refine ⟨by decide +kernel, ?_⟩
  obtain ⟨es, hv⟩ := accepted_object (E := demoEnv) (cfg := { checkDigests := false }) (s := stopAfter 6 demoUpdate demoChanged)
    (path := c!"obj") (by decide +kernel)
  have h1 : History demoEnv (absComps demoEnv.cwd c!"obj") [FileBelow demoFS (absComps demoEnv.cwd c!"src")] demoChanged :=
    .elsewhere demo_history1 demoChanged_wf demo_apart
  rcases C88_update demoLibraries pyJson_noPrefix demoEnv_cwd h1 (o := demoObj) (Or.inr rfl) demoMeta_good (fun h => by cases h) demo_noCollision
    (by decide) (visits_stopAfter demoUpdate 6 demoChanged) (cfg := { checkDigests := false }) rfl hv (dstdir := c!"out") (by decide +kernel)
    (by decide +kernel) (vacant_of demoChanged_wf (by decide +kernel)) with ⟨h, _⟩ | h
  · exact absurd h (by decide +kernel)
  · exact h 1 _ rfl

/-- The addition of the object to the storage root. -/
def demoAdd : Prog (Str × Str) := add demoEnv defaultRegistry demoEnc anyStore c!"obj"

/-- **C88** on an addition that was stopped after its last operation. Stopped before, the copy is not valid. -/
example : objectVerdict demoEnv c!"root/info:x" (stopAfter 10 demoAdd storeFS) = some false ∧
    ∃ s1 md, run (extract demoEnv c!"root/info:x" c!"v1" c!"out") (stopAfter 11 demoAdd storeFS) = (s1, .ok md) ∧
      ∀ r b, FileBelow s1 (absComps demoEnv.cwd c!"out") r b ↔ FileBelow demoFS (absComps demoEnv.cwd c!"src") r b := by
  refine ⟨by decide +kernel, ?_⟩
  have he : stopAfter 11 demoAdd storeFS = storeAdded := by decide +kernel
  have hvis := visits_stopAfter demoAdd 11 storeFS
  rw [he] at hvis ⊢
  obtain ⟨es, hv⟩ := accepted_object (E := demoEnv) (cfg := {}) (s := storeAdded) (path := c!"root/info:x") (by decide +kernel)
  obtain ⟨s1, md, h1, h2, _⟩ := C88_add demoLibraries pyJson_noPrefix demoEnv_cwd (demo_pathsBelow _ storeFS_wf) store_history1 (by decide)
    demo_added hvis (copy := c!"root/info:x") (by decide +kernel) (cfg := {}) rfl rfl hv
    (noCollision_files (l := filesBelow demoFS (absComps demoEnv.cwd c!"src") ++ filesBelow storeAdded (absComps demoEnv.cwd c!"root/info:x"))
      (by
        rintro b ⟨t, ht, r, hb⟩
        rw [List.mem_singleton] at ht
        subst ht
        exact List.mem_append_left _ (mem_filesBelow hb))
      (fun b ⟨r, hb⟩ => List.mem_append_right _ (mem_filesBelow hb)) (by decide +kernel))
    (dstdir := c!"out") (version := c!"v1") (k := 0) rfl (Or.inl (by decide)) (by decide +kernel) (by decide +kernel)
    (vacant_of storeAdded_wf (by decide +kernel))
  exact ⟨s1, md, h1, h2⟩

/-! ## Where the code does not do it -/

/-- The object after the creation was stopped when the last file had been opened and nothing written to it. -/
def demoTorn : FS := tornAfter 0 10 demoCreate demoFS

/-- **C88** fails without digests: the content is the last that `create` writes, so that an object is valid that has only a part of a
file, and extracting it gives something that was never the source. -/
theorem C88_violated_unchecked : Visits demoCreate demoFS demoTorn ∧
    (∃ es, validateObject demoEnv { checkDigests := false } 0 demoTorn c!"obj" = .ok (true, es)) ∧
    (∃ es, validateObject demoEnv {} 0 demoTorn c!"obj" = .ok (false, es)) ∧
    look demoFS [c!"w", c!"src", c!"d", c!"b"] = some (.file [4]) ∧
    ∃ s1 md, run (extract demoEnv c!"obj" c!"v1" c!"out") demoTorn = (s1, .ok md) ∧
      look s1 [c!"w", c!"out", c!"d", c!"b"] = some (.file []) := by
  refine ⟨visits_tornAfter 0 demoCreate 10 demoFS, accepted_object (by decide +kernel), rejected_object (by decide +kernel), by decide +kernel, ?_⟩
  obtain ⟨md, hr⟩ := succeeded_ok (r := run (extract demoEnv c!"obj" c!"v1" c!"out") demoTorn) (by decide +kernel)
  exact ⟨_, md, hr, by decide +kernel⟩

end Ocfl
