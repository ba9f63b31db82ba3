import Verif.Props.ObjectTool

/-!
# C84: examples, and where the property fails
-/

namespace Ocfl

open Spec FS Prog ObjectCli

theorem namesFor_of {c : Common} {s : FS} {dir : Path} (h : ∀ e ∈ s, ∀ w ∈ e.1, '\n' ∉ w) : NamesFor c (FileBelow s dir) := by
  rintro _ r b ⟨hr, hl⟩ w hw
  have hne : dir ++ r ≠ [] := by simp [hr]
  unfold FS.look at hl
  rw [if_neg hne] at hl
  exact h _ (Dict.mem_of_get? hl) w (by simp [hw])

/-- `--id info:x --digest sha256` -/
def cliArgs : Common := { id := some c!"info:x", digest := c!"sha256" }

theorem cliArgs_good : GoodArgs cliArgs := ⟨by decide, .inr rfl, by rintro l h; cases h⟩

/-- `create --objdir obj --srcdir src --message first --name N --address mailto:n@x` -/
def cliCreate : Command := .create (some c!"obj") { message := some c!"first", name := some c!"N", address := some c!"mailto:n@x" } (some c!"src") none

def cliMade : FS := (doObjectOperation plainBagit demoEnv bagTime cliArgs cliCreate demoFS).1

/-- One of the files is changed. -/
def cliEdited : FS := Dict.set cliMade [c!"w", c!"src", c!"a.txt"] (.file [9])

/-- `update --objdir obj --srcdir src`, without `--digest` -/
def cliUpdate : Command := .update c!"obj" {} (some c!"src") none

def cliGrown : FS := (doObjectOperation plainBagit demoEnv bagTime {} cliUpdate cliEdited).1

def cliTrees : List Tree := [FileBelow demoFS (absComps demoEnv.cwd c!"src"), FileBelow cliEdited (absComps demoEnv.cwd c!"src")]

theorem cliEdited_wf : cliEdited.WF where
  nk := by decide +kernel
  noRoot := by decide +kernel
  parent := by decide +kernel
  names := by decide +kernel

theorem cli_ran : (doObjectOperation plainBagit demoEnv bagTime cliArgs cliCreate demoFS).2 = .ok .nothing ∧
    (doObjectOperation plainBagit demoEnv bagTime {} cliUpdate cliEdited).2 = .ok (.updated (some c!"info:x") (some c!"v2")) := by decide +kernel

/-- An object made with SHA-256 and updated without saying so. -/
theorem cli_session : Session plainBagit demoEnv (absComps demoEnv.cwd c!"obj") c!"info:x" c!"1.1" cliTrees cliGrown := by
  have h1 : Session plainBagit demoEnv (absComps demoEnv.cwd c!"obj") c!"info:x" c!"1.1" [FileBelow demoFS (absComps demoEnv.cwd c!"src")] cliMade :=
    .create (c := cliArgs) demoFS_wf cliArgs_good bagTime_timestamp (.dir ⟨(by rintro t h; cases h), (by decide)⟩) (.inl rfl) (by decide)
      (vacant_of demoFS_wf (by decide +kernel)) ⟨[c!"a.txt"], [1, 2, 3], by decide, by decide +kernel⟩ (namesFor_of (by decide +kernel)) (ok_of_snd cli_ran.1)
  have h2 : Session plainBagit demoEnv (absComps demoEnv.cwd c!"obj") c!"info:x" c!"1.1" [FileBelow demoFS (absComps demoEnv.cwd c!"src")] cliEdited := by
    refine .elsewhere h1 cliEdited_wf (fun q hq => ?_)
    unfold cliEdited
    rw [FS.look_set (by decide), if_neg]
    rintro rfl
    exact absurd hq (by decide +kernel)
  exact .update (c := {}) h2 (.inl rfl) bagTime_timestamp (.dir ⟨(by rintro t h; cases h), (by decide)⟩) (namesFor_of (by decide +kernel))
    (ok_of_snd cli_ran.2)

theorem cli_noCollision : NoCollision demoEnv.raw (InTrees cliTrees) := by
  refine noCollision_of (l := [[1, 2, 3], [4], [9]]) ?_ (by decide +kernel)
  intro t ht r b hb
  have hsub : ∀ s ∈ [demoFS, cliEdited], ∀ x ∈ filesBelow s (absComps demoEnv.cwd c!"src"), x ∈ [[1, 2, 3], [4], [9]] := by decide +kernel
  simp only [cliTrees, List.mem_cons, List.not_mem_nil, or_false] at ht
  rcases ht with rfl | rfl
  · exact hsub _ (by simp) _ (mem_filesBelow hb)
  · exact hsub _ (by simp) _ (mem_filesBelow hb)

/-- Both versions come out, the object is valid. -/
example (k : Nat) (t : Tree) (hk : cliTrees[k]? = some t) : ∃ s',
    doObjectOperation plainBagit demoEnv bagTime {} (.extract c!"obj" (unpaddedName (k + 1)) c!"out") cliGrown =
      (s', .ok (.extracted (some (unpaddedName (k + 1))))) ∧ ∀ r b, FileBelow s' (absComps demoEnv.cwd c!"out") r b ↔ t r b := by
  have hw : cliGrown.WF := (session_sound demoLibraries demoEnv_cwd cli_session cli_noCollision (by decide)).choose_spec.choose_spec.1.wf
  obtain ⟨s', h1, h2, _⟩ := (C84_partial demoLibraries demoEnv_cwd cli_session cli_noCollision (by decide) (now := bagTime) (c := {}) rfl).1 k t
    (unpaddedName (k + 1)) c!"out" false hk (.inl rfl) (by decide) (by decide +kernel) (by decide +kernel) (vacant_of hw (by decide +kernel))
  exact ⟨s', h1, h2⟩

example : doObjectOperation plainBagit demoEnv bagTime {} (.validate c!"obj") cliGrown = (cliGrown, .ok (.verdict true)) :=
  (C84_partial demoLibraries demoEnv_cwd cli_session cli_noCollision (by decide) rfl).2.mpr (.inl rfl)

/-- One file. -/
example : ∃ s', doObjectOperation plainBagit demoEnv bagTime {} (.extract c!"obj" c!"v1" c!"src" none false (some c!"d/b")) cliGrown =
      (s', .ok (.extracted (some c!"v1"))) ∧ look s' [c!"w", c!"src", c!"b"] = some (.file [4]) := by
  obtain ⟨s', h1, h2, _⟩ := C84_file demoLibraries demoEnv_cwd cli_session cli_noCollision (by decide) (now := bagTime) (c := {}) (k := 0)
    (objver := c!"v1") (dstdir := c!"src") (setDate := false) rfl (.inl rfl) (by decide +kernel) (by decide +kernel) (.inr (by decide +kernel))
    (dirs := [c!"d"]) (w := c!"b") (b := [4]) ⟨by decide, by decide +kernel⟩ (by decide +kernel)
  exact ⟨s', h1, h2⟩

/-- `create --objdir copy --srcbag bag`, without `--id` -/
def cliFromBag : Command := .create (some c!"copy") {} none (some c!"bag")

theorem cliFromBag_ran : (doObjectOperation plainBagit demoEnv bagTime {} cliFromBag bagFS).2 = .ok .nothing ∧
    look bagFS (absComps demoEnv.cwd c!"bag" ++ [c!"data", c!"a.txt"]) = some (.file [9]) ∧ ∀ e ∈ bagFS, ∀ w ∈ e.1, '\n' ∉ w := by
  decide +kernel

/-- An object made from a bag, with the identifier the bag has. -/
theorem cliFromBag_session : Session plainBagit demoEnv (absComps demoEnv.cwd c!"copy") c!"info:x" c!"1.1"
    [FileBelow bagFS (absComps demoEnv.cwd c!"bag" ++ [c!"data"])] (doObjectOperation plainBagit demoEnv bagTime {} cliFromBag bagFS).1 := by
  refine .create (c := {}) bagFS_wf ⟨by decide, .inl rfl, by rintro l h; cases h⟩ bagTime_timestamp
    (.bag bag_facts.2.2.2.2.1 ⟨(by rintro t h; cases h), (fun _ d hd => by cases hd), fun _ => .inr (by decide)⟩) (.inr ⟨rfl, rfl⟩) (by decide)
    (vacant_of bagFS_wf bag_facts.2.1) ⟨[c!"a.txt"], [9], by decide, cliFromBag_ran.2.1⟩ (namesFor_of cliFromBag_ran.2.2) (ok_of_snd cliFromBag_ran.1)

/-! ## Where it fails -/

/-- `--address` without `--name` -/
def cliAddress : Command := .create (some c!"obj") { address := some c!"mailto:n@x" } (some c!"src") none

def cliBad : FS := (doObjectOperation plainBagit demoEnv bagTime cliArgs cliAddress demoFS).1

/-- **C84 fails**: `ocfl-object.py create` with `--address` and without `--name` ends with exit status 0. The object it makes is not valid, and cannot be
updated any more. -/
theorem C84_violated : exitStatus (doObjectOperation plainBagit demoEnv bagTime cliArgs cliAddress demoFS) = 0 ∧
    doObjectOperation plainBagit demoEnv bagTime cliArgs (.validate c!"obj") cliBad = (cliBad, .ok (.verdict false)) ∧
    doObjectOperation plainBagit demoEnv bagTime cliArgs cliUpdate cliBad = (cliBad, .error .objectException) := by
  decide +kernel

/-- **C84 fails**: `ocfl-object.py validate` says `INVALID` and ends with exit status 0. -/
theorem C84_violated_status : doObjectOperation plainBagit demoEnv bagTime {} (.validate c!"obj") cliBad = (cliBad, .ok (.verdict false)) ∧
    exitStatus (doObjectOperation plainBagit demoEnv bagTime {} (.validate c!"obj") cliBad) = 0 := by
  decide +kernel

/-- **C84 fails**: an update that says nothing about the digest algorithm changes it from SHA-256 to SHA-512. -/
theorem C84_violated_digest : look cliEdited (absComps demoEnv.cwd c!"obj" ++ [c!"inventory.json.sha256"]) ≠ none ∧
    look cliGrown (absComps demoEnv.cwd c!"obj" ++ [c!"inventory.json.sha256"]) = none ∧
    look cliGrown (absComps demoEnv.cwd c!"obj" ++ [c!"inventory.json.sha512"]) ≠ none := by
  decide +kernel

end Ocfl
