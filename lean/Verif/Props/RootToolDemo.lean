import Verif.Props.RootTool
import Verif.Props.ObjectToolDemo

/-!
# C86: examples, and where the property fails
-/

namespace Ocfl

open Spec FS Prog Store RootCli

/-- `ocfl-root.py` for the examples -/
def rootTool : Common → Command → FS → FS × Py Output := doStoreOperation demoEnv defaultRegistry demoEnc

/-- `--root root` -/
def rootArgs : Common := { root := some c!"root" }

/-- `create --root root --layout 0003` -/
def rootFS : FS := (rootTool { rootArgs with layout := some c!"0003" } .create cliMade).1

/-- `add --root root --src obj` -/
def rootAdded : FS := (rootTool rootArgs (.add (some c!"obj")) rootFS).1

/-- One of the files is changed. -/
def rootEdited : FS := Dict.set rootAdded [c!"w", c!"src", c!"d", c!"b"] (.file [7])

/-- `update --objdir root/000/000/000/info%3ax --srcdir src` -/
def rootUpdate : ObjectCli.Command := .update c!"root/000/000/000/info%3ax" {} (some c!"src") none

def rootGrown : FS := (ObjectCli.doObjectOperation plainBagit demoEnv bagTime cliArgs rootUpdate rootEdited).1

theorem root_ran1 : (rootTool { rootArgs with layout := some c!"0003" } .create cliMade).2 = .ok (.created c!"root") ∧
    rootTool { rootArgs with quiet := true } (.path (some c!"info:x")) rootFS = (rootFS, .ok (.line c!"root/000/000/000/info%3ax")) ∧
    ∀ n ∈ List.range 7, (match look rootFS ([c!"w", c!"root", c!"000", c!"000", c!"000", c!"info%3ax"].take n) with
      | some (.file _) => false | _ => true) = true := by decide +kernel

theorem root_ran2 : (rootTool rootArgs (.add (some c!"obj")) rootFS).2 = .ok (.added c!"info:x" c!"000/000/000/info%3ax") ∧
    look rootAdded [c!"w", c!"src", c!"d"] = some .dir ∧ look rootAdded [c!"w", c!"src", c!"d", c!"b"] = some (.file [4]) := by decide +kernel

theorem root_ran3 : (ObjectCli.doObjectOperation plainBagit demoEnv bagTime cliArgs rootUpdate rootEdited).2 =
      .ok (.updated (some c!"info:x") (some c!"v2")) ∧
    (∀ x ∈ filesBelow rootEdited (absComps demoEnv.cwd c!"src"), x ∈ [[1, 2, 3], [4], [7]]) ∧ (∀ e ∈ rootEdited, ∀ w ∈ e.1, '\n' ∉ w) ∧
    look rootGrown [c!"w", c!"out"] = none := by decide +kernel

theorem root_layout : PlainLayout defaultRegistry c!"0003" (.hashNTuple c!"sha256" 3 3) := ⟨by rfl, ⟨_, rfl, rfl⟩, by simp⟩

theorem root_session0 : Session plainBagit demoEnv (absComps demoEnv.cwd c!"obj") c!"info:x" c!"1.1" [FileBelow demoFS (absComps demoEnv.cwd c!"src")] cliMade :=
  .create (c := cliArgs) demoFS_wf cliArgs_good bagTime_timestamp (.dir ⟨(by rintro t h; cases h), (by decide)⟩) (.inl rfl) (by decide)
    (vacant_of demoFS_wf (by decide +kernel)) ⟨[c!"a.txt"], [1, 2, 3], by decide, by decide +kernel⟩ (namesFor_of (by decide +kernel)) (ok_of_snd cli_ran.1)

theorem root_noCollision0 : NoCollision demoEnv.raw (InTrees [FileBelow demoFS (absComps demoEnv.cwd c!"src")]) :=
  NoCollision.mono cli_noCollision (fun _ hb => InTrees.append (trees := [_]) hb)

theorem root_repository1 : Repository plainBagit demoEnv defaultRegistry demoEnc c!"root" c!"0003" [] rootFS :=
  .create (a := { rootArgs with layout := some c!"0003" }) (session_wf demoLibraries demoEnv_cwd root_session0 root_noCollision0 (by decide))
    (.inl ⟨rfl, by decide⟩) rfl (ok_of_snd root_ran1.1)

theorem repository_wf {E : Env} (hE : Libraries E) (hraw : Spec.HexDigests E.raw) (hcwd : ∀ w ∈ E.cwd, SafeName w) {reg : Dict Str LayoutObj} {enc : Str → Str}
    (hgood : ∀ n l, getLayout reg n = .ok l → GoodParams E.raw l) (henc : GoodEncoder enc) (hdot : ∀ i, '.' ∉ enc i) {l0 : LayoutObj} {name root : Str}
    (hname : PlainLayout reg name l0) {B : Bagit} {items : List Item} {s : FS} (h : Repository B E reg enc root name items s)
    (hno : ∀ i ∈ items, NoCollision E.raw (InTrees i.trees)) (hlen : ∀ i ∈ items, i.trees.length ≤ 99999) : s.WF := by
  obtain ⟨spec, l, h1, h2⟩ := repository_sound hE hraw hcwd hgood henc hdot hname h hno hlen
  obtain ⟨hget, hreg0, htree⟩ := hname
  exact (store_sound hE.json hE.word hraw hcwd hgood henc hdot (by rw [← h1]; exact hreg0) h2.store).wf

theorem rootFS_wf : rootFS.WF := repository_wf demoLibraries demoRaw_hex demoEnv_cwd defaultRegistry_good demoEnc_good demoEnc_noDot root_layout root_repository1
  (by simp) (by simp)

theorem root_session : Session plainBagit demoEnv (absComps demoEnv.cwd c!"obj") c!"info:x" c!"1.1" [FileBelow demoFS (absComps demoEnv.cwd c!"src")] rootFS :=
  .elsewhere root_session0 rootFS_wf (same_below (by decide +kernel))

theorem root_repository2 : Repository plainBagit demoEnv defaultRegistry demoEnc c!"root" c!"0003"
    ([] ++ [⟨c!"000/000/000/info%3ax", c!"info:x", c!"1.1", [FileBelow demoFS (absComps demoEnv.cwd c!"src")]⟩]) rootAdded :=
  .add (a := rootArgs) root_repository1 (.inl ⟨rfl, by decide⟩) root_session (.inl rfl) ⟨by decide, by rintro t h; cases h⟩ (ok_of_snd root_ran2.1)

theorem rootAdded_wf : rootAdded.WF := repository_wf demoLibraries demoRaw_hex demoEnv_cwd defaultRegistry_good demoEnc_good demoEnc_noDot root_layout root_repository2
  (by simpa using root_noCollision0) (by simp)

theorem rootEdited_wf : rootEdited.WF := by
  refine WF_set rootAdded_wf (by decide) root_ran2.2.1 (by decide) (fun h => ?_)
  rw [root_ran2.2.2] at h
  cases h

def rootTrees : List Tree := [FileBelow demoFS (absComps demoEnv.cwd c!"src"), FileBelow rootEdited (absComps demoEnv.cwd c!"src")]

/-- The object in the storage root. -/
def rootItem : Item := ⟨c!"000/000/000/info%3ax", c!"info:x", c!"1.1", rootTrees⟩

/-- A storage root is made, the object is added, and updated there. -/
theorem root_repository : Repository plainBagit demoEnv defaultRegistry demoEnc c!"root" c!"0003" [rootItem] rootGrown := by
  have h3 : Repository plainBagit demoEnv defaultRegistry demoEnc c!"root" c!"0003" _ rootEdited :=
    Repository.elsewhere root_repository2 rootEdited_wf (fun q hq => by
      unfold rootEdited
      rw [FS.look_set (by decide), if_neg]
      rintro rfl
      exact absurd hq (by decide +kernel))
  exact .update (front := []) (back := []) (c := cliArgs) h3 (by decide +kernel) (.inl rfl) (.inr rfl) bagTime_timestamp
    (.dir ⟨(by rintro t h; cases h), (by decide)⟩) (namesFor_of root_ran3.2.2.1) (ok_of_snd root_ran3.1)

theorem root_noCollision : NoCollision demoEnv.raw (InTrees rootTrees) := by
  refine noCollision_of (l := [[1, 2, 3], [4], [7]]) ?_ (by decide +kernel)
  intro t ht r b hb
  have hsub : ∀ x ∈ filesBelow demoFS (absComps demoEnv.cwd c!"src"), x ∈ [[1, 2, 3], [4], [7]] := by decide +kernel
  simp only [rootTrees, List.mem_cons, List.not_mem_nil, or_false] at ht
  rcases ht with rfl | rfl
  · exact hsub _ (mem_filesBelow hb)
  · exact root_ran3.2.1 _ (mem_filesBelow hb)

theorem rootGrown_wf : rootGrown.WF := repository_wf demoLibraries demoRaw_hex demoEnv_cwd defaultRegistry_good demoEnc_good demoEnc_noDot root_layout root_repository
  (by simpa [rootItem] using root_noCollision) (by simp [rootItem, rootTrees])

/-- What the commands say of this storage root. -/
example : (∃ out, rootTool rootArgs .list rootGrown = (rootGrown, .ok (.listed out 1 c!"root")) ∧
      out.Perm [(c!"000/000/000/info%3ax", some c!"info:x")]) ∧
    rootTool rootArgs (.validate true true) rootGrown = (rootGrown, .ok (.report (some (1, 1, true)) c!"root" true)) := by
  obtain ⟨h1, h2, _⟩ := C86_partial demoLibraries demoRaw_hex demoEnv_cwd defaultRegistry_good demoEnc_good demoEnc_noDot root_layout root_repository
    (by simpa [rootItem] using root_noCollision) (by simp [rootItem, rootTrees]) (a := rootArgs) (.inl ⟨rfl, by decide⟩) rfl rfl
  exact ⟨h1 (.inr (by decide)), h2 true⟩

/-- All three versions come out of the object that `path` finds. -/
example (k : Nat) (t : Tree) (hk : rootTrees[k]? = some t) : ∃ objdir s',
    rootTool { rootArgs with quiet := true } (.path (some c!"info:x")) rootGrown = (rootGrown, .ok (.line objdir)) ∧
    ObjectCli.doObjectOperation plainBagit demoEnv bagTime {} (.extract objdir (unpaddedName (k + 1)) c!"out") rootGrown =
      (s', .ok (.extracted (some (unpaddedName (k + 1))))) ∧ ∀ r b, FileBelow s' (absComps demoEnv.cwd c!"out") r b ↔ t r b := by
  obtain ⟨_, _, h3⟩ := C86_partial demoLibraries demoRaw_hex demoEnv_cwd defaultRegistry_good demoEnc_good demoEnc_noDot root_layout root_repository
    (by simpa [rootItem] using root_noCollision) (by simp [rootItem, rootTrees]) (a := rootArgs) (.inl ⟨rfl, by decide⟩) rfl rfl
  obtain ⟨objdir, h4, h5, h6⟩ := h3 rootItem (by simp)
  obtain ⟨s', h7, h8, _⟩ := (h6 bagTime {} rfl).2 k t (unpaddedName (k + 1)) c!"out" false hk (.inl rfl) (by decide)
    (by rw [h5]; decide +kernel) (by decide +kernel)
    (vacant_of rootGrown_wf root_ran3.2.2.2)
  exact ⟨objdir, s', h4, h7, h8⟩

/-- What `VALID` means of it: there are no files in the extensions directory, and the root is declared. -/
example : (∃ v, RootDeclared demoEnv rootGrown [c!"w", c!"root"] v) ∧ ∀ w b, look rootGrown [c!"w", c!"root", c!"extensions", w] ≠ some (.file b) := by
  obtain ⟨_, h2, _⟩ := C86_partial demoLibraries demoRaw_hex demoEnv_cwd defaultRegistry_good demoEnc_good demoEnc_noDot root_layout root_repository
    (by simpa [rootItem] using root_noCollision) (by simp [rootItem, rootTrees]) (a := rootArgs) (.inl ⟨rfl, by decide⟩) rfl rfl
  obtain ⟨_, h3, _, _, h4⟩ := (C86_verdict demoLibraries demoRaw_hex rootGrown_wf (a := rootArgs) (.inl ⟨rfl, by decide⟩) rfl).mp ⟨_, h2 true⟩
  exact ⟨h3, h4⟩

/-- The object can be added, and not a second time. -/
example : ∃ s', rootTool rootArgs (.add (some c!"obj")) rootFS = (s', .ok (.added c!"info:x" c!"000/000/000/info%3ax")) ∧
    ∀ q b, look s' ([c!"w", c!"root", c!"000", c!"000", c!"000", c!"info%3ax"] ++ q) = some (.file b) ↔ look rootFS ([c!"w", c!"obj"] ++ q) = some (.file b) := by
  obtain ⟨s', path, h1, h2, h3, _⟩ := (C86_adds demoLibraries demoRaw_hex demoEnv_cwd defaultRegistry_good demoEnc_good demoEnc_noDot root_layout
    root_repository1 (by simp) (by simp) (a := rootArgs) (.inl ⟨rfl, by decide⟩) rfl root_session root_noCollision0 (by decide) (by decide)
    (line := c!"root/000/000/000/info%3ax") root_ran1.2.1).2 (by decide +kernel) (by
      intro q b hq hl
      have hlen := hq.length_le
      have := root_ran1.2.2 q.length (List.mem_range.mpr (Nat.lt_succ_of_le hlen))
      rw [← show q = [c!"w", c!"root", c!"000", c!"000", c!"000", c!"info%3ax"].take q.length from List.prefix_iff_eq_take.mp hq, hl] at this
      cases this)
  have := root_ran2.1
  unfold rootTool at this
  rw [h1] at this
  cases this
  exact ⟨s', h1, h3⟩

/-- Looking changes nothing, and neither does what is refused. -/
example : (rootTool rootArgs (.add (some c!"obj")) rootAdded).1 = rootAdded := by
  exact C86_looks demoLibraries demoRaw_hex defaultRegistry_good demoEnc_good demoEnc_noDot rootAdded_wf (by intro _ _ h; cases h) (.inr (by decide +kernel))

/-! ## Where it fails -/

/-- **C86 fails**: `ocfl-root.py validate` says `INVALID` and ends with exit status 0. -/
theorem C86_violated_status : rootTool rootArgs (.validate true true) storeSpoilt =
      (storeSpoilt, .ok (.report (some (1, 1, false)) c!"root" false)) ∧
    exitStatus (rootTool rootArgs (.validate true true) storeSpoilt) = 0 := by
  decide +kernel

/-- **C86 fails**: `ocfl-root.py validate --max_errors 10` of a valid storage root raises `TypeError`. -/
theorem C86_violated_errors : rootTool rootArgs (.validate true true) rootAdded =
      (rootAdded, .ok (.report (some (1, 1, true)) c!"root" true)) ∧
    rootTool rootArgs (.validate true true (some c!"10")) rootAdded = (rootAdded, .error .typeError) := by
  decide +kernel

/-- **C86 fails**: `ocfl-root.py show` of an object that is there raises, since it looks for the object in the working directory. -/
theorem C86_violated_show : rootTool rootArgs .list rootAdded =
      (rootAdded, .ok (.listed [(c!"000/000/000/info%3ax", some c!"info:x")] 1 c!"root")) ∧
    rootTool rootArgs (.show_ (some c!"info:x")) rootAdded = (rootAdded, .error .objectException) := by
  decide +kernel

/-- **C86 fails**: `ocfl-root.py path --layout` prints where the object would be with this layout, and not where it is. -/
theorem C86_violated_layout : rootTool { rootArgs with quiet := true } (.path (some c!"info:x")) rootAdded =
      (rootAdded, .ok (.line c!"root/000/000/000/info%3ax")) ∧
    rootTool { rootArgs with quiet := true, layout := some c!"0002" } (.path (some c!"info:x")) rootAdded = (rootAdded, .ok (.line c!"root/info:x")) := by
  decide +kernel

/-- **C86 fails**: `ocfl-root.py purge` does nothing and ends with exit status 0, and `ocfl-root.py validate-object` never does anything, whatever the storage
root and the object. -/
theorem C86_violated_commands {E : Env} {reg : Dict Str LayoutObj} {enc : Str → Str} {a : Common} {root : Str} (hroot : RootIs a root) (id : Option Str) (s : FS) :
    doStoreOperation E reg enc a (.purge id) s = (s, .ok .nothing) ∧ exitStatus (doStoreOperation E reg enc a (.purge id) s) = 0 ∧
    doStoreOperation E reg enc a (.validateObject id) s = (s, .error .attributeError) := by
  have h : doStoreOperation E reg enc a (.purge id) s = (s, .ok .nothing) := by
    unfold doStoreOperation
    rw [getStorageRoot_iff.mpr hroot]
  exact ⟨h, by rw [h]; rfl, rfl⟩

end Ocfl
