import Verif.Props.Object
import Verif.Props.History
import Verif.Props.Build

/-!
# C79: operations on what is not there
-/

namespace Ocfl

open Spec FS Prog

theorem openObj_missing {E : Env} {objdir : Str} {s : FS} (h : look s (absComps E.cwd objdir) ≠ some .dir) :
    openObj E objdir s = .error .objectException := by
  unfold openObj fswOpen
  dsimp only
  rw [if_neg (by rw [isdir_iff]; exact h)]
  rfl

/-- **C79**, objects that are not there: extraction and updates raise `ObjectException` and change nothing. -/
theorem C79_object {E : Env} {objdir : Str} {s : FS} (h : look s (absComps E.cwd objdir) ≠ some .dir) :
    (∀ version dstdir, run (extract E objdir version dstdir) s = (s, .error .objectException)) ∧
    (∀ version dstdir path, run (extractFile E objdir version dstdir path) s = (s, .error .objectException)) ∧
    ∀ o srcdir metadata abort, run (addVersionWithContent E o objdir srcdir metadata abort) s = (s, .error .objectException) := by
  have hset : ∀ version, extractSetup E objdir version s = .error .objectException := by
    intro version
    unfold extractSetup
    rw [openObj_missing h]
  refine ⟨fun version dstdir => ?_, fun version dstdir path => ?_, fun o srcdir metadata abort => ?_⟩
  · refine run_bind_error ?_
    rw [run_look, hset]
  · refine run_bind_error ?_
    rw [run_look, hset]
  · refine run_bind_error ?_
    rw [run_look]
    unfold prepareUpdate startNewVersion startInventory
    rw [openObj_missing h]

theorem parseKeys_error : ∀ {ks : List Str} {e : PyErr}, Inv.parseKeys ks = .error e → e = .objectException
  | [], _, h => by cases h
  | k :: ks, e, h => by
    unfold Inv.parseKeys at h
    split at h
    · rename_i e' he
      cases h
      unfold parseVersionDirectory at he
      split at he
      · cases he
        rfl
      · dsimp only at he
        split at he
        · cases he
          rfl
        · cases he
    · split at h
      · rename_i he
        cases h
        exact parseKeys_error he
      · cases h

/-- Once the inventory is read, the version is found or the exception is `ObjectException`. -/
theorem extractSetup_cases {E : Env} {objdir : Str} {s : FS} {inv : Inv} (hd : look s (absComps E.cwd objdir) = some .dir)
    (hp : parseInventory E (absComps E.cwd objdir) s = .ok inv) (version : Str) :
    extractSetup E objdir version s = .error .objectException ∨
      ∃ v, extractSetup E objdir version s = .ok (absComps E.cwd objdir, inv, v) ∧
        (version = c!"head" ∧ v = inv.head.getD [] ∨ v = version ∧ version ∈ Dict.keys inv.versionsD) := by
  unfold extractSetup
  rw [openObj_dir hd]
  dsimp only
  rw [hp]
  dsimp only
  split
  · rename_i hh
    exact Or.inr ⟨_, rfl, Or.inl ⟨hh, rfl⟩⟩
  · split
    · rename_i e he
      unfold Inv.versionDirectories at he
      split at he
      · rename_i hk
        cases he
        rw [parseKeys_error hk]
        exact Or.inl rfl
      · cases he
    · rename_i vs hvs
      split
      · rename_i hm
        exact Or.inr ⟨_, rfl, Or.inr ⟨rfl, (versionDirectories_ok hvs).1.mem_iff.mp hm⟩⟩
      · exact Or.inl rfl

/-- **C79**, versions that are not there: extraction raises `ObjectException` and changes nothing. -/
theorem C79_partial {E : Env} {objdir version : Str} {s : FS} {inv : Inv} (hd : look s (absComps E.cwd objdir) = some .dir)
    (hp : parseInventory E (absComps E.cwd objdir) s = .ok inv) (hv : version ∉ Dict.keys inv.versionsD) (hh : version ≠ c!"head") :
    (∀ dstdir, run (extract E objdir version dstdir) s = (s, .error .objectException)) ∧
    ∀ dstdir path, run (extractFile E objdir version dstdir path) s = (s, .error .objectException) := by
  have hset : extractSetup E objdir version s = .error .objectException := by
    rcases extractSetup_cases hd hp version with h | ⟨v, _, ⟨h, _⟩ | ⟨_, h⟩⟩
    · exact h
    · exact absurd h hh
    · exact absurd h hv
  refine ⟨fun dstdir => ?_, fun dstdir path => ?_⟩
  · refine run_bind_error ?_
    rw [run_look, hset]
  · refine run_bind_error ?_
    rw [run_look, hset]

/-- The same for objects made by the library: they have the versions `v1`, ..., `v<n>` and no others. -/
theorem C79_history {E : Env} (hE : Libraries E) (hcwd : ∀ w ∈ E.cwd, SafeName w) {objdir version : Str} {trees : List Tree} {s : FS}
    (h : History E (absComps E.cwd objdir) trees s) (hno : NoCollision E.raw (InTrees trees)) (hlen : trees.length ≤ 99999)
    (hv : ∀ k < trees.length, version ≠ unpaddedName (k + 1)) (hh : version ≠ c!"head") :
    (∀ dstdir, run (extract E objdir version dstdir) s = (s, .error .objectException)) ∧
    ∀ dstdir path, run (extractFile E objdir version dstdir path) s = (s, .error .objectException) := by
  obtain ⟨dv, recs, hs⟩ := history_sound hE.json hE.hash hE.word hcwd h hno hlen
  obtain ⟨rl, _, hd0, hstored, _, _⟩ := hs.last
  have hd := hd0.sorted
  refine C79_partial hs.isDir (parse_written hE.json hd0.parsed hstored.1) ?_ hh
  intro hm
  rw [hd.parsed.good.versionsD] at hm
  obtain ⟨k, h1, h2, h3⟩ := (hd.parsed.good.names.2.2.2 _).mp hm
  refine hv (k - 1) (by omega) ?_
  rw [Nat.sub_add_cancel h1]
  exact h3

theorem openObjCreate_missing {E : Env} {dir : Str} {s : FS} (h : look s (absComps E.cwd (osPathSplit dir).1) ≠ some .dir) :
    run (openObjCreate E dir) s = (s, .error .objectException) := by
  have : run (fswOpenCreate E.cwd dir) s = (s, .error .fileNotFound) := by
    unfold fswOpenCreate
    refine run_bind_error ?_
    rw [run_look]
    unfold fswOpen
    dsimp only
    rw [if_neg (by rw [isdir_iff]; exact h)]
  unfold openObjCreate
  rw [run_handle, this]
  rfl

/-- **C79**, logical paths that are not there: `extract_file` raises `ObjectException`. Nothing but the destination directory
itself can have been created. -/
theorem C79_logical {E : Env} (hlib : E.lib.Lawful) (hcwd : ∀ w ∈ E.cwd, SafeName w) {objdir version dstdir path : Str} {s : FS} (hw : s.WF)
    {inv : Inv} (hd : look s (absComps E.cwd objdir) = some .dir) (hp : parseInventory E (absComps E.cwd objdir) s = .ok inv)
    (hpath : ∀ v, v = version ∨ version = c!"head" ∧ inv.head = some v → path ∉ listed (inv.stateOf v)) :
    ∃ s', run (extractFile E objdir version dstdir path) s = (s', .error .objectException) ∧
      ∀ q, (q = absComps E.cwd dstdir → look s q ≠ none) → look s' q = look s q := by
  rcases extractSetup_cases hd hp version with h | ⟨v, hset, hv⟩
  · refine ⟨s, run_bind_error ?_, fun _ _ => rfl⟩
    rw [run_look, h]
  have hpv : path ∉ listed (inv.stateOf v) := by
    rcases hv with ⟨h1, h2⟩ | ⟨h1, _⟩
    · obtain ⟨_, _, _, _, _, _, _, _, _, _, _, hpd⟩ := parse_readFrom hlib hp
      refine hpath v (Or.inr ⟨h1, ?_⟩)
      rw [h2, hpd.good.head]
      rfl
    · exact hpath v (Or.inl h1)
  unfold extractFile
  rw [run_bind_ok (s1 := s) (by rw [run_look, hset])]
  by_cases hpar : look s (absComps E.cwd (osPathSplit dstdir).1) = some .dir
  · obtain ⟨_, _, j, m0, vs0, states, _, _, _, hx, _, _, _, _, _⟩ := extractSetup_ok hlib hset
    obtain ⟨s1, hopen⟩ := run_openObjCreate_ok hcwd hw hpar
    obtain ⟨_, _, _, _, l1⟩ := run_openObjCreate hcwd hw hopen
    refine ⟨s1, ?_, ?_⟩
    · rw [run_bind_ok hopen]
      refine run_bind_error ?_
      rw [(findExisting_ok hx (fun _ h => h)).2 hpv]
      rfl
    · intro q hq
      rw [l1, if_neg]
      rintro ⟨rfl, hn⟩
      exact hq rfl hn
  · exact ⟨s, run_bind_error (openObjCreate_missing hpar), fun _ _ => rfl⟩

/-- **C79**, destinations: extraction to a place in a directory that is not there, or to a directory with something in it,
raises `ObjectException` and changes nothing. -/
theorem C79_destination {E : Env} {objdir version dstdir : Str} {s : FS} (hw : s.WF) {inv : Inv}
    (hd : look s (absComps E.cwd objdir) = some .dir) (hp : parseInventory E (absComps E.cwd objdir) s = .ok inv)
    (hdst : look s (dstParent E dstdir) ≠ some .dir ∨
      look s (absComps E.cwd dstdir) = some .dir ∧ ∃ w, look s (absComps E.cwd dstdir ++ [w]) ≠ none) :
    run (extract E objdir version dstdir) s = (s, .error .objectException) := by
  unfold extract
  rcases extractSetup_cases hd hp version with h | ⟨v, hset, _⟩
  · refine run_bind_error ?_
    rw [run_look, h]
  rw [run_bind_ok (s1 := s) (by rw [run_look, hset])]
  refine run_bind_error ?_
  unfold extractDst
  dsimp only
  have hD := (dstParent_resolve E dstdir).1
  by_cases hpar : look s (dstParent E dstdir) = some .dir
  · obtain ⟨h1, w, h2⟩ := hdst.resolve_left (fun h => h hpar)
    rw [run_bind_ok (s1 := s) (a := dstParent E dstdir) (by
      rw [run_look, openObj_dir hpar]
      rfl)]
    refine run_bind_error ?_
    rw [run_get]
    unfold prepareDst
    rw [hD, if_pos (isdir_iff.mpr h1)]
    obtain ⟨l, hl, hlen⟩ := listdir_dir (dstParent E dstdir) (osPathSplit (osNormpath dstdir)).2 (by rw [hD]; exact h1)
    rw [hl]
    dsimp only
    rw [if_pos]
    · rfl
    · obtain ⟨n, hn⟩ := Option.ne_none_iff_exists'.mp h2
      rw [hlen, hD]
      exact List.length_pos_of_mem ((mem_children hw).mpr hn)
  · refine run_bind_error ?_
    rw [run_look, openObj_missing hpar]

/-! ## Examples -/

/-- No object, no version, no logical path, no place to put it. -/
example : run (extract demoEnv c!"no" c!"head" c!"out") demoMade = (demoMade, .error .objectException) :=
  (C79_object (by decide +kernel)).1 _ _

theorem demo_parse : ∃ inv, parseInventory demoEnv (absComps demoEnv.cwd c!"obj") demoMade = .ok inv ∧
    Dict.keys inv.versionsD = [c!"v1"] ∧ inv.head = some c!"v1" ∧ listed (inv.stateOf c!"v1") = [c!"d/b", c!"a.txt", c!"d/c"] := by
  cases h : parseInventory demoEnv (absComps demoEnv.cwd c!"obj") demoMade with
  | error e =>
    have : (match parseInventory demoEnv (absComps demoEnv.cwd c!"obj") demoMade with | .ok _ => true | .error _ => false) = true := by decide +kernel
    rw [h] at this
    cases this
  | ok inv =>
    have : (match parseInventory demoEnv (absComps demoEnv.cwd c!"obj") demoMade with
      | .ok inv => decide (Dict.keys inv.versionsD = [c!"v1"] ∧ inv.head = some c!"v1" ∧
          listed (inv.stateOf c!"v1") = [c!"d/b", c!"a.txt", c!"d/c"])
      | .error _ => false) = true := by decide +kernel
    rw [h] at this
    exact ⟨inv, rfl, of_decide_eq_true this⟩

example : run (extract demoEnv c!"obj" c!"v2" c!"out") demoMade = (demoMade, .error .objectException) := by
  obtain ⟨inv, h1, h2, _⟩ := demo_parse
  exact (C79_partial (by decide +kernel) h1 (by rw [h2]; decide) (by decide)).1 _

example : ∃ s', run (extractFile demoEnv c!"obj" c!"head" c!"out" c!"d/x") demoMade = (s', .error .objectException) := by
  obtain ⟨inv, h1, h2, h3, h4⟩ := demo_parse
  obtain ⟨s', h, _⟩ := C79_logical demoEnv_lawful demoEnv_cwd (version := c!"head") (dstdir := c!"out") (path := c!"d/x") demoMade_wf
    (by decide +kernel) h1 (by
      intro v hv
      rcases hv with rfl | ⟨_, hv⟩
      · have : inv.stateOf c!"head" = [] := by
          rw [stateOf_versionsD, (Dict.get?_eq_none_iff _ _).mpr (by rw [h2]; decide)]
          rfl
        rw [this]
        decide
      · rw [h3] at hv
        cases hv
        rw [h4]
        decide)
  exact ⟨s', h⟩

example : run (extract demoEnv c!"obj" c!"v1" c!"src") demoMade = (demoMade, .error .objectException) := by
  obtain ⟨inv, h1, _⟩ := demo_parse
  exact C79_destination demoMade_wf (by decide +kernel) h1 (Or.inr ⟨by decide +kernel, c!"a.txt", by decide +kernel⟩)

example : ∀ dstdir, run (extract demoEnv c!"obj" c!"v01" dstdir) demoMade = (demoMade, .error .objectException) := by
  refine (C79_history (trees := [FileBelow demoFS (absComps demoEnv.cwd c!"src")]) demoLibraries demoEnv_cwd demo_history1 ?_ (by decide) ?_ (by decide)).1
  · refine noCollision_of (l := filesBelow demoFS (absComps demoEnv.cwd c!"src")) ?_ (by decide +kernel)
    intro t ht r b hb
    cases List.mem_singleton.mp ht
    exact mem_filesBelow hb
  · intro k hk
    have : k = 0 := by simpa using hk
    subst this
    decide

/-! ## Where the code does not do it -/

/-- **C79** fails: a directory without an inventory is not reported by `ObjectException`, as the documentation has it, but by
`FileNotFoundError`, and an inventory that is not JSON by `JSONDecodeError`. A file at the destination gives `FileExistsError`. -/
theorem C79_violated : (run (extract demoEnv c!"src" c!"head" c!"out") demoMade).2 = .error .fileNotFound ∧
    (run (extract demoEnv c!"obj" c!"head" c!"out") (Dict.set demoMade [c!"w", c!"obj", c!"inventory.json"] (.file [65, 66]))).2 =
      .error .jsonDecodeError ∧
    (run (extract demoEnv c!"obj" c!"head" c!"src/a.txt") demoMade).2 = .error .fileExists :=
  ⟨failed_with (by decide +kernel), failed_with (by decide +kernel), failed_with (by decide +kernel)⟩

end Ocfl
