import Verif.Proofs.CopyValid
import Verif.Spec.StoreHistory
import Verif.Props.StorageValidate
import Verif.Props.LibraryValid

/-!
# C77: objects that are added to a storage root stay valid, and stay what they are
-/

namespace Ocfl

open Spec FS Prog Store Validator

theorem sidecar_unchecked {E : Env} {s : FS} {dir : Path} {a : Str} (check : Bool) (h : Sidecar E true s dir a) :
    Sidecar E check s dir a := ⟨h.1, fun _ => h.2 rfl⟩

/-- With less checking, what was valid still is. -/
theorem ObjectRules.unchecked {E : Env} {s : FS} {base : Path} {spec : Str} {j : Json} {alg cd : Str}
    {m : List (Str × List Str)} {vs : List (Str × Json)} {states : Str → List (Str × List Str)} {style : Option Nat} {n : Nat}
    (check : Bool) (h : ObjectRules E true s base spec j alg cd m vs states style n) :
    ObjectRules E check s base spec j alg cd m vs states style n :=
  { supported := h.supported, declaration := h.declaration, oneDeclaration := h.oneDeclaration, inventory := h.inventory
    rules := h.rules, sidecar := sidecar_unchecked check h.sidecar, files := h.files, dirs := h.dirs, extensions := h.extensions
    versionDirs := h.versionDirs
    headInventory := fun hl => ⟨(h.headInventory hl).1, sidecar_unchecked check (h.headInventory hl).2⟩
    priorInventory := fun i h1 h2 hl => by
      obtain ⟨j', hj, hp⟩ := h.priorInventory i h1 h2 hl
      obtain ⟨a, m', vs', states', style', n', k1, k2⟩ := hp.rules
      exact ⟨j', hj, ⟨a, m', vs', states', style', n', k1, sidecar_unchecked check k2⟩, hp.id, hp.contentDirectory, hp.history⟩
    priorManifests := h.priorManifests, priorSpecs := h.priorSpecs, headSpec := h.headSpec, versionFiles := h.versionFiles
    content := h.content, noEmpty := h.noEmpty, digests := fun _ => h.digests rfl, fixity := fun _ => h.fixity rfl
    priorDigests := fun _ => h.priorDigests rfl, priorFixity := fun _ => h.priorFixity rfl }

theorem ValidObject.unchecked {E : Env} {s : FS} {base : Path} (check : Bool) (h : ValidObject E true s base) : ValidObject E check s base := by
  obtain ⟨spec, j, alg, cd, m, vs, states, style, n, h⟩ := h
  exact ⟨spec, j, alg, cd, m, vs, states, style, n, ObjectRules.unchecked check h⟩

/-- What is not above or below the new object stays. -/
theorem Store.CopiedTo.others {s s' : FS} {src target p : Path} (hw : s.WF) (hc : CopiedTo s s' src target) (hl : look s p ≠ none)
    (hp : ¬ p <+: target) (q : Path) : look s' (p ++ q) = look s (p ++ q) := by
  refine hc.frame _ (fun h => hp ((List.prefix_append p q).trans h)) (fun h => ?_)
  rcases List.prefix_or_prefix_of_prefix h (List.prefix_append p q) with h1 | h1
  · obtain ⟨t, rfl⟩ := h1
    cases hn : look s (target ++ t) with
    | none => exact hl hn
    | some n =>
      by_cases ht : t = []
      · subst ht; exact hp (by simp)
      · have := FS.look_above hw t ht hn
        rw [hc.absent] at this
        cases this
  · exact hp h1

/-- **C77** (partial): if a valid object is added to a storage root, the copy in the storage root is valid, and
all valid objects that are not above it stay valid. The directories of the versions of the object have to
have files in them. Missing: without this the copy need not be valid, see `C77_violated`. -/
theorem C77_partial {E : Env} (hE : Libraries E) {reg : Dict Str LayoutObj} {enc : Str → Str} {r : StorageRoot} {objdir : Str}
    {s s' : FS} (hw : s.WF) (hbelow : PathsBelow E reg enc r s) {i path : Str} {cfg : Config} (hlax : cfg.lax = false)
    (hcheck : cfg.checkDigests = true) (hv : ∃ es, validateObject E cfg 0 s objdir = .ok (true, es))
    (hfull : VersionsFull E s (absComps E.cwd objdir))
    (h : run (add E reg enc r objdir) s = (s', .ok (i, path))) :
    (∃ ws, Below path ws ∧ ∀ (cfg' : Config), cfg'.lax = false → ∀ p, absComps E.cwd p = absComps E.cwd r.root ++ ws →
      ∃ es, validateObject E cfg' 0 s' p = .ok (true, es)) ∧
    ∀ (cfg' : Config), cfg'.lax = false → ∀ p, ¬ absComps E.cwd p <+: resolve (absComps E.cwd r.root) path →
      (∃ es, validateObject E cfg' 0 s p = .ok (true, es)) → ∃ es, validateObject E cfg' 0 s' p = .ok (true, es) := by
  obtain ⟨r', l, ws, j, h1, h2, h3, h4, h5, h6, h7, _, hsrc, hc⟩ := add_copied hE.json hw hbelow h
  have er : resolve (absComps E.cwd r.root) path = absComps E.cwd r.root ++ ws := by
    rw [h4.2.2]; exact resolve_join _ h4.2.1
  constructor
  · refine ⟨ws, h4, fun cfg' hlax' p hp => ?_⟩
    obtain ⟨_, spec, j, alg, cd, m, vs, states, style, n, hr⟩ := (C73 hE hlax hw).mp hv
    rw [hcheck] at hr
    have hr' := hc.valid hw hsrc hr (hfull j vs hr.inventory hr.rules.versions)
    rw [C73 hE hlax' hc.wf, hp]
    exact ⟨hc.above _ (List.prefix_refl _), spec, j, alg, cd, m, vs, states, style, n, ObjectRules.unchecked _ hr'⟩
  · intro cfg' hlax' p hp hvp
    rw [er] at hp
    obtain ⟨hd, hvo⟩ := (C73 hE hlax' hw).mp hvp
    have hsame := hc.others hw (p := absComps E.cwd p) (by rw [hd]; simp) hp
    rw [C73 hE hlax' hc.wf]
    exact ⟨by simpa [hd] using hsame [], ValidObject.same hsame hvo⟩

/-- What has become of an object made by the library after it has been added: the same object. What is proved of
objects with a history so holds of the copy, too: it is valid, its versions can be extracted, and further
versions can be added. Objects elsewhere stay what they are. -/
theorem C77_history {E : Env} (hlib : E.lib.Lawful) {reg : Dict Str LayoutObj} {enc : Str → Str} {r : StorageRoot} {objdir : Str}
    {s s' : FS} (hw : s.WF) (hbelow : PathsBelow E reg enc r s) {i path : Str}
    (h : run (add E reg enc r objdir) s = (s', .ok (i, path))) :
    (∀ trees, History E (absComps E.cwd objdir) trees s → ∃ ws, Below path ws ∧ History E (absComps E.cwd r.root ++ ws) trees s') ∧
    ∀ base trees, look s base ≠ none → ¬ base <+: resolve (absComps E.cwd r.root) path → History E base trees s → History E base trees s' := by
  obtain ⟨r', l, ws, j, h1, h2, h3, h4, h5, h6, h7, _, hsrc, hc⟩ := add_copied hlib hw hbelow h
  have er : resolve (absComps E.cwd r.root) path = absComps E.cwd r.root ++ ws := by
    rw [h4.2.2]; exact resolve_join _ h4.2.1
  refine ⟨fun trees hh => ⟨ws, h4, .copied hh hc.wf (hc.sameFiles hw hsrc)⟩, fun base trees hl hp hh => ?_⟩
  rw [er] at hp
  refine .elsewhere hh hc.wf ?_
  rintro q ⟨t, rfl⟩
  exact hc.others hw hl hp t

/-- Valid objects made by the library have files in the directories of all versions. -/
theorem C77_full {E : Env} (hE : Libraries E) (hcwd : ∀ w ∈ E.cwd, SafeName w) {objdir : Str} {trees : List Tree} {s : FS}
    (h : History E (absComps E.cwd objdir) trees s) (hno : NoCollision E.raw (InTrees trees)) (hlen : trees.length ≤ 99999)
    {cfg : Config} (hlax : cfg.lax = false) (hv : ∃ es, validateObject E cfg 0 s objdir = .ok (true, es)) :
    VersionsFull E s (absComps E.cwd objdir) := by
  obtain ⟨dv, recs, hs⟩ := history_sound hE.json hE.hash hE.word hcwd h hno hlen
  obtain ⟨_, spec, j, alg, cd, m, vs, states, style, n, hr⟩ := (C73 hE hlax hs.wf).mp hv
  intro j' vs' hj hm v hmem
  have e := storedJson_unique hj hr.inventory
  subst e
  have hwf : j'.WF := by
    obtain ⟨_, _, _, _, h3⟩ := hj
    exact hE.json.wf _ _ h3
  have e := member_unique hwf hm hr.rules.versions
  cases e
  have hd := hr.versionDirs v hmem
  obtain ⟨rl, hlast, _, hst, _⟩ := hs.last
  rcases hs.only v [] (by rw [hd]; simp) with ⟨k, hk, rfl⟩ | ⟨_, rfl | rfl | ⟨r, hr', rfl⟩⟩
  · obtain ⟨r, _, _, hvs⟩ := hs.at (i := k + 1) (by omega) (by omega)
    have := hvs.stored.1
    rw [List.append_assoc] at this
    exact ⟨[inventoryFilename], _, this⟩
  · rw [hst.1] at hd; cases hd
  · rw [hs.declaration] at hd; cases hd
  · rw [hlast] at hr'
    cases hr'
    obtain ⟨_, _, _, h3⟩ := hst
    rw [h3] at hd; cases hd

/-- The name of an object in a storage root. -/
theorem absComps_slash {cwd : Path} {root path : Str} {ws : List Str} (hr : root ≠ []) (hb : Below path ws) :
    absComps cwd (root ++ c!"/" ++ path) = absComps cwd root ++ ws := by
  have e1 : splitOn '/' (root ++ c!"/" ++ path) = splitOn '/' root ++ splitOn '/' path := by
    rw [List.append_assoc]
    exact splitOn_append _ _ _
  have e2 : startsWith (root ++ c!"/" ++ path) c!"/" = startsWith root c!"/" := by
    cases root with
    | nil => exact absurd rfl hr
    | cons c l => rfl
  have e3 := resolve_join (absComps cwd root) hb.2.1
  rw [← hb.2.2] at e3
  unfold absComps at e3 ⊢
  rw [e1, e2, List.foldl_append]
  exact e3

/-! ## Examples -/

theorem get?_filter {α β : Type} [DecidableEq α] (f : α → Bool) (k : α) (hk : f k = true) :
    ∀ d : Dict α β, Dict.get? (d.filter (fun e => f e.1)) k = Dict.get? d k
  | [] => rfl
  | (a, b) :: d => by
    rw [List.filter_cons]
    by_cases e : a = k
    · subst e
      simp only [hk, if_true, Dict.get?]
    · split_ifs
      · simp only [Dict.get?, if_neg e]
        exact get?_filter f k hk d
      · simp only [Dict.get?, if_neg e]
        exact get?_filter f k hk d

/-- The part of a tree of files below a directory. -/
def partBelow (p : Path) (s : FS) : FS := s.filter (fun e => p.isPrefixOf e.1)

theorem same_below {s s' : FS} {p : Path} (h : partBelow p s' = partBelow p s) (q : Path) (hq : p <+: q) : look s' q = look s q := by
  unfold FS.look
  split_ifs
  · rfl
  · have hk : p.isPrefixOf q = true := List.isPrefixOf_iff_prefix.mpr hq
    have h1 := get?_filter (fun x : Path => p.isPrefixOf x) q hk s'
    have h2 := get?_filter (fun x : Path => p.isPrefixOf x) q hk s
    rw [← h1, ← h2]
    exact congrArg (fun d => Dict.get? d q) h

theorem store_history1 : History demoEnv (absComps demoEnv.cwd c!"obj") [FileBelow demoFS (absComps demoEnv.cwd c!"src")] storeFS :=
  .elsewhere demo_history1 storeFS_wf (same_below (by decide +kernel))

theorem store_history2 : History demoEnv (absComps demoEnv.cwd c!"root/info:x") [FileBelow demoFS (absComps demoEnv.cwd c!"src")] storeAdded := by
  obtain ⟨ws, hb, hh⟩ := (C77_history demoEnv_lawful storeFS_wf (demo_pathsBelow _ storeFS_wf) demo_added).1 _ store_history1
  rwa [← absComps_slash (by decide) hb] at hh

/-- The source directory is changed. -/
def storeChanged : FS := Dict.set storeAdded [c!"w", c!"src", c!"a.txt"] (.file [9])

theorem storeChanged_wf : storeChanged.WF where
  nk := by decide +kernel
  noRoot := by decide +kernel
  parent := by decide +kernel
  names := by decide +kernel

/-- The object in the storage root gets another version. -/
def storeUpdate : Prog (Option Inv) := addVersionWithContent demoEnv demoObj c!"root/info:x" (some c!"src") (some demoMeta) true

def storeGrown : FS := (run storeUpdate storeChanged).1

def storeTrees : List Tree := [FileBelow demoFS (absComps demoEnv.cwd c!"src"), FileBelow storeChanged (absComps demoEnv.cwd c!"src")]

theorem store_history3 : History demoEnv (absComps demoEnv.cwd c!"root/info:x") storeTrees storeGrown := by
  have h1 : History demoEnv (absComps demoEnv.cwd c!"root/info:x") [FileBelow demoFS (absComps demoEnv.cwd c!"src")] storeChanged :=
    .elsewhere store_history2 storeChanged_wf (same_below (by decide +kernel))
  obtain ⟨inv, hr⟩ := gaveVersion_ok (r := run storeUpdate storeChanged) (by decide +kernel)
  exact .update h1 (Or.inr rfl) demoMeta_good rfl (fun h => by cases h) hr

theorem store_noCollision : NoCollision demoEnv.raw (InTrees storeTrees) := by
  refine noCollision_of (l := [[1, 2, 3], [4], [9]]) ?_ (by decide +kernel)
  intro t ht r b h
  have hsub : ∀ b ∈ filesBelow demoFS (absComps demoEnv.cwd c!"src") ++ filesBelow storeChanged (absComps demoEnv.cwd c!"src"),
      b ∈ [[1, 2, 3], [4], ([9] : Bytes)] := by decide +kernel
  have ht : t = FileBelow demoFS (absComps demoEnv.cwd c!"src") ∨ t = FileBelow storeChanged (absComps demoEnv.cwd c!"src") := by
    simpa [storeTrees] using ht
  rcases ht with rfl | rfl
  · exact hsub b (List.mem_append_left _ (mem_filesBelow h))
  · exact hsub b (List.mem_append_right _ (mem_filesBelow h))

/-- An object is created, added to a storage root and updated there. It is valid, and its first version can be
extracted. -/
example : (∃ es, validateObject demoEnv {} 0 storeGrown c!"root/info:x" = .ok (true, es)) ∧
    ∃ s' md, run (extract demoEnv c!"root/info:x" c!"v1" c!"out") storeGrown = (s', .ok md) ∧
      ∀ r b, FileBelow s' (absComps demoEnv.cwd c!"out") r b ↔ FileBelow demoFS (absComps demoEnv.cwd c!"src") r b := by
  have hw : storeGrown.WF := by
    obtain ⟨_, _, hs⟩ := history_sound demoEnv_lawful demoRaw_hash demoWord_class demoEnv_cwd store_history3 store_noCollision (by decide)
    exact hs.wf
  refine ⟨(C74 demoLibraries demoEnv_cwd store_history3 store_noCollision (by decide) rfl).mpr (Or.inr (by decide)), ?_⟩
  obtain ⟨s', md, h1, h2, _⟩ := C22_partial demoEnv_lawful demoRaw_hash demoWord_class demoEnv_cwd store_history3 store_noCollision (by decide)
    (k := 0) rfl (dstdir := c!"out") (Or.inl rfl) (by decide +kernel) (by decide +kernel) (vacant_of hw (by decide +kernel))
  exact ⟨s', md, h1, h2⟩

/-- The hypotheses of `C77_partial` hold of the example. -/
example : ∃ es, validateObject demoEnv {} 0 storeAdded c!"root/info:x" = .ok (true, es) := by
  have hno : NoCollision demoEnv.raw (InTrees [FileBelow demoFS (absComps demoEnv.cwd c!"src")]) :=
    NoCollision.mono store_noCollision (fun b hb => InTrees.append (trees := [_]) hb)
  have hv := (C74 demoLibraries demoEnv_cwd store_history1 hno (by decide) (cfg := {}) rfl).mpr (Or.inr (by decide))
  obtain ⟨⟨ws, hb, h⟩, _⟩ := C77_partial demoLibraries storeFS_wf (demo_pathsBelow _ storeFS_wf) (cfg := {}) rfl rfl hv
    (C77_full demoLibraries demoEnv_cwd store_history1 hno (by decide) rfl hv) demo_added
  exact h {} rfl _ (absComps_slash (root := c!"root") (by decide) hb)

/-! ## Where the code does not do it -/

/-- A valid object, whose second version has no new content and no inventory of its own, and an empty storage root. -/
def hollowFS : FS :=
  Dict.erase (Dict.erase (run (initializeRoot demoEnv defaultRegistry flatStore none none) oldOnce).1
    [c!"w", c!"obj", c!"v2", c!"inventory.json"]) [c!"w", c!"obj", c!"v2", c!"inventory.json.sha256"]

theorem rejected_object {E : Env} {cfg : Config} {s : FS} {path : Str}
    (h : (match validateObject E cfg 0 s path with | .ok (b, _) => b | .error _ => true) = false) :
    ∃ es, validateObject E cfg 0 s path = .ok (false, es) := by
  cases hr : validateObject E cfg 0 s path with
  | error e => rw [hr] at h; cases h
  | ok r =>
    obtain ⟨b, es⟩ := r
    rw [hr] at h
    dsimp only at h
    subst h
    exact ⟨es, rfl⟩

/-- **C77** fails: the object is valid, but its copy in the storage root is not, as the empty directory of its second version
is not there. -/
theorem C77_violated : (∃ es, validateObject demoEnv {} 0 hollowFS c!"obj" = .ok (true, es)) ∧
    (∃ s', run (add demoEnv defaultRegistry demoEnc anyStore c!"obj") hollowFS = (s', .ok (c!"info:x", c!"info:x")) ∧
      ∃ es, validateObject demoEnv {} 0 s' c!"root/info:x" = .ok (false, es)) :=
  ⟨accepted_object (by decide +kernel), _, outcome_eq (by decide +kernel), rejected_object (by decide +kernel)⟩

end Ocfl
