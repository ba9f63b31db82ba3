import Verif.Proofs.TreeView
import Verif.Props.LibraryValid
import Verif.Props.ObjectToolDemo

/-!
# C85: the tree view
-/

namespace Ocfl

open Spec FS Prog TreeView

/-- A configuration of `tree`: digests are not checked. -/
abbrev viewCfg (lax : Bool) : Validator.Config := { checkDigests := false, lax := lax }

theorem tree_rows {E : Env} {s : FS} (hw : s.WF) {lax : Bool} {objdir : Str} (hd : look s (absComps E.cwd objdir) = some .dir)
    {verdict : Bool × List Entry} (hv : Validator.validateObject E (viewCfg lax) 0 s objdir = .ok verdict) :
    ∃ rows : List ((Str × Str) × List (Str × Str)),
      tree E lax objdir s = .ok (drawn objdir (rows.map fun r => (remarked r.1, r.2.map remarked))) ∧
      NamesIn s (absComps E.cwd objdir) (rows.map fun r => r.1.1) ∧
      ∀ pre r post, rows = pre ++ r :: post →
        RootRemark s (absComps E.cwd objdir) (validatorSees E (viewCfg lax) s (absComps E.cwd objdir)).2
          (c!"0=ocfl_object_" ++ (validatorSees E (viewCfg lax) s (absComps E.cwd objdir)).1) (∃ x ∈ pre, SidecarLike x.1.1) r := by
  have hnames := listdirNames_eq hw (base := absComps E.cwd objdir) (ws := []) (dir := []) (by simp) (.inl rfl) (by simpa using hd)
  rw [List.append_nil] at hnames
  have hin : NamesIn s (absComps E.cwd objdir) (sortStr ((FS.children s (absComps E.cwd objdir)).map Prod.fst)) := by
    refine ⟨(sortStr_perm _).nodup_iff.mpr (FS.children_names_nodup hw _), sortStr_sorted _, fun n => ?_⟩
    rw [(sortStr_perm _).mem_iff, mem_names hw]
  obtain ⟨rows, h1, h2, h3⟩ := rootNotes_spec (base := absComps E.cwd objdir)
    (cd := (validatorSees E (viewCfg lax) s (absComps E.cwd objdir)).2)
    (decl := c!"0=ocfl_object_" ++ (validatorSees E (viewCfg lax) s (absComps E.cwd objdir)).1) hw rfl false
    (fun n hn => (hin.mem n).mp hn)
  refine ⟨rows, ?_, by rw [h1]; exact hin, fun pre r post he => by simpa using h3 pre r post he⟩
  unfold tree notes
  rw [hv]
  dsimp only
  rw [openObj_dir hd]
  dsimp only
  rw [hnames]
  dsimp only
  rw [h2]
  dsimp only
  rw [lines_eq]
  simp [drawn]

/-- **C85**: `Object.tree` of a directory for which validation ends, with whatever verdict, shows everything in this directory and in the directories of versions,
each once and in order, with the remarks that are due: the number of files in content directories, and marks on what does not belong there. -/
theorem C85_all {E : Env} {s : FS} (hw : s.WF) {lax : Bool} {objdir : Str} (hd : look s (absComps E.cwd objdir) = some .dir)
    {verdict : Bool × List Entry} (hv : Validator.validateObject E (viewCfg lax) 0 s objdir = .ok verdict) :
    ∃ (rows : List ((Str × Str) × List (Str × Str))) (contentDirectory version : Str),
      tree E lax objdir s = .ok (drawn objdir (rows.map fun r => (remarked r.1, r.2.map remarked))) ∧
      NamesIn s (absComps E.cwd objdir) (rows.map fun r => r.1.1) ∧
      ∀ pre r post, rows = pre ++ r :: post →
        RootRemark s (absComps E.cwd objdir) contentDirectory (c!"0=ocfl_object_" ++ version) (∃ x ∈ pre, SidecarLike x.1.1) r := by
  obtain ⟨rows, h1, h2, h3⟩ := tree_rows hw hd hv
  exact ⟨rows, _, _, h1, h2, h3⟩

theorem sees_first {E : Env} {cfg : Validator.Config} {s : FS} {base : Path} {tvalues : List Str} {spec : Str} {j : Json} {res : IV.Result}
    (hf : findNamastes s base 0 [] 10 = .ok tvalues) (hp : W.Pass (Validator.validateFirst E cfg s base tvalues) (some (spec, j, res))) :
    validatorSees E cfg s base = (spec, res.contentDirectory) ∧ W.Pass (Validator.checkDeclaration E cfg s base tvalues) spec ∧
      W.Pass (Validator.validateInventory E cfg spec s base inventoryFilename) (j, res) := by
  obtain ⟨es, hes, hn⟩ := id hp
  unfold Validator.validateFirst at hp
  rw [W.pass_bind] at hp
  obtain ⟨spec', h1, h2⟩ := hp
  rw [W.pass_ite] at h2
  have key : spec' = spec ∧ W.Pass (Validator.validateInventory E cfg spec s base inventoryFilename) (j, res) := by
    rcases h2 with ⟨_, h2⟩ | ⟨_, h2⟩
    · rw [W.pass_bind] at h2
      obtain ⟨_, h2, _⟩ := h2
      exact absurd h2 (by rw [W.pass_err]; exact id)
    · rw [W.pass_bind] at h2
      obtain ⟨jr, h2, h3⟩ := h2
      rw [W.pass_ret] at h3
      cases h3
      exact ⟨rfl, h2⟩
  obtain ⟨rfl, h3⟩ := key
  refine ⟨?_, h1, h3⟩
  obtain ⟨es1, h1, _⟩ := h1
  unfold validatorSees
  rw [hf]
  dsimp only
  rw [h1, hes]

/-- **C85** for valid objects: the content directory is the one of the inventory, and the declaration the one that is there. -/
theorem C85_valid {E : Env} (hE : Libraries E) {s : FS} (hw : s.WF) {objdir : Str} (hd : look s (absComps E.cwd objdir) = some .dir)
    (hvalid : ValidObject E false s (absComps E.cwd objdir)) :
    ∃ (rows : List ((Str × Str) × List (Str × Str))) (j : Json) (contentDirectory version : Str),
      tree E false objdir s = .ok (drawn objdir (rows.map fun r => (remarked r.1, r.2.map remarked))) ∧
      StoredJson E.lib s (absComps E.cwd objdir ++ [c!"inventory.json"]) j ∧ ContentDir j contentDirectory ∧
      look s (absComps E.cwd objdir ++ [c!"0=ocfl_object_" ++ version]) ≠ none ∧
      NamesIn s (absComps E.cwd objdir) (rows.map fun r => r.1.1) ∧
      ∀ pre r post, rows = pre ++ r :: post →
        RootRemark s (absComps E.cwd objdir) contentDirectory (c!"0=ocfl_object_" ++ version) (∃ x ∈ pre, SidecarLike x.1.1) r := by
  obtain ⟨es, hv⟩ := (C73 hE (cfg := viewCfg false) rfl hw).mpr ⟨hd, hvalid⟩
  obtain ⟨rows, h1, h2, h3⟩ := tree_rows hw hd hv
  have hat : ∃ es, Validator.validateAt E (viewCfg false) 0 s (absComps E.cwd objdir) = .ok (true, es) := by
    refine ⟨es, ?_⟩
    unfold Validator.validateObject at hv
    rw [show fswOpen E.cwd objdir s = .ok (absComps E.cwd objdir) by unfold fswOpen; dsimp only; rw [isdir_iff.mpr hd]; rfl] at hv
    exact hv
  obtain ⟨tvalues, spec, ⟨j, res⟩, hf, hp, _⟩ := Validator.verdict_true.mp hat
  obtain ⟨hsees, hdecl, hinv⟩ := sees_first hf hp
  obtain ⟨hsup, rfl, hok⟩ := Validator.pass_checkDeclaration.mp hdecl
  obtain ⟨hst, hclean⟩ := (Validator.pass_validateInventory (look_inventory _)).mp hinv
  obtain ⟨idv, sp, alg, cd, m, vs, states, style, n, hs⟩ := (Validator.clean_says (storedJson_wf hE.json hst)).mp hclean
  rw [hsees] at h3
  refine ⟨rows, j, res.contentDirectory, spec, h1, hst, ?_, ?_, h2, h3⟩
  · rw [hs.result]
    exact hs.rules.contentDirectory
  · obtain ⟨b, text, hb, _⟩ := (Validator.contentOk_true (by
      have : spec = c!"1.0" ∨ spec = c!"1.1" := by simpa [supported] using hsup
      rcases this with rfl | rfl <;> decide) (by simp)).mp hok
    rw [show c!"0=ocfl_object_" ++ spec = c!"0=" ++ (c!"ocfl_object_" ++ spec) from rfl, hb]
    simp

/-- **C85** for objects made by the library: besides the numbers of files in the directories of versions no remarks are shown.

Missing from the full statement: objects that were created with version 1.0 of the specification and have more than two versions, which are not valid (`C74`); a content
directory named like a sidecar; and see `C85_violated`. -/
theorem C85_partial {E : Env} (hE : Libraries E) (hcwd : ∀ w ∈ E.cwd, SafeName w) {objdir : Str} {trees : List Tree} {s : FS}
    (h : History E (absComps E.cwd objdir) trees s) (hno : NoCollision E.raw (InTrees trees)) (hlen : trees.length ≤ 99999)
    (hspec : look s (absComps E.cwd objdir ++ [c!"0=ocfl_object_1.1"]) ≠ none ∨ trees.length ≤ 2) :
    ∃ rows : List (Str × List (Str × Str)),
      tree E false objdir s = .ok (drawn objdir (rows.map fun r => (remarked (r.1, []), r.2.map remarked))) ∧
      NamesIn s (absComps E.cwd objdir) (rows.map Prod.fst) ∧
      ∀ r ∈ rows, NamesIn s (absComps E.cwd objdir ++ [r.1]) (r.2.map Prod.fst) ∧
        ∀ e ∈ r.2, (∀ b, look s (absComps E.cwd objdir ++ [r.1, e.1]) = some (.file b) → e.2 = []) ∧
          (look s (absComps E.cwd objdir ++ [r.1, e.1]) = some .dir → ¬ SidecarLike e.1 →
            ∃ n, FileCount s (absComps E.cwd objdir ++ [r.1, e.1]) n ∧ e.2 = c!"(" ++ natStr n ++ c!" files)") := by
  obtain ⟨dv, recs, hs⟩ := history_sound hE.json hE.hash hE.word hcwd h hno hlen
  have hdecl11 := hs.declared (v := c!"1.1")
  rw [show c!"0=ocfl_object_" ++ c!"1.1" = c!"0=ocfl_object_1.1" from rfl] at hdecl11
  have hv := hs.valid hE hno (hspec.imp (fun h => (hdecl11.mp h).symm) id) false
  obtain ⟨rows, j, cd, v, h1, hst, hcd, hdec, hin, hrows⟩ := C85_valid hE hs.wf hs.isDir hv
  obtain rfl := hs.declared.mp hdec
  obtain ⟨rl, hlast, hd, hstr, hvl, hpos⟩ := hs.last
  have hj : j = rl.inv.toJson.sortKeys := storedJson_unique hst (stored_written hE.json hd.parsed.good hstr.1)
  have hcd' : cd = rl.inv.contentDirectoryToUse := by
    obtain ⟨_, _, _, _, _, hrules⟩ := hd.parsed.good.writtenRules
    subst hj
    rcases hcd with ⟨hm, _⟩ | ⟨hm, e⟩ <;> rcases hrules.contentDirectory with ⟨hm', _⟩ | ⟨hm', e'⟩
    · exact member_str_unique hd.parsed.good.writtenWF hm hm'
    · exact absurd hm (hm' _)
    · exact absurd hm' (hm _)
    · rw [e, e']
  have hsame : ∀ r ∈ recs, r.inv.contentDirectoryToUse = cd := by
    intro r hr
    rw [hcd']
    unfold Inv.contentDirectoryToUse
    rw [(hs.same r hr rl (List.mem_of_getLast? hlast)).2]
  have hversion : ∀ k, VersionLike (styleName none (k + 1)) := fun k => ⟨natStr (k + 1), natStr_ne_nil _, fun _ hc => natStr_isDigit' hc, .inl rfl⟩
  have hsidecar : ∀ n, look s (absComps E.cwd objdir ++ [n]) ≠ none → SidecarLike n → n = sidecarName rl.alg := by
    rintro n hl hsl
    rcases hs.only _ _ hl with ⟨k, _, he⟩ | ⟨_, he | he | ⟨r', hr', he⟩⟩
    · have := sidecarLike_head hsl
      rw [he, styleName_head] at this
      cases this
    · obtain ⟨alg, rfl⟩ := hsl
      have := congrArg List.length he
      simp [inventoryFilename] at this
    · have := sidecarLike_head hsl
      rw [he] at this
      cases this
    · rw [hlast] at hr'
      cases hr'
      exact he
  have key : ∀ r ∈ rows, r.1.2 = [] ∧ NamesIn s (absComps E.cwd objdir ++ [r.1.1]) (r.2.map Prod.fst) ∧
      ∀ e ∈ r.2, (∀ b, look s (absComps E.cwd objdir ++ [r.1.1, e.1]) = some (.file b) → e.2 = []) ∧
          (look s (absComps E.cwd objdir ++ [r.1.1, e.1]) = some .dir → ¬ SidecarLike e.1 →
            ∃ n, FileCount s (absComps E.cwd objdir ++ [r.1.1, e.1]) n ∧ e.2 = c!"(" ++ natStr n ++ c!" files)") := by
    intro r hr
    obtain ⟨pre, post, he⟩ := List.append_of_mem hr
    have hmem : ∀ x ∈ rows, look s (absComps E.cwd objdir ++ [x.1.1]) ≠ none := fun x hx => (hin.mem _).mp (List.mem_map.mpr ⟨x, hx, rfl⟩)
    have hl := hmem r hr
    have hnever : ¬ ((∃ x ∈ pre, SidecarLike x.1.1) ∧ SidecarLike r.1.1) := by
      rintro ⟨⟨x, hx, hsx⟩, hsr⟩
      have e1 := hsidecar _ (hmem x (by rw [he]; simp [hx])) hsx
      have e2 := hsidecar _ hl hsr
      have hnd := hin.nodup
      rw [he, List.map_append, List.map_cons, List.nodup_append] at hnd
      exact hnd.2.2 _ (List.mem_map.mpr ⟨x, hx, rfl⟩) r.1.1 (by simp) (by rw [e1, e2])
    rcases hrows pre r post he with ⟨hvl', h2, h3, h4⟩ | ⟨hnv, h2, h3⟩
    · refine ⟨h2, h3, fun e hem => ?_⟩
      obtain ⟨k, hk, hkn⟩ : ∃ k < trees.length, r.1.1 = styleName none (k + 1) := by
        rcases hs.only _ _ hl with h | ⟨_, h | h | ⟨r', _, h⟩⟩
        · exact h
        all_goals
          have := versionLike_head hvl'
          rw [h] at this
          cases this
      obtain ⟨rv, _, hrv, hvs⟩ := hs.at (i := k + 1) (by omega) (by omega)
      have hle : look s (absComps E.cwd objdir ++ [r.1.1, e.1]) ≠ none := by
        have := (h3.mem e.1).mp (List.mem_map.mpr ⟨e, hem, rfl⟩)
        rwa [List.append_assoc] at this
      have hinside := hvs.inside hs.wf (q := [e.1]) (by simp) (by rw [← hkn]; exact hle)
      rw [hsame rv hrv, ← hkn] at hinside
      have hfile : e.1 = c!"inventory.json" ∨ SidecarLike e.1 ∨ (e.1 = cd ∧ look s (absComps E.cwd objdir ++ [r.1.1, e.1]) = some .dir) := by
        rcases hinside with h | h | ⟨ws, b, hp, hne, hb, _⟩
        · exact .inl (List.cons.inj h).1
        · exact .inr (.inl ⟨rv.alg, (List.cons.inj h).1⟩)
        · have hec : e.1 = cd := by
            obtain ⟨t, ht⟩ := hp
            exact (List.cons.inj ht).1
          refine .inr (.inr ⟨hec, ?_⟩)
          rw [hec]
          refine look_prefix hs.wf (q := absComps E.cwd objdir ++ r.1.1 :: cd :: ws) (n := .file b) ?_ ?_ hb
          · exact (List.prefix_append_right_inj _).mpr ⟨ws, by simp⟩
          · simpa using fun h => hne h
      have hrem := h4 e hem
      constructor
      · intro b hb
        have hold : e.1 = c!"inventory.json" ∨ SidecarLike e.1 := by
          rcases hfile with h | h | ⟨_, h⟩
          · exact .inl h
          · exact .inr h
          · rw [hb] at h
            cases h
        rcases hrem with ⟨_, h⟩ | ⟨h, _⟩ | ⟨h, _⟩
        · exact h
        · exact absurd hold h
        · exact absurd hold h
      · intro hdir hns
        have hni : e.1 ≠ c!"inventory.json" := by
          intro h
          have := hvs.stored.1
          rw [← hkn, List.append_assoc] at this
          rw [h] at hdir
          rw [show absComps E.cwd objdir ++ ([r.1.1] ++ [inventoryFilename]) = absComps E.cwd objdir ++ [r.1.1, c!"inventory.json"] from rfl, hdir] at this
          cases this
        have hec : e.1 = cd := by
          rcases hfile with h | h | ⟨h, _⟩
          · exact absurd h hni
          · exact absurd h hns
          · exact h
        rcases hrem with ⟨h, _⟩ | ⟨_, _, n, hn, h⟩ | ⟨_, h, _⟩
        · exact absurd h (not_or.mpr ⟨hni, hns⟩)
        · rw [List.append_assoc] at hn
          exact ⟨n, by rw [hec]; exact hn, h⟩
        · exact absurd hec h
    · have hnone : ∀ n, look s (absComps E.cwd objdir ++ [r.1.1] ++ [n]) = none := by
        intro n
        by_contra hc
        rw [List.append_assoc] at hc
        rcases hs.only _ _ hc with ⟨k, _, h⟩ | ⟨h, _⟩
        · exact hnv (h ▸ hversion k)
        · cases h
      refine ⟨?_, ?_, ?_⟩
      · rcases h3 with ⟨_, h⟩ | ⟨hsl, ⟨_, h⟩ | ⟨h, _⟩⟩ | ⟨h, _⟩
        · exact h
        · exact h
        · exact absurd ⟨h, hsl⟩ hnever
        · exfalso
          apply h
          rcases hs.only _ _ hl with ⟨k, _, h⟩ | ⟨_, h | h | ⟨r', _, h⟩⟩
          · exact absurd (h ▸ hversion k) hnv
          · exact .inr (.inl h)
          · exact .inl h
          · exact .inr (.inr ⟨_, h⟩)
      · rw [h2]
        exact ⟨by simp, by simp, fun n => by rw [hnone n]; simp⟩
      · rw [h2]
        simp
  refine ⟨rows.map (fun r => (r.1.1, r.2)), ?_, ?_, ?_⟩
  · rw [h1, List.map_map]
    congr 2
    refine List.map_congr_left (fun r hr => ?_)
    show (remarked r.1, r.2.map remarked) = (remarked (r.1.1, []), r.2.map remarked)
    rw [← (key r hr).1]
  · rw [List.map_map]
    exact hin
  · intro r hr
    obtain ⟨x, hx, rfl⟩ := List.mem_map.mp hr
    exact (key x hx).2

/-! ## Examples, and where the property fails -/

/-- The view of the object of `demo_history`. -/
example : ∃ rows : List (Str × List (Str × Str)), tree demoEnv false c!"obj" demoGrown =
    .ok (drawn c!"obj" (rows.map fun r => (remarked (r.1, []), r.2.map remarked))) ∧
      NamesIn demoGrown (absComps demoEnv.cwd c!"obj") (rows.map Prod.fst) := by
  obtain ⟨rows, h1, h2, _⟩ := C85_partial demoLibraries demoEnv_cwd demo_history demo_noCollision (by decide) (.inl (by decide +kernel))
  exact ⟨rows, h1, h2⟩

/-- The same as a text. -/
example : tree demoEnv false c!"obj" demoGrown = .ok (drawn c!"obj"
    [(c!"0=ocfl_object_1.1 ", []), (c!"inventory.json ", []), (c!"inventory.json.sha512 ", []),
     (c!"v1 ", [c!"content (2 files)", c!"inventory.json ", c!"inventory.json.sha256 "]),
     (c!"v2 ", [c!"content (1 files)", c!"inventory.json ", c!"inventory.json.sha512 "])]) := by
  decide +kernel

/-- An object with a directory for extensions. -/
def extendedFS : FS := Dict.set demoMade [c!"w", c!"obj", c!"extensions"] .dir

/-- **C85 fails**: the directory `extensions`, with which the object is valid, is marked as unknown. -/
theorem C85_violated : (∃ es, Validator.validateObject demoEnv {} 0 extendedFS c!"obj" = .ok (true, es)) ∧
    tree demoEnv false c!"obj" extendedFS = .ok (drawn c!"obj"
      [(c!"0=ocfl_object_1.1 ", []), (c!"extensions <--- ???", []), (c!"inventory.json ", []), (c!"inventory.json.sha256 ", []),
       (c!"v1 ", [c!"content (2 files)", c!"inventory.json ", c!"inventory.json.sha256 "])]) := by
  refine ⟨?_, by decide +kernel⟩
  have h : (match Validator.validateObject demoEnv {} 0 extendedFS c!"obj" with | .ok (b, _) => b | .error _ => false) = true := by decide +kernel
  split at h
  · rename_i b es he
    subst h
    exact ⟨es, he⟩
  · cases h

/-- An object with two more sidecars, and a file named like a version. -/
def messyFS : FS := Dict.set (Dict.set (Dict.set demoMade [c!"w", c!"obj", c!"v9"] (.file [1]))
  [c!"w", c!"obj", c!"v1", c!"inventory.json.sha512"] (.file [1])) [c!"w", c!"obj", c!"inventory.json.sha512"] (.file [1])

/-- **C85 fails**: a second sidecar is marked in the object root, but not in a version directory; and a file named like a version is not marked. -/
theorem C85_violated_marks : tree demoEnv false c!"obj" messyFS = .ok (drawn c!"obj"
    [(c!"0=ocfl_object_1.1 ", []), (c!"inventory.json ", []), (c!"inventory.json.sha256 ", []),
     (c!"inventory.json.sha512 <--- multiple inventory digests?", []),
     (c!"v1 ", [c!"content (2 files)", c!"inventory.json ", c!"inventory.json.sha256 ", c!"inventory.json.sha512 "]), (c!"v9 ", [])]) := by
  decide +kernel

end Ocfl
