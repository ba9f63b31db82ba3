import Verif.Proofs.Alike
import Verif.Proofs.StoreListing
import Verif.Proofs.StoreStructure

/-!
# Storage roots with the same contents
-/

namespace Ocfl
open Spec FS

namespace Store

/-- Two directories with the same contents. -/
structure Moved (s : FS) (base : Path) (s' : FS) (base' : Path) : Prop where
  wf : s.WF
  wf' : s'.WF
  dir : look s base = some .dir
  same : SameContents s base s' base'

variable {E : Env} {cwd : Path} {reg : Dict Str LayoutObj} {s s' : FS} {base base' : Path}

theorem Moved.twin (t : Moved s base s' base') : Validator.Twin s base s' base' := ⟨t.wf, t.wf', t.dir, fun q _ => t.same q⟩

theorem Moved.sub (t : Moved s base s' base') {ws : Path} (h : look s (base ++ ws) = some .dir) : Moved s (base ++ ws) s' (base' ++ ws) :=
  ⟨t.wf, t.wf', h, fun q => by rw [List.append_assoc, List.append_assoc, t.same]⟩

theorem Moved.symm (t : Moved s base s' base') : Moved s' base' s base := ⟨t.wf', t.wf, t.twin.dir', fun q => (t.same q).symm⟩

theorem Moved.looks (t : Moved s base s' base') (q : Path) : FS.look s (base ++ q) = FS.look s' (base' ++ q) := t.same q

theorem Moved.exists_ (t : Moved s base s' base') (ws : Path) : FS.exists_ s (base ++ ws) = FS.exists_ s' (base' ++ ws) := by
  unfold FS.exists_
  rw [t.same]

theorem Moved.read (t : Moved s base s' base') (ws : Path) : FS.read s (base ++ ws) = FS.read s' (base' ++ ws) := by
  unfold FS.read FS.missing
  rw [t.same, Validator.any_above t.wf t.dir, Validator.any_above t.wf' t.twin.dir']
  have : (fun n => isfile s (base ++ ws.take n)) = (fun n => isfile s' (base' ++ ws.take n)) := by
    funext n
    unfold isfile
    rw [t.same]
  rw [this]

/-! ## Structure -/

theorem Moved.readParams (t : Moved s base s' base') {l : LayoutObj} {req : Bool} :
    l.readParams E.lib E.raw s base req = l.readParams E.lib E.raw s' base' req := by
  unfold LayoutObj.readParams
  rw [resolve_configFile, resolve_configFile, t.exists_, t.read]

theorem Moved.parseLayoutFile (t : Moved s base s' base') :
    Store.parseLayoutFile E s base = Store.parseLayoutFile { E with cwd := cwd } s' base' := by
  unfold Store.parseLayoutFile
  rw [show resolve base layoutFile = base ++ [c!"ocfl_layout.json"] from resolve_name base (by decide),
    show resolve base' layoutFile = base' ++ [c!"ocfl_layout.json"] from resolve_name base' (by decide), t.read]

/-- Another path of the storage root. -/
def atPath (path : Str) (r : StorageRoot) : StorageRoot := { r with root := path }

theorem layoutOf_at {r : StorageRoot} {path : Str} : layoutOf reg (atPath path r) = (atPath path (layoutOf reg r).1, (layoutOf reg r).2) := by
  cases r with
  | mk root layoutName layout specVersion lax log traversalErrors =>
    cases layout with
    | some l => rfl
    | none =>
      cases layoutName with
      | none => rfl
      | some name =>
        unfold layoutOf atPath
        dsimp only
        cases getLayout reg name <;> rfl

theorem Moved.checkLayout (t : Moved s base s' base') {r : StorageRoot} {path : Str} :
    Store.checkLayout { E with cwd := cwd } reg s' base' (atPath path r) =
      (atPath path (Store.checkLayout E reg s base r).1, (Store.checkLayout E reg s base r).2) := by
  unfold Store.checkLayout
  rw [show resolve base layoutFile = base ++ [c!"ocfl_layout.json"] from resolve_name base (by decide),
    show resolve base' layoutFile = base' ++ [c!"ocfl_layout.json"] from resolve_name base' (by decide), ← t.exists_,
    ← t.parseLayoutFile (E := E) (cwd := cwd)]
  split
  · cases Store.parseLayoutFile E s base with
    | error e => rfl
    | ok name =>
      dsimp only
      split
      · rfl
      · have := layoutOf_at (reg := reg) (r := { r with layoutName := some name }) (path := path)
        rw [show ({ atPath path r with layoutName := some name } : StorageRoot) = atPath path { r with layoutName := some name } from rfl, this]
        cases hl : layoutOf reg { r with layoutName := some name } with
        | mk r1 x =>
          cases x with
          | error e => rfl
          | ok o =>
            cases o with
            | none => rfl
            | some l =>
              dsimp only
              rw [← t.readParams (E := E)]
              cases l.readParams E.lib E.raw s base false <;> rfl
  · rfl

theorem Moved.checkStructure (t : Moved s base s' base') {r : StorageRoot} {path : Str} :
    Store.checkStructure { E with cwd := cwd } reg s' base' (atPath path r) =
      (atPath path (Store.checkStructure E reg s base r).1, (Store.checkStructure E reg s base r).2) := by
  unfold Store.checkStructure
  rw [← t.twin.namastes]
  cases hn : findNamastes s base 0 [] 10 with
  | error e => rfl
  | ok l =>
    match l with
    | [] => rfl
    | _ :: _ :: _ => rfl
    | [x] =>
      dsimp only
      cases hv : declaredVersion x with
      | none => rfl
      | some v =>
        obtain ⟨hsup, rfl⟩ := declaredVersion_iff.mp hv
        have hname : SafeName (namasteFilename 0 (c!"ocfl_" ++ v)) := by
          unfold supported at hsup
          simp only [List.mem_cons, List.not_mem_nil, or_false] at hsup
          rcases hsup with rfl | rfl <;> decide
        have hc : namasteContentOk E.isWord s base 0 (c!"ocfl_" ++ v) [] = namasteContentOk E.isWord s' base' 0 (c!"ocfl_" ++ v) [] := by
          unfold namasteContentOk namasteCheck readText
          rw [osPathJoin_nil, resolve_name base hname, resolve_name base' hname]
          simp only [t.exists_, t.read, t.looks, isfile]
        dsimp only
        have : (atPath path r).specVersion = r.specVersion := rfl
        rw [this]
        split
        · rfl
        · rw [hc]
          cases namasteContentOk E.isWord s' base' 0 (c!"ocfl_" ++ v) [] with
          | error e => rfl
          | ok b =>
            cases b with
            | false => rfl
            | true => exact t.checkLayout (E := E) (cwd := cwd) (r := { r with specVersion := some v })

/-! ## Traversal -/

theorem objectPaths_raises (hw : s.WF) (hd : look s base = some .dir)
    (hr : ∃ w, look s (base ++ [c!"extensions", w]) = some .dir ∧ w ∉ registeredExtensions) :
    objectPaths E false s base = .error .attributeError := by
  have hx : look s (base ++ [c!"extensions"]) = some .dir := by
    obtain ⟨w, h, _⟩ := hr
    apply FS.look_above hw [w] (by simp) (n := .dir)
    simpa using h
  have hwalk : fswWalkPruned s base pruneDirs c!"/" = .ok ((treeWalk (nextOf s base) (FS.depth s) []).map (visitOf s base)) :=
    walkPruned_eq hw (fun _ => rfl) (nextOf_sub s base) (nextOf_nodup hw) (by simp) (by simpa using hd) (.inr rfl)
  unfold objectPaths
  rw [hwalk]
  dsimp only
  rw [if_pos, validateExtensions_raises hw hx hr]
  rw [List.any_eq_true]
  refine ⟨visitOf s base [], List.mem_map.mpr ⟨[], (mem_traversal hw hd).mpr (.inl rfl), rfl⟩, decide_eq_true ⟨rfl, ?_⟩⟩
  refine (mem_dirNames hw).mpr ?_
  simpa using hx

theorem Moved.fileBearing (t : Moved s base s' base') (q : Path) : FileBearing s (base ++ q) ↔ FileBearing s' (base' ++ q) := by
  unfold FileBearing
  simp only [List.append_assoc, t.looks]

theorem Moved.reached (t : Moved s base s' base') (q : Path) : Reached s base q ↔ Reached s' base' q := by
  constructor
  · rintro ⟨h1, h2, h3, h4⟩
    exact ⟨h1, by rw [← t.same]; exact h2, h3, fun a b e ha hb hf => h4 a b e ha hb ((t.fileBearing a).mpr hf)⟩
  · rintro ⟨h1, h2, h3, h4⟩
    exact ⟨h1, by rw [t.same]; exact h2, h3, fun a b e ha hb hf => h4 a b e ha hb ((t.fileBearing a).mp hf)⟩

theorem Moved.loose (t : Moved s base s' base') (q : Path) : LooseObjectDir s (base ++ q) ↔ LooseObjectDir s' (base' ++ q) := by
  unfold LooseObjectDir
  simp only [List.append_assoc, t.looks]

theorem Moved.emptyDir (t : Moved s base s' base') (q : Path) : EmptyDir s (base ++ q) ↔ EmptyDir s' (base' ++ q) := by
  unfold EmptyDir
  simp only [List.append_assoc, t.looks]

/-- Listings with the same entries. -/
structure SameEntries (l l' : Listing) : Prop where
  paths : l.paths.Perm l'.paths
  errors : l.errors.Perm l'.errors
  ext : l.extensionErrors = l'.extensionErrors

theorem Moved.traversal (t : Moved s base s' base') : (Store.traversal s base).Perm (Store.traversal s' base') := by
  have hn : (Store.traversal s base).Nodup := (treeWalk_nodup (nextOf_nodup t.wf) _ _).filter _
  have hn' : (Store.traversal s' base').Nodup := (treeWalk_nodup (nextOf_nodup t.wf') _ _).filter _
  rw [List.perm_ext_iff_of_nodup hn hn']
  intro q
  rw [mem_traversal' t.wf t.dir, mem_traversal' t.wf' t.twin.dir', t.reached]

theorem Moved.objectPaths (t : Moved s base s' base') {log : Bool} :
    (∃ l l', Store.objectPaths E log s base = .ok l ∧ Store.objectPaths { E with cwd := cwd } log s' base' = .ok l' ∧ SameEntries l l') ∨
      (Store.objectPaths E log s base = .error .attributeError ∧ Store.objectPaths { E with cwd := cwd } log s' base' = .error .attributeError) := by
  by_cases hr : log = true ∨ ∀ w, look s (base ++ [c!"extensions", w]) = some .dir → w ∈ registeredExtensions
  · have hr' : log = true ∨ ∀ w, look s' (base' ++ [c!"extensions", w]) = some .dir → w ∈ registeredExtensions :=
      hr.imp_right fun h w hw => h w (by rw [t.same]; exact hw)
    refine .inl ⟨_, _, objectPaths_eq t.wf t.dir hr, objectPaths_eq t.wf' t.twin.dir' hr', ?_, ?_, ?_⟩
    · refine List.Perm.map _ ?_
      have : (fun q => decide (classify (visitOf s base q) = .object)) = (fun q => decide (classify (visitOf s' base' q) = .object)) := by
        funext q
        exact decide_eq_decide.mpr (by rw [classify_object t.wf, classify_object t.wf', t.loose])
      rw [this]
      exact t.traversal.filter _
    · refine List.Perm.map _ ?_
      have : (fun q => decide (classify (visitOf s base q) = .error)) = (fun q => decide (classify (visitOf s' base' q) = .error)) := by
        funext q
        exact decide_eq_decide.mpr (by rw [classify_error t.wf, classify_error t.wf', t.loose, t.fileBearing, t.emptyDir])
      rw [this]
      exact t.traversal.filter _
    · dsimp only
      rw [t.same]
      have : (extensionFiles s base).Perm (extensionFiles s' base') := by
        unfold extensionFiles
        rw [List.perm_ext_iff_of_nodup (fileNames_nodup t.wf _) (fileNames_nodup t.wf' _)]
        intro w
        rw [mem_fileNames t.wf, mem_fileNames t.wf']
        simp only [List.append_assoc, t.looks]
      rw [this.length_eq]
  · have hlog : log = false := by
      cases log with
      | false => rfl
      | true => exact absurd (.inl rfl) hr
    subst hlog
    have hex : ∃ w, look s (base ++ [c!"extensions", w]) = some .dir ∧ w ∉ registeredExtensions := by
      by_contra hn
      exact hr (.inr fun w hw => by
        by_contra hm
        exact hn ⟨w, hw, hm⟩)
    refine .inr ⟨objectPaths_raises t.wf t.dir hex, objectPaths_raises t.wf' t.twin.dir' ?_⟩
    obtain ⟨w, h1, h2⟩ := hex
    exact ⟨w, by rw [← t.same]; exact h1, h2⟩

theorem objectPaths_dirs (hw : s.WF) (hd : look s base = some .dir) {log : Bool} {l : Listing} (h : Store.objectPaths E log s base = .ok l) :
    ∀ p ∈ l.paths, ∃ ws, p = joinWith '/' ws ∧ look s (base ++ ws) = some .dir := by
  have hr : log = true ∨ ∀ w, look s (base ++ [c!"extensions", w]) = some .dir → w ∈ registeredExtensions := by
    by_contra hn
    rw [not_or] at hn
    have hlog : log = false := by
      cases log with
      | false => rfl
      | true => exact absurd rfl hn.1
    subst hlog
    rw [objectPaths_raises hw hd (by simpa using hn.2)] at h
    cases h
  rw [objectPaths_eq hw hd hr] at h
  cases h
  intro p hp
  obtain ⟨q, hq, rfl⟩ := List.mem_map.mp hp
  exact ⟨q, rfl, ((mem_traversal' hw hd).mp (List.mem_filter.mp hq).1).dir⟩

/-! ## Objects -/

/-- The verdict on the object at a path. -/
def verdictAt (E : Env) (cfg : Validator.Config) (s : FS) (base : Path) (p : Str) : Option Bool :=
  match Validator.validateAt E cfg 0 s (FS.resolve base p) with
  | .ok (ok, _) => some ok
  | .error _ => none

theorem goodObjects_counts {cfg : Validator.Config} : ∀ ps : List Str,
    ((∀ p ∈ ps, verdictAt E cfg s base p ≠ none) ∧ goodObjects E cfg s base ps = .ok (ps.countP fun p => verdictAt E cfg s base p = some true)) ∨
      (∃ p ∈ ps, verdictAt E cfg s base p = none) ∧ ∃ e, goodObjects E cfg s base ps = .error e
  | [] => .inl ⟨by simp, rfl⟩
  | p :: ps => by
    unfold goodObjects
    cases h : Validator.validateAt E cfg 0 s (FS.resolve base p) with
    | error e =>
      refine .inr ⟨⟨p, by simp, ?_⟩, e, rfl⟩
      unfold verdictAt
      rw [h]
    | ok x =>
      obtain ⟨ok, es⟩ := x
      have hv : verdictAt E cfg s base p = some ok := by
        unfold verdictAt
        rw [h]
      dsimp only
      rcases goodObjects_counts (cfg := cfg) ps with ⟨h1, h2⟩ | ⟨⟨q, hq, h1⟩, e, h2⟩
      · refine .inl ⟨fun q hq => ?_, ?_⟩
        · rcases List.mem_cons.mp hq with rfl | hq
          · rw [hv]; simp
          · exact h1 q hq
        · rw [h2]
          cases ok <;> simp [List.countP_cons, hv]
      · rw [h2]
        exact .inr ⟨⟨q, by simp [hq], h1⟩, e, rfl⟩

theorem Moved.goodObjects (hE : E.lib.Lawful) {cfg : Validator.Config} (t : Moved s base s' base')
    {ps ps' : List Str} (hps : ps.Perm ps') (hdir : ∀ p ∈ ps, ∃ ws, p = joinWith '/' ws ∧ look s (base ++ ws) = some .dir)
    (hplain : cfg.lax = true → ∀ ws, PlainAlgorithms E.lib s (base ++ ws)) :
    (∃ n, Store.goodObjects E cfg s base ps = .ok n ∧ Store.goodObjects { E with cwd := cwd } cfg s' base' ps' = .ok n) ∨
      (∃ e e', Store.goodObjects E cfg s base ps = .error e ∧ Store.goodObjects { E with cwd := cwd } cfg s' base' ps' = .error e') := by
  have hv : ∀ p ∈ ps, verdictAt E cfg s base p = verdictAt { E with cwd := cwd } cfg s' base' p := by
    intro p hp
    obtain ⟨ws, rfl, hl⟩ := hdir p hp
    have hs : ∀ w ∈ ws, SafeName w := fun w hw => look_names t.wf hl w (by simp [hw])
    have hr := (t.sub hl).twin.report (cwd := cwd) (errors := 0) (cfg := cfg) hE (fun h => hplain h ws)
    unfold verdictAt
    rw [resolve_join base hs, resolve_join base' hs]
    generalize Validator.validateAt E cfg 0 s (base ++ ws) = x at hr
    generalize Validator.validateAt { E with cwd := cwd } cfg 0 s' (base' ++ ws) = y at hr
    cases hr <;> rfl
  have hcount : (ps.countP fun p => verdictAt E cfg s base p = some true) = (ps'.countP fun p => verdictAt { E with cwd := cwd } cfg s' base' p = some true) := by
    rw [List.countP_congr fun p hp => by rw [hv p hp]]
    exact hps.countP_eq _
  rcases goodObjects_counts (E := E) (cfg := cfg) (s := s) (base := base) ps with ⟨h1, h2⟩ | ⟨⟨p, hp, h1⟩, e, h2⟩
  · rcases goodObjects_counts (E := { E with cwd := cwd }) (cfg := cfg) (s := s') (base := base') ps' with ⟨h1', h2'⟩ | ⟨⟨p, hp, h1'⟩, e, h2'⟩
    · exact .inl ⟨_, h2, by rw [h2', hcount]⟩
    · have hp := hps.mem_iff.mpr hp
      rw [← hv p hp] at h1'
      exact absurd h1' (h1 p hp)
  · rcases goodObjects_counts (E := { E with cwd := cwd }) (cfg := cfg) (s := s') (base := base') ps' with ⟨h1', h2'⟩ | ⟨_, e', h2'⟩
    · rw [hv p hp] at h1
      exact absurd h1 (h1' p (hps.mem_iff.mp hp))
    · exact .inr ⟨e, e', h2, h2'⟩

/-! ## Identifiers -/

/-- The identifier of the object at a path. -/
def identifierAt (E : Env) (s : FS) (base : Path) (p : Str) : Py (Option Str) := idFromInventory E (FS.resolve base p) (some c!"UNKNOWN-ID") s

theorem identifiers_are : ∀ ps : List Str,
    (∃ l, identifiers E s base ps = .ok l ∧ l.map (fun e => (e.1, (Except.ok e.2 : Py (Option Str)))) = ps.map (fun p => (p, identifierAt E s base p))) ∨
      (∃ p ∈ ps, ∃ e, identifierAt E s base p = .error e) ∧ ∃ e, identifiers E s base ps = .error e
  | [] => .inl ⟨[], rfl, rfl⟩
  | p :: ps => by
    unfold identifiers
    cases h : idFromInventory E (FS.resolve base p) (some c!"UNKNOWN-ID") s with
    | error e => exact .inr ⟨⟨p, by simp, e, h⟩, e, rfl⟩
    | ok i =>
      dsimp only
      rcases identifiers_are ps with ⟨l, h1, h2⟩ | ⟨⟨q, hq, e, h1⟩, e', h2⟩
      · refine .inl ⟨(p, i) :: l, by rw [h1], ?_⟩
        rw [List.map_cons, List.map_cons, h2]
        congr 2
        exact h.symm
      · refine .inr ⟨⟨q, by simp [hq], e, h1⟩, e', by rw [h2]⟩

theorem Moved.identifiers (t : Moved s base s' base') {ps ps' : List Str} (hps : ps.Perm ps')
    (hdir : ∀ p ∈ ps, ∃ ws, p = joinWith '/' ws ∧ look s (base ++ ws) = some .dir) :
    (∃ l l', Store.identifiers E s base ps = .ok l ∧ Store.identifiers { E with cwd := cwd } s' base' ps' = .ok l' ∧ l.Perm l') ∨
      (∃ e e', Store.identifiers E s base ps = .error e ∧ Store.identifiers { E with cwd := cwd } s' base' ps' = .error e') := by
  have hv : ∀ p ∈ ps, identifierAt E s base p = identifierAt { E with cwd := cwd } s' base' p := by
    intro p hp
    obtain ⟨ws, rfl, hl⟩ := hdir p hp
    have hs : ∀ w ∈ ws, SafeName w := fun w hw => look_names t.wf hl w (by simp [hw])
    unfold identifierAt idFromInventory parseInventory readText
    rw [resolve_join base hs, resolve_join base' hs,
      show resolve (base ++ ws) inventoryFilename = base ++ ws ++ [c!"inventory.json"] from resolve_name _ (by decide),
      show resolve (base' ++ ws) inventoryFilename = base' ++ ws ++ [c!"inventory.json"] from resolve_name _ (by decide),
      (t.sub hl).read]
  rcases identifiers_are (E := E) (s := s) (base := base) ps with ⟨l, h1, h2⟩ | ⟨⟨p, hp, e, h1⟩, e', h2⟩
  · rcases identifiers_are (E := { E with cwd := cwd }) (s := s') (base := base') ps' with ⟨l', h1', h2'⟩ | ⟨⟨p, hp, e, h1'⟩, e', h2'⟩
    · refine .inl ⟨l, l', h1, h1', ?_⟩
      have hinj : Function.Injective (fun e : Str × Option Str => (e.1, (Except.ok e.2 : Py (Option Str)))) := by
        rintro ⟨a, b⟩ ⟨c, d⟩ h
        cases h
        rfl
      rw [← List.map_perm_map_iff hinj, h2, h2']
      rw [List.map_congr_left fun p hp => by rw [hv p hp]]
      exact hps.map _
    · have hp := hps.mem_iff.mpr hp
      rw [← hv p hp] at h1'
      have : (p, identifierAt E s base p) ∈ l.map (fun e => (e.1, (Except.ok e.2 : Py (Option Str)))) := by
        rw [h2]
        exact List.mem_map_of_mem hp
      obtain ⟨x, _, hx⟩ := List.mem_map.mp this
      rw [h1'] at hx
      cases hx
  · rcases identifiers_are (E := { E with cwd := cwd }) (s := s') (base := base') ps' with ⟨l', h1', h2'⟩ | ⟨_, e'', h2'⟩
    · have : (p, identifierAt { E with cwd := cwd } s' base' p) ∈ l'.map (fun e => (e.1, (Except.ok e.2 : Py (Option Str)))) := by
        rw [h2']
        exact List.mem_map_of_mem (hps.mem_iff.mp hp)
      obtain ⟨x, _, hx⟩ := List.mem_map.mp this
      rw [← hv p hp, h1] at hx
      cases hx
    · exact .inr ⟨_, _, h2, h2'⟩

end Store
end Ocfl
