import Verif.Props.History
import Verif.Model.Validator

/-!
# C21, C22, C28: more examples, and where the code does not do it
-/

namespace Ocfl

open Spec FS Prog Ocfl.Inv

/-! ## A chain of updates -/

/-- Are the keys of the manifest without capital letters, and is there no `contentDirectory` that is empty? -/
def plainStart (alg : Str) : Json → Bool
  | .obj d => d.all (fun e =>
      (if e.1 = c!"manifest" then (match e.2 with
        | .obj m => m.all (fun x => x.1.all (fun c => !(decide ('A' ≤ c) && decide (c ≤ 'Z'))))
        | _ => true) else true) &&
      (if e.1 = c!"versions" then (match e.2 with
        | .obj vs => decide (vs.length < 99999)
        | _ => true) else true) &&
      (if e.1 = c!"contentDirectory" then (match e.2 with
        | .str [] => false
        | _ => true) else true)) &&
      (match Dict.get? d c!"digestAlgorithm" with
        | some (.str a) => decide (a = alg)
        | _ => false)
  | _ => false

theorem plainStart_spec {alg : Str} {j : Json} (h : plainStart alg j = true) : LowerDigests j ∧ RoomForVersion j ∧
    ¬ Member j c!"contentDirectory" (.str []) ∧ Member j c!"digestAlgorithm" (.str alg) := by
  cases j with
  | obj d =>
    simp only [plainStart, Bool.and_eq_true] at h
    obtain ⟨h, ha⟩ := h
    have h := List.all_eq_true.mp h
    simp only [Bool.and_eq_true] at h
    refine ⟨?_, ?_, ?_, d, rfl, ?_⟩
    · rintro m ⟨_, he, hm⟩ e hem c hc ⟨h1, h2⟩
      cases he
      have := (h _ hm).1.1
      simp only [if_true, ofDigestMap] at this
      have := List.all_eq_true.mp this _ (List.mem_map_of_mem hem)
      have := List.all_eq_true.mp this c hc
      simp [h1, h2] at this
    · rintro vs ⟨_, he, hm⟩
      cases he
      have := (h _ hm).1.2
      simpa using this
    · rintro ⟨_, he, hm⟩
      cases he
      have := (h _ hm).2
      simp at this
    · split at ha
      · rename_i a hg
        rw [of_decide_eq_true ha] at hg
        exact Dict.mem_of_get? hg
      · cases ha
  | _ => cases h

/-- Is there an inventory, and is it a plain one? -/
def storedPlain (alg : Str) (s : FS) : Bool :=
  match storedJson? demoEnv.lib s [c!"w", c!"obj", c!"inventory.json"] with
  | some j => plainStart alg j
  | none => false

theorem storedPlain_spec {alg : Str} {s : FS} (h : storedPlain alg s = true) :
    ∃ j, StoredJson demoEnv.lib s [c!"w", c!"obj", c!"inventory.json"] j ∧ plainStart alg j = true := by
  unfold storedPlain at h
  split at h
  · rename_i j hj
    exact ⟨j, storedJson?_spec.mp hj, h⟩
  · cases h

/-- Did the update write something? -/
def updated (r : FS × Py (Option Inv)) : Bool :=
  match r.2 with
  | .ok (some _) => true
  | _ => false

theorem updated_spec {r : FS × Py (Option Inv)} (h : updated r = true) : ∃ inv, r = (r.1, .ok (some inv)) := by
  obtain ⟨s, r⟩ := r
  unfold updated at h
  split at h
  · rename_i inv he
    exact ⟨inv, by rw [← he]⟩
  · cases h

/-- Two inventories in a row: `C28_partial` applies. -/
theorem demo_updates : ∃ j j', Updates demoEnv [c!"w", c!"obj"] c!"sha256" [j, j'] (run demoUpdate demoChanged).1 := by
  obtain ⟨j, h1, h2⟩ := storedPlain_spec (alg := c!"sha256") (s := demoChanged) (by decide +kernel)
  obtain ⟨h3, h4, h5, h6⟩ := plainStart_spec h2
  obtain ⟨j', h7, _⟩ := storedPlain_spec (alg := c!"sha256") (s := (run demoUpdate demoChanged).1) (by decide +kernel)
  obtain ⟨inv, h8⟩ := updated_spec (r := run demoUpdate demoChanged) (by decide +kernel)
  exact ⟨j, j', .update (js := []) (.start demoChanged_wf h1 h3 h6 h5) rfl demoMeta_good (by decide +kernel) h4 (fun h => by cases h) h8 h7⟩

example : ∃ j j', Accepts demoEnv.isWord false c!"1.1" none j' ∧ Continues j' j := by
  obtain ⟨j, j', h⟩ := demo_updates
  obtain ⟨h1, h2⟩ := C28_partial demoEnv_lawful demoRaw_hash (Or.inr rfl) h c!"1.1"
  exact ⟨j, j', h1 j' (by simp), by simpa using h2⟩

/-- And for one step. -/
example : ∃ j j', StoredJson demoEnv.lib demoChanged [c!"w", c!"obj", c!"inventory.json"] j ∧
    StoredJson demoEnv.lib (run demoUpdate demoChanged).1 [c!"w", c!"obj", c!"inventory.json"] j' ∧
    Accepts demoEnv.isWord false c!"1.1" none j' ∧ Continues j' j := by
  obtain ⟨j, h1, h2⟩ := storedPlain_spec (alg := c!"sha256") (s := demoChanged) (by decide +kernel)
  obtain ⟨h3, h4, h5, h6⟩ := plainStart_spec h2
  obtain ⟨inv, h8⟩ := updated_spec (r := run demoUpdate demoChanged) (by decide +kernel)
  obtain ⟨j', k1, k2, k3⟩ := C28_step demoEnv_lawful demoRaw_hash (o := demoObj) (Or.inr rfl) demoMeta_good demoChanged_wf
    (objdir := c!"obj") h1 h5 h4 (Or.inl ⟨h6, h3⟩) (fun h => by cases h) h8 c!"1.1"
  exact ⟨j, j', h1, k1, k2, k3⟩

/-! ## Where the code does not do it -/

/-- Is the object made, and can its first version not be extracted? -/
def unreadable (o : Obj) (metadata : Option VBlock) (s : FS) : Bool :=
  match run (create demoEnv o c!"src" metadata (some c!"obj")) s with
  | (s', .ok _) => match run (extract demoEnv c!"obj" c!"v1" c!"out") s' with
    | (s'', .error _) => decide (s'' = s')
    | _ => false
  | _ => false

theorem unreadable_spec {o : Obj} {metadata : Option VBlock} {s : FS} (h : unreadable o metadata s = true) :
    ∃ s' inv e, run (create demoEnv o c!"src" metadata (some c!"obj")) s = (s', .ok inv) ∧
      run (extract demoEnv c!"obj" c!"v1" c!"out") s' = (s', .error e) := by
  unfold unreadable at h
  split at h
  · rename_i s' inv hrun
    split at h
    · rename_i s'' e he
      exact ⟨s', inv, e, hrun, by rw [he, of_decide_eq_true h]⟩
    · cases h
  · cases h

/-- **C21** fails for digest algorithms other than SHA-512 and SHA-256: the object is made, and cannot be
extracted. -/
theorem C21_violated : ∃ s' inv e,
    run (create demoEnv { demoObj with digestAlgorithm := c!"md5" } c!"src" (some demoMeta) (some c!"obj")) demoFS = (s', .ok inv) ∧
      run (extract demoEnv c!"obj" c!"v1" c!"out") s' = (s', .error e) := unreadable_spec (by decide +kernel)

/-- **C21** fails without metadata: there is no time stamp in the inventory then. -/
theorem C21_violated_metadata : ∃ s' inv e, run (create demoEnv demoObj c!"src" none (some c!"obj")) demoFS = (s', .ok inv) ∧
    run (extract demoEnv c!"obj" c!"v1" c!"out") s' = (s', .error e) := unreadable_spec (by decide +kernel)

/-- **C21** fails for a source directory without files: there is no state in the inventory then. -/
theorem C21_violated_empty : ∃ s' inv e,
    run (create demoEnv demoObj c!"src" (some demoMeta) (some c!"obj")) [([c!"w"], .dir), ([c!"w", c!"src"], .dir)] = (s', .ok inv) ∧
    run (extract demoEnv c!"obj" c!"v1" c!"out") s' = (s', .error e) := unreadable_spec (by decide +kernel)

/-- **C21** fails for a file name that starts with a newline, if paths are not normalised. -/
theorem C21_violated_newline : ∃ s' inv e,
    run (create demoEnv { demoObj with norm := none } c!"src" (some demoMeta) (some c!"obj")) newlineFS = (s', .ok inv) ∧
    run (extract demoEnv c!"obj" c!"v1" c!"out") s' = (s', .error e) := unreadable_spec (by decide +kernel)

/-- Is the object updated, and can a version that could be extracted before not be extracted then? -/
def spoilt (o : Obj) (s : FS) : Bool :=
  succeeded (run (extract demoEnv c!"obj" c!"v1" c!"out") s) &&
  match run (addVersionWithContent demoEnv o c!"obj" (some c!"src") (some demoMeta) false) s with
  | (s', .ok (some _)) => match run (extract demoEnv c!"obj" c!"v1" c!"out") s' with
    | (_, .error _) => true
    | _ => false
  | _ => false

theorem spoilt_spec {o : Obj} {s : FS} (h : spoilt o s = true) : ∃ s0 md s' inv s'' e,
    run (extract demoEnv c!"obj" c!"v1" c!"out") s = (s0, .ok md) ∧
    run (addVersionWithContent demoEnv o c!"obj" (some c!"src") (some demoMeta) false) s = (s', .ok (some inv)) ∧
    run (extract demoEnv c!"obj" c!"v1" c!"out") s' = (s'', .error e) := by
  unfold spoilt at h
  rw [Bool.and_eq_true] at h
  obtain ⟨md, h0⟩ := succeeded_ok h.1
  have h := h.2
  split at h
  · rename_i s' inv hrun
    split at h
    · rename_i s'' e he
      exact ⟨_, md, s', inv, s'', e, h0, hrun, he⟩
    · cases h
  · cases h

/-- **C22** fails for updates with another digest algorithm: after an update with MD5 no version of the
object can be extracted any more. -/
theorem C22_violated : ∃ s0 md s' inv s'' e,
    run (extract demoEnv c!"obj" c!"v1" c!"out") demoChanged = (s0, .ok md) ∧
    run (addVersionWithContent demoEnv { demoObj with digestAlgorithm := c!"md5" } c!"obj" (some c!"src") (some demoMeta) false) demoChanged =
      (s', .ok (some inv)) ∧
    run (extract demoEnv c!"obj" c!"v1" c!"out") s' = (s'', .error e) := spoilt_spec (by decide +kernel)

/-- The inventory with the digests in capital letters. -/
def capitals (inv : Inv) : Inv :=
  { inv with
    manifest := inv.manifest.map (fun m => m.map (fun e => (e.1.map Char.toUpper, e.2)))
    versions := inv.versions.map (fun vs => vs.map (fun e =>
      (e.1, { e.2 with state := e.2.state.map (fun m => m.map (fun x => (x.1.map Char.toUpper, x.2))) }))) }

/-- The object of `demoChanged`, with the digests in its inventories in capital letters. -/
def demoCaps : FS :=
  match parseInventory demoEnv [c!"w", c!"obj"] demoChanged with
  | .ok inv =>
    (run (Prog.bind (writeInventoryAndSidecar demoEnv demoObj [c!"w", c!"obj"] (some (capitals inv)) [])
      (fun _ => writeInventoryAndSidecar demoEnv demoObj [c!"w", c!"obj"] (some (capitals inv)) c!"v1")) demoChanged).1
  | .error _ => demoChanged

/-- Is the object valid before the update, and not after it? Is the old inventory no prior version of
the new one? -/
def outgrown (s : FS) : Bool :=
  decide ((Validator.validateObject demoEnv {} 0 s c!"obj").toOption.map (·.1) = some true) &&
  match run demoUpdate s with
  | (s', .ok (some _)) =>
    decide ((Validator.validateObject demoEnv {} 0 s' c!"obj").toOption.map (·.1) = some false) &&
    match storedJson? demoEnv.lib s [c!"w", c!"obj", c!"inventory.json"], storedJson? demoEnv.lib s' [c!"w", c!"obj", c!"inventory.json"] with
    | some j, some j' => decide (priorVerdict j' j = some false)
    | _, _ => false
  | _ => false

theorem not_continues_of {j j' : Json} (hwf : j.WF) (hwf' : j'.WF) (h : priorVerdict j' j = some false) :
    Accepts isWordEx false c!"1.1" none j ∧ Accepts isWordEx false c!"1.1" none j' ∧ ¬ Continues j' j := by
  unfold priorVerdict at h
  split at h
  · rename_i r' es' r es h1 h2
    refine ⟨⟨r, es, h2⟩, ⟨r', es', h1⟩, ?_⟩
    intro hc
    obtain ⟨alg, cd, m, vs, states, style, n, hR⟩ := (C37 hwf).mp ⟨r, es, h2⟩
    obtain ⟨alg', cd', m', vs', states', style', n', hR'⟩ := (C37 hwf').mp ⟨r', es', h1⟩
    have hs : ∀ a : Json, AlgRule false a → ∃ x, a = .str x := by
      rintro a (rfl | rfl) <;> exact ⟨_, rfl⟩
    obtain ⟨a, rfl⟩ := hs _ hR.digestAlgorithm.2
    obtain ⟨a', rfl⟩ := hs _ hR'.digestAlgorithm.2
    obtain ⟨ws, hw⟩ := (C38 (same := fun a b => a.bind Json.str? = b.bind Json.str?) (by simp [Json.str?]) hwf hwf' h2 h1
      hR.digestAlgorithm.1 hR'.digestAlgorithm.1).2.mpr hc
    rw [hw] at h
    cases h
  · cases h

theorem outgrown_spec {s : FS} (h : outgrown s = true) : ∃ s' inv es es' j j',
    Validator.validateObject demoEnv {} 0 s c!"obj" = .ok (true, es) ∧ run demoUpdate s = (s', .ok (some inv)) ∧
    Validator.validateObject demoEnv {} 0 s' c!"obj" = .ok (false, es') ∧
    StoredJson demoEnv.lib s [c!"w", c!"obj", c!"inventory.json"] j ∧ StoredJson demoEnv.lib s' [c!"w", c!"obj", c!"inventory.json"] j' ∧
    Accepts isWordEx false c!"1.1" none j ∧ Accepts isWordEx false c!"1.1" none j' ∧ ¬ Continues j' j := by
  have hval : ∀ (s : FS) b, (Validator.validateObject demoEnv {} 0 s c!"obj").toOption.map (·.1) = some b →
      ∃ es, Validator.validateObject demoEnv {} 0 s c!"obj" = .ok (b, es) := by
    intro s b hb
    cases hv : Validator.validateObject demoEnv {} 0 s c!"obj" with
    | error e => rw [hv] at hb; cases hb
    | ok r =>
      obtain ⟨b', es⟩ := r
      rw [hv] at hb
      cases hb
      exact ⟨es, rfl⟩
  unfold outgrown at h
  rw [Bool.and_eq_true, decide_eq_true_eq] at h
  obtain ⟨es, h0⟩ := hval _ _ h.1
  have h := h.2
  split at h
  · rename_i s' inv hrun
    rw [Bool.and_eq_true, decide_eq_true_eq] at h
    obtain ⟨es', h1⟩ := hval _ _ h.1
    have h := h.2
    split at h
    · rename_i j j' hj hj'
      have k := storedJson?_spec.mp hj
      have k' := storedJson?_spec.mp hj'
      exact ⟨s', inv, es, es', j, j', h0, hrun, h1, k, k',
        not_continues_of (storedJson_wf demoEnv_lawful k) (storedJson_wf demoEnv_lawful k') (of_decide_eq_true h)⟩
    · cases h
  · cases h

theorem demoCaps_wf : demoCaps.WF where
  nk := by decide +kernel
  noRoot := by decide +kernel
  parent := by decide +kernel
  names := by decide +kernel

/-- **C28** fails for an object with digests in capital letters: the object is valid, but an update
writes the digests in small letters, so that the old inventory is not a prior version of the new one,
and the object is not valid any more. -/
theorem C28_violated : ∃ s : FS, s.WF ∧ ∃ s' inv es es' j j',
    Validator.validateObject demoEnv {} 0 s c!"obj" = .ok (true, es) ∧ run demoUpdate s = (s', .ok (some inv)) ∧
    Validator.validateObject demoEnv {} 0 s' c!"obj" = .ok (false, es') ∧
    StoredJson demoEnv.lib s [c!"w", c!"obj", c!"inventory.json"] j ∧ StoredJson demoEnv.lib s' [c!"w", c!"obj", c!"inventory.json"] j' ∧
    Accepts isWordEx false c!"1.1" none j ∧ Accepts isWordEx false c!"1.1" none j' ∧ ¬ Continues j' j :=
  ⟨demoCaps, demoCaps_wf, outgrown_spec (by decide +kernel)⟩

end Ocfl
