import Verif.Props.ObjectValidation
import Verif.Proofs.ValidatorVerdict

/-!
# C70: validation gives a verdict

The statement fails for many directory trees, see the theorems below `C70_partial`.
-/

namespace Ocfl

open Spec FS Validator

/-- **C70** (partial): validation of a directory gives a verdict, whatever rules for objects it breaks, if the
declarations and inventories are text files, the sidecars are not directories, there are no more than
ten declarations, and the JSON documents have the values that are looked up in them with the types that are
expected. Lax digests are not considered. -/
theorem C70_partial {E : Env} (hE : Libraries E) {cfg : Config} (hlax : cfg.lax = false) {s : FS} (hw : s.WF) {path : Str}
    (ht : Tidy E s (absComps E.cwd path)) (errors : Nat) : ∃ ok es, validateObject E cfg errors s path = .ok (ok, es) := by
  unfold validateObject fswOpen
  dsimp only
  cases hd : isdir s (absComps E.cwd path) with
  | false => exact ⟨_, _, rfl⟩
  | true =>
    rw [if_pos rfl]
    exact verdict_at hE hlax hw (isdir_iff.mp hd) ht errors

/-- There are no more declarations than entries. -/
theorem declarations_le {s : FS} {base : Path} {ts : List Str} (hn : ts.Nodup)
    (h : ∀ t ∈ ts, look s (base ++ [c!"0=" ++ t]) ≠ none) : ts.length ≤ s.length := by
  have h1 : (ts.map (fun t => base ++ [c!"0=" ++ t])).Nodup := hn.map (by
    intro a b e
    have := List.append_cancel_left e
    simpa using this)
  have h2 : ts.map (fun t => base ++ [c!"0=" ++ t]) ⊆ s.map Prod.fst := by
    intro p hp
    obtain ⟨t, ht, rfl⟩ := List.mem_map.mp hp
    have := h t ht
    rw [look_ne (by simp)] at this
    exact Dict.mem_keys_of_get? (Option.ne_none_iff_exists'.mp this).choose_spec
  have := (List.subperm_of_subset h1 h2).length_le
  simpa using this

/-! ## A tidy object that breaks rules -/

/-- A working directory with an object of the given entries. -/
def objectOf (entries : List (Path × Node)) : FS :=
  ([c!"w"], .dir) :: ([c!"w", c!"obj"], .dir) :: entries.map (fun e => ([c!"w", c!"obj"] ++ e.1, e.2))

def declared : Path × Node := ([c!"0=ocfl_object_1.1"], .file (utf8 c!"ocfl_object_1.1\n"))

def textOf (j : Json) : Node := .file (utf8 (pyJson.dumps j))

/-- An object with a missing sidecar, a stray file, a wrong content directory and versions that are missing. -/
def brokenFS : FS := objectOf [declared, ([c!"inventory.json"], textOf hiddenInv), ([c!"v1"], .dir),
  ([c!"v1", c!"inventory.json"], textOf hiddenInv), ([c!"v3"], .dir), ([c!"v3", c!"contents"], .dir), ([c!"stray"], .file [1])]

theorem brokenFS_wf : brokenFS.WF where
  nk := by decide +kernel
  noRoot := by decide +kernel
  parent := by decide +kernel
  names := by decide +kernel

theorem hiddenInv_stored {s : FS} {p : Path} (h : look s p = some (textOf hiddenInv)) : StoredJson demoEnv.lib s p hiddenInv := by
  refine ⟨utf8 (pyJson.dumps hiddenInv), pyJson.dumps hiddenInv, h, utf8Decode_utf8 _, ?_⟩
  rw [univNewlines_of_noCR (pyJson_lawful.noCR _ hiddenInv_writable)]
  exact pyJson_lawful.loads _ hiddenInv_writable

theorem hiddenInv_shaped : WellShaped hiddenInv where
  manifest := ⟨[], _, rfl, by simp [ofDigestMap]⟩
  state := by
    rintro vs v b ⟨d, hd, hm⟩ ⟨d', rfl, hm'⟩
    cases hd
    simp at hm
    rw [hm] at hm'
    simp at hm'
    exact ⟨[], _, hm'.2, by simp [ofDigestMap]⟩
  fixity := by
    rintro fx ⟨d, hd, hm⟩
    cases hd
    simp at hm

theorem brokenFS_inventories {v : Str} (h : look brokenFS ([c!"w", c!"obj"] ++ [v, c!"inventory.json"]) ≠ none) : v = c!"v1" := by
  rw [look_ne (by simp)] at h
  have := Dict.mem_keys_of_get? (Option.ne_none_iff_exists'.mp h).choose_spec
  revert this
  have h : Dict.keys brokenFS = [[c!"w"], [c!"w", c!"obj"], [c!"w", c!"obj", c!"0=ocfl_object_1.1"], [c!"w", c!"obj", c!"inventory.json"],
    [c!"w", c!"obj", c!"v1"], [c!"w", c!"obj", c!"v1", c!"inventory.json"], [c!"w", c!"obj", c!"v3"], [c!"w", c!"obj", c!"v3", c!"contents"],
    [c!"w", c!"obj", c!"stray"]] := by decide +kernel
  rw [h]
  simp

theorem brokenFS_tidy : Tidy demoEnv brokenFS [c!"w", c!"obj"] := by
  have hroot : StoredJson demoEnv.lib brokenFS [c!"w", c!"obj", c!"inventory.json"] hiddenInv := hiddenInv_stored (by decide +kernel)
  have hv1 : StoredJson demoEnv.lib brokenFS [c!"w", c!"obj", c!"v1", c!"inventory.json"] hiddenInv := hiddenInv_stored (by decide +kernel)
  have htext : ∀ p, StoredJson demoEnv.lib brokenFS p hiddenInv → TextFile brokenFS p := by
    rintro p ⟨b, t, h1, h2, _⟩
    exact ⟨b, t, h1, h2⟩
  have hr : ∀ j, StoredJson demoEnv.lib brokenFS [c!"w", c!"obj", c!"inventory.json"] j → j = hiddenInv :=
    fun j hj => storedJson_unique hj hroot
  refine ⟨fun ts hn h => ?_, ?_, fun _ => htext _ hroot, ?_, ?_, ?_, ?_⟩
  · have := declarations_le hn h
    have h2 : brokenFS.length = 9 := rfl
    omega
  · intro v hv hl
    rcases List.mem_cons.mp hv with rfl | hv
    · exact absurd (by decide +kernel) hl
    · rw [List.mem_singleton] at hv
      subst hv
      exact ⟨utf8 c!"ocfl_object_1.1\n", c!"ocfl_object_1.1\n", by decide +kernel, utf8Decode_utf8 _⟩
  · intro j hj
    rw [hr j hj]
    exact shape_of_wellShaped (storedJson_wf pyJson_lawful hroot) hiddenInv_shaped
  · rintro dir alg hdir hl
    have hk : Dict.keys (brokenFS.filter (fun e => decide (e.2 = .dir))) = [[c!"w"], [c!"w", c!"obj"], [c!"w", c!"obj", c!"v1"], [c!"w", c!"obj", c!"v3"],
      [c!"w", c!"obj", c!"v3", c!"contents"]] := by decide +kernel
    have hm : [c!"w", c!"obj"] ++ dir ++ [c!"inventory.json." ++ alg] ∈ Dict.keys (brokenFS.filter (fun e => decide (e.2 = .dir))) := by
      rw [look_ne (by simp)] at hl
      exact List.mem_map.mpr ⟨_, List.mem_filter.mpr ⟨Dict.mem_of_get? hl, by simp⟩, rfl⟩
    rw [hk] at hm
    rcases hdir with rfl | ⟨v, rfl⟩ <;> simp at hm
  · intro v hv
    have := brokenFS_inventories hv
    subst this
    exact htext _ hv1
  · intro v j hj
    have hv : look brokenFS ([c!"w", c!"obj"] ++ [v, c!"inventory.json"]) ≠ none := by
      obtain ⟨b, _, hb, _⟩ := hj
      rw [hb]
      simp
    have := brokenFS_inventories hv
    subst this
    rw [storedJson_unique hj hv1]
    refine ⟨hiddenInv_shaped, fun j' hj' => ?_⟩
    rw [hr j' hj']
    exact hiddenInv_shaped

/-- The hypotheses can be met: the verdict on a tidy object that breaks rules is negative. -/
example : Tidy demoEnv brokenFS (absComps demoEnv.cwd c!"obj") ∧
    ∃ es, validateObject demoEnv {} 0 brokenFS c!"obj" = .ok (false, es) := by
  refine ⟨brokenFS_tidy, ?_⟩
  obtain ⟨ok, es, h⟩ := C70_partial demoLibraries (cfg := {}) rfl brokenFS_wf (path := c!"obj") brokenFS_tidy 0
  have : (match validateObject demoEnv {} 0 brokenFS c!"obj" with | .ok (ok, _) => !ok | _ => false) = true := by decide +kernel
  rw [h] at this
  cases ok with
  | true => cases this
  | false => exact ⟨es, h⟩

/-! ## Where the code does not do it -/

/-- Does validation of the object raise? -/
def raisesAt (s : FS) : Bool :=
  match validateObject demoEnv {} 0 s c!"obj" with
  | .error _ => true
  | .ok _ => false

theorem raisesAt_spec {s : FS} (h : raisesAt s = true) : ∃ e, validateObject demoEnv {} 0 s c!"obj" = .error e := by
  unfold raisesAt at h
  split at h
  · exact ⟨_, by assumption⟩
  · cases h

/-- **C70** fails for a directory with eleven declarations, of whatever things. -/
theorem C70_violated_declarations : ∃ e,
    validateObject demoEnv {} 0 (objectOf (c!"abcdefghijk".map (fun c => ([c!"0=" ++ [c]], .file [])))) c!"obj" = .error e :=
  raisesAt_spec (by decide +kernel)

/-- **C70** fails if the declaration is a directory. -/
theorem C70_violated_declaration : ∃ e, validateObject demoEnv {} 0 (objectOf [([c!"0=ocfl_object_1.1"], .dir)]) c!"obj" = .error e :=
  raisesAt_spec (by decide +kernel)

/-- **C70** fails if the inventory is a directory. -/
theorem C70_violated_inventory : ∃ e, validateObject demoEnv {} 0 (objectOf [declared, ([c!"inventory.json"], .dir)]) c!"obj" = .error e :=
  raisesAt_spec (by decide +kernel)

/-- **C70** fails if the inventory is not UTF-8 text. -/
theorem C70_violated_text : ∃ e,
    validateObject demoEnv {} 0 (objectOf [declared, ([c!"inventory.json"], .file [0xff])]) c!"obj" = .error e :=
  raisesAt_spec (by decide +kernel)

/-- **C70** fails if a sidecar is a directory. -/
theorem C70_violated_sidecar : ∃ e, validateObject demoEnv {} 0
    (objectOf [declared, ([c!"inventory.json"], textOf hiddenInv), ([c!"inventory.json.sha512"], .dir)]) c!"obj" = .error e :=
  raisesAt_spec (by decide +kernel)

/-- An inventory with one content file. -/
def smallInv (head : Str) (versions : List (Str × Json)) (more : List (Str × Json)) : Json :=
  .obj ([(c!"digestAlgorithm", .str c!"sha512"), (c!"head", .str head), (c!"id", .str c!"info:x"),
    (c!"type", .str c!"https://ocfl.io/1.1/spec/#inventory"), (c!"versions", .obj versions)] ++ more)

def smallDigest : Str := demoRaw c!"sha512" [1]

def smallManifest : Str × Json := (c!"manifest", ofDigestMap [(smallDigest, [c!"v1/content/f"])])

def smallVersion (v : Str) : Str × Json :=
  (v, .obj [(c!"created", .str c!"2020-01-01T00:00:00Z"), (c!"state", ofDigestMap [(smallDigest, [c!"f"])])])

def crcFixity : Str × Json := (c!"fixity", .obj [(c!"crc32", ofDigestMap [(c!"00", [c!"v1/content/f"])])])

def sidecarOf (j : Json) : Node := .file (utf8 (demoRaw c!"sha512" (utf8 (pyJson.dumps j)) ++ c!" inventory.json\n"))

/-- An object with two versions and the inventory `j` in the first. -/
def twoVersions (j : Json) : FS :=
  let root := smallInv c!"v2" [smallVersion c!"v1", smallVersion c!"v2"] [smallManifest]
  objectOf [declared, ([c!"inventory.json"], textOf root), ([c!"inventory.json.sha512"], sidecarOf root), ([c!"v1"], .dir),
    ([c!"v1", c!"inventory.json"], textOf j), ([c!"v1", c!"inventory.json.sha512"], sidecarOf j), ([c!"v1", c!"content"], .dir),
    ([c!"v1", c!"content", c!"f"], .file [1]), ([c!"v2"], .dir)]

/-- The object is valid with the right inventory there. -/
example : ∃ es, validateObject demoEnv {} 0 (twoVersions (smallInv c!"v1" [smallVersion c!"v1"] [smallManifest])) c!"obj" = .ok (true, es) :=
  accepted_object (by decide +kernel)

/-- **C70** fails if the inventory has no manifest but a fixity block. -/
theorem C70_violated_manifest : ∃ e, validateObject demoEnv {} 0
    (objectOf [declared, ([c!"inventory.json"], textOf (smallInv c!"v1" [smallVersion c!"v1"] [crcFixity]))]) c!"obj" = .error e :=
  raisesAt_spec (by decide +kernel)

/-- **C70** fails if the inventory of an earlier version has a fixity block with an algorithm that the library does not
know. -/
theorem C70_violated_fixity : ∃ e, validateObject demoEnv {} 0
    (twoVersions (smallInv c!"v1" [smallVersion c!"v1"] [smallManifest, crcFixity])) c!"obj" = .error e :=
  raisesAt_spec (by decide +kernel)

/-- **C70** fails if the inventory of an earlier version has no state in a version block. -/
theorem C70_violated_state : ∃ e, validateObject demoEnv {} 0
    (twoVersions (smallInv c!"v1" [(c!"v1", .obj [(c!"created", .str c!"2020-01-01T00:00:00Z")])] [smallManifest])) c!"obj" = .error e :=
  raisesAt_spec (by decide +kernel)

end Ocfl
