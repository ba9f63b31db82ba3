import Verif.Props.RollBackHistory
import Verif.Props.StoreHistory
import Verif.Props.Verdict

/-!
# C108: examples, and where the code does not do it
-/

namespace Ocfl

open Spec FS Prog Validator

/-- A version block with the logical state `m`. -/
def stateBlock (v : Str) (m : List (Str × List Str)) : Str × Json :=
  (v, .obj [(c!"created", .str c!"2020-01-01T00:00:00Z"), (c!"state", ofDigestMap m)])

/-- An inventory with the manifest `m` and versions with the logical states `sts`. -/
def stateInv (head : Str) (sts : List (Str × List (Str × List Str))) (m : List (Str × List Str)) : Json :=
  smallInv head (sts.map (fun e => stateBlock e.1 e.2)) [(c!"manifest", ofDigestMap m)]

theorem digestMap_writable {m : List (Str × List Str)} (h : (m.map Prod.fst).Nodup) : (ofDigestMap m).Writable := by
  unfold ofDigestMap
  refine .obj ?_ ?_
  · unfold Dict.NK
    rw [List.map_map]
    exact h
  · intro e he
    obtain ⟨x, _, rfl⟩ := List.mem_map.mp he
    refine .arr ?_
    intro y hy
    obtain ⟨p, _, rfl⟩ := List.mem_map.mp hy
    exact .str

theorem stateInv_writable {head : Str} {sts : List (Str × List (Str × List Str))} {m : List (Str × List Str)} (hm : (m.map Prod.fst).Nodup)
    (hn : (sts.map Prod.fst).Nodup) (hs : ∀ e ∈ sts, (e.2.map Prod.fst).Nodup) : (stateInv head sts m).Writable := by
  unfold stateInv smallInv
  refine .obj (by simp only [Dict.NK, List.map_cons, List.map_nil, List.cons_append, List.nil_append]; decide) ?_
  simp only [List.cons_append, List.nil_append, List.mem_cons, List.not_mem_nil, or_false, forall_eq_or_imp, forall_eq]
  refine ⟨.str, .str, .str, .str, .obj ?_ ?_, digestMap_writable hm⟩
  · unfold Dict.NK
    rw [List.map_map]
    exact hn
  · intro e he
    obtain ⟨x, hx, rfl⟩ := List.mem_map.mp he
    refine .obj (by simp only [Dict.NK, List.map_cons, List.map_nil]; decide) ?_
    simp only [List.mem_cons, List.not_mem_nil, or_false, forall_eq_or_imp, forall_eq]
    exact ⟨.str, digestMap_writable (hs x hx)⟩

theorem textOf_stored {s : FS} {p : Path} {j : Json} (hj : j.Writable) (h : look s p = some (textOf j)) : StoredJson demoEnv.lib s p j := by
  refine ⟨utf8 (pyJson.dumps j), pyJson.dumps j, h, utf8Decode_utf8 _, ?_⟩
  rw [univNewlines_of_noCR (pyJson_lawful.noCR _ hj)]
  exact pyJson_lawful.loads _ hj

/-- The first version of the objects below: one file. -/
def firstInv : Json := stateInv c!"v1" [(c!"v1", [(smallDigest, [c!"f"])])] [(smallDigest, [c!"v1/content/f"])]

/-- A second version has another file, with its content in `v`. -/
def secondInv (v : Str) : Json :=
  stateInv c!"v2" [(c!"v1", [(smallDigest, [c!"f"])]), (c!"v2", [(smallDigest, [c!"f"]), (demoRaw c!"sha512" [2], [c!"g"])])]
    [(smallDigest, [c!"v1/content/f"]), (demoRaw c!"sha512" [2], [v ++ c!"/content/g"])]

/-- The object with the two versions. -/
def grownFS (v : Str) : FS :=
  objectOf ([declared, ([c!"inventory.json"], textOf (secondInv v)), ([c!"inventory.json.sha512"], sidecarOf (secondInv v)), ([c!"v1"], .dir),
    ([c!"v1", c!"inventory.json"], textOf firstInv), ([c!"v1", c!"inventory.json.sha512"], sidecarOf firstInv), ([c!"v1", c!"content"], .dir),
    ([c!"v1", c!"content", c!"f"], .file [1]), ([c!"v2"], .dir), ([c!"v2", c!"inventory.json"], textOf (secondInv v)),
    ([c!"v2", c!"inventory.json.sha512"], sidecarOf (secondInv v))] ++ (if v = c!"v2" then [([c!"v2", c!"content"], .dir)] else []) ++
    [([v, c!"content", c!"g"], .file [2])])

/-- The object after it has been taken back to its first version. -/
def backFS (v : Str) : FS :=
  objectOf ([declared, ([c!"inventory.json"], textOf firstInv), ([c!"inventory.json.sha512"], sidecarOf firstInv), ([c!"v1"], .dir),
    ([c!"v1", c!"inventory.json"], textOf firstInv), ([c!"v1", c!"inventory.json.sha512"], sidecarOf firstInv), ([c!"v1", c!"content"], .dir),
    ([c!"v1", c!"content", c!"f"], .file [1])] ++ (if v = c!"v1" then [([c!"v1", c!"content", c!"g"], .file [2])] else []))

theorem firstInv_writable : firstInv.Writable := stateInv_writable (by decide) (by decide) (by decide +kernel)

theorem secondInv_writable (v : Str) : (secondInv v).Writable := by
  refine stateInv_writable ?_ (by decide) (by decide +kernel)
  simp only [List.map_cons, List.map_nil]
  decide +kernel

theorem grown_wf : ∀ v ∈ [c!"v1", c!"v2"], (grownFS v).WF := by
  intro v hv
  simp only [List.mem_cons, List.not_mem_nil, or_false] at hv
  rcases hv with rfl | rfl <;> exact ⟨by decide +kernel, by decide +kernel, by decide +kernel, by decide +kernel⟩

theorem back_wf : ∀ v ∈ [c!"v1", c!"v2"], (backFS v).WF := by
  intro v hv
  simp only [List.mem_cons, List.not_mem_nil, or_false] at hv
  rcases hv with rfl | rfl <;> exact ⟨by decide +kernel, by decide +kernel, by decide +kernel, by decide +kernel⟩

theorem grown_valid : ∀ v ∈ [c!"v1", c!"v2"], ∃ es, validateObject demoEnv {} 0 (grownFS v) c!"obj" = .ok (true, es) := by
  intro v hv
  simp only [List.mem_cons, List.not_mem_nil, or_false] at hv
  rcases hv with rfl | rfl <;> exact accepted_object (by decide +kernel)

/-- What there is at the top of the object that was taken back. -/
theorem back_top {v : Str} (hv : v ∈ [c!"v1", c!"v2"]) {w : Str} {ws : List Str} (h : look (backFS v) ([c!"w", c!"obj"] ++ w :: ws) ≠ none) :
    w ∈ [c!"0=ocfl_object_1.1", c!"inventory.json", c!"inventory.json.sha512", c!"v1"] := by
  rw [look_ne (by simp)] at h
  have hm := Dict.mem_keys_of_get? (Option.ne_none_iff_exists'.mp h).choose_spec
  have hall : ∀ v ∈ [c!"v1", c!"v2"], ∀ q ∈ (backFS v).map Prod.fst, ∀ w ∈ (q.drop 2).head?,
      w ∈ [c!"0=ocfl_object_1.1", c!"inventory.json", c!"inventory.json.sha512", c!"v1"] := by decide +kernel
  exact hall v hv _ hm w rfl

theorem back_of_grown {v : Str} (hv : v ∈ [c!"v1", c!"v2"]) :
    RolledBack (grownFS v) (backFS v) (absComps demoEnv.cwd c!"obj") c!"v1" c!"1.1" c!"sha512" [c!"v1"] where
  root := by
    have : ∀ v ∈ [c!"v1", c!"v2"], look (backFS v) (absComps demoEnv.cwd c!"obj") = some .dir := by decide +kernel
    exact this v hv
  declaration := by
    have : ∀ v ∈ [c!"v1", c!"v2"], look (backFS v) (absComps demoEnv.cwd c!"obj" ++ [c!"0=ocfl_object_" ++ c!"1.1"]) =
      some (.file (utf8 (c!"ocfl_object_" ++ c!"1.1" ++ c!"\n"))) := by decide +kernel
    exact this v hv
  inventory := by
    have : ∀ v ∈ [c!"v1", c!"v2"], look (backFS v) (absComps demoEnv.cwd c!"obj" ++ [c!"inventory.json"]) =
      look (grownFS v) (absComps demoEnv.cwd c!"obj" ++ [c!"v1", c!"inventory.json"]) := by decide +kernel
    exact this v hv
  sidecar := by
    have : ∀ v ∈ [c!"v1", c!"v2"], look (backFS v) (absComps demoEnv.cwd c!"obj" ++ [c!"inventory.json." ++ c!"sha512"]) =
      look (grownFS v) (absComps demoEnv.cwd c!"obj" ++ [c!"v1", c!"inventory.json." ++ c!"sha512"]) := by decide +kernel
    exact this v hv
  versions := by
    intro w hw ws
    cases List.mem_singleton.mp hw
    have : ∀ v ∈ [c!"v1", c!"v2"], partBelow [c!"w", c!"obj", c!"v1"] (backFS v) = partBelow [c!"w", c!"obj", c!"v1"] (grownFS v) := by
      decide +kernel
    exact same_below (this v hv) _ ⟨ws, rfl⟩
  rest := by
    intro w ws h
    have := back_top hv h
    simp only [List.mem_cons, List.not_mem_nil, or_false] at this
    rcases this with rfl | rfl | rfl | rfl
    · exact .inl rfl
    · exact .inr (.inl rfl)
    · exact .inr (.inr (.inl rfl))
    · exact .inr (.inr (.inr (.inl (by simp))))

theorem firstInv_type : InventorySpec firstInv c!"1.1" := ⟨by decide, '.', [], by decide, _, rfl, by simp⟩

theorem grown_first {v : Str} (hv : v ∈ [c!"v1", c!"v2"]) :
    StoredJson demoEnv.lib (grownFS v) (absComps demoEnv.cwd c!"obj" ++ [c!"v1", c!"inventory.json"]) firstInv := by
  have : ∀ v ∈ [c!"v1", c!"v2"], look (grownFS v) (absComps demoEnv.cwd c!"obj" ++ [c!"v1", c!"inventory.json"]) = some (textOf firstInv) := by
    decide +kernel
  exact textOf_stored firstInv_writable (this v hv)

theorem grown_second {v : Str} (hv : v ∈ [c!"v1", c!"v2"]) :
    StoredJson demoEnv.lib (grownFS v) (absComps demoEnv.cwd c!"obj" ++ [c!"inventory.json"]) (secondInv v) := by
  have : ∀ v ∈ [c!"v1", c!"v2"], look (grownFS v) (absComps demoEnv.cwd c!"obj" ++ [c!"inventory.json"]) = some (textOf (secondInv v)) := by
    decide +kernel
  exact textOf_stored (secondInv_writable v) (this v hv)

/-- **C108** is false of the code: in this valid object with two versions a file has been added to the directory of the first version, and is
listed only in the inventory of the second. The inventory of the first is all right otherwise. Taken back to the first version, the object is
invalid. -/
theorem C108_violated : ∃ s s' : FS, s.WF ∧ s'.WF ∧ (∃ es, validateObject demoEnv {} 0 s c!"obj" = .ok (true, es)) ∧
    (∃ j0 j vs0 vs, StoredJson demoEnv.lib s (absComps demoEnv.cwd c!"obj" ++ [c!"inventory.json"]) j0 ∧ Member j0 c!"versions" (.obj vs0) ∧
      Member j0 c!"head" (.str c!"v2") ∧ c!"v1" ∈ vs0.map Prod.fst ∧
      StoredJson demoEnv.lib s (absComps demoEnv.cwd c!"obj" ++ [c!"v1", c!"inventory.json"]) j ∧ Member j c!"versions" (.obj vs) ∧
      Member j c!"head" (.str c!"v1") ∧ InventoryAlg j0 c!"sha512" ∧ InventoryAlg j c!"sha512" ∧ InventorySpec j c!"1.1" ∧
      RolledBack s s' (absComps demoEnv.cwd c!"obj") c!"v1" c!"1.1" c!"sha512" (vs.map Prod.fst)) ∧
    ∃ es, validateObject demoEnv {} 0 s' c!"obj" = .ok (false, es) := by
  refine ⟨grownFS c!"v1", backFS c!"v1", grown_wf _ (by simp), back_wf _ (by simp), grown_valid _ (by simp), ?_, ?_⟩
  · exact ⟨_, _, _, [stateBlock c!"v1" [(smallDigest, [c!"f"])]], grown_second (v := c!"v1") (by simp), ⟨_, rfl, by simp; rfl⟩, ⟨_, rfl, by simp⟩, by simp [stateBlock], grown_first (v := c!"v1") (by simp),
      ⟨_, rfl, by simp⟩, ⟨_, rfl, by simp⟩, ⟨_, rfl, by simp⟩, ⟨_, rfl, by simp⟩, firstInv_type, back_of_grown (v := c!"v1") (by simp)⟩
  · have h : objectVerdict demoEnv c!"obj" (backFS c!"v1") = some false := by decide +kernel
    unfold objectVerdict at h
    split at h
    · rename_i b es hr
      cases h
      exact ⟨es, hr⟩
    · cases h

/-- An object with three versions, and the inventory of the first in the directory of the second. -/
def staleFS : FS :=
  let root := stateInv c!"v3" (([c!"v1", c!"v2", c!"v3"] : List Str).map (fun v => (v, [(smallDigest, [c!"f"])]))) [(smallDigest, [c!"v1/content/f"])]
  objectOf [declared, ([c!"inventory.json"], textOf root), ([c!"inventory.json.sha512"], sidecarOf root), ([c!"v1"], .dir),
    ([c!"v1", c!"content"], .dir), ([c!"v1", c!"content", c!"f"], .file [1]), ([c!"v2"], .dir),
    ([c!"v2", c!"inventory.json"], textOf firstInv), ([c!"v2", c!"inventory.json.sha512"], sidecarOf firstInv), ([c!"v3"], .dir),
    ([c!"v3", c!"inventory.json"], textOf root), ([c!"v3", c!"inventory.json.sha512"], sidecarOf root)]

/-- **C108** also fails because the inventory in the directory of a version need not be that of the version: an object is reported valid though
the inventory of its version `v2` has the head `v1`, so that it cannot be taken back to `v2`. -/
theorem C108_violated_head : ∃ (s : FS) (j : Json), s.WF ∧ (∃ es, validateObject demoEnv {} 0 s c!"obj" = .ok (true, es)) ∧
    StoredJson demoEnv.lib s [c!"w", c!"obj", c!"v2", c!"inventory.json"] j ∧ Member j c!"head" (.str c!"v1") ∧
    ∃ vs, Member j c!"versions" (.obj vs) ∧ c!"v2" ∉ vs.map Prod.fst :=
  ⟨staleFS, firstInv, ⟨by decide +kernel, by decide +kernel, by decide +kernel, by decide +kernel⟩, accepted_object (by decide +kernel),
    textOf_stored firstInv_writable (by decide +kernel), ⟨_, rfl, by simp⟩, _, ⟨_, rfl, by simp; rfl⟩, by decide⟩

/-- **C108** on the object with the file where it belongs. -/
example : ∃ es, validateObject demoEnv {} 0 (backFS c!"v2") c!"obj" = .ok (true, es) := by
  obtain ⟨es, hv⟩ := grown_valid c!"v2" (by simp)
  refine C108_partial demoLibraries (cfg := {}) rfl rfl (grown_wf _ (by simp)) (back_wf _ (by simp)) hv (j0 := secondInv c!"v2") (j := firstInv)
    (vs0 := _) (vs := [stateBlock c!"v1" [(smallDigest, [c!"f"])]]) (v := c!"v1") (head := c!"v2") (alg := c!"sha512") (spec := c!"1.1")
    (grown_second (by simp)) ⟨_, rfl, by simp; rfl⟩ ⟨_, rfl, by simp⟩
    ⟨_, rfl, by simp⟩ (by simp [stateBlock]) (by decide) (grown_first (by simp)) ⟨_, rfl, by simp⟩ firstInv_type (by simp [stateBlock]) ?_
    (back_of_grown (by simp))
  have hwf := storedJson_wf demoEnv_lawful (grown_first (v := c!"v2") (by simp))
  have hcd : ∀ x, ¬ Member firstInv c!"contentDirectory" x := by
    rintro x ⟨d, hd, hm⟩
    unfold firstInv stateInv smallInv at hd
    cases hd
    simp at hm
  refine ⟨?_, ?_, ?_, fun ⟨x, hx⟩ => absurd hx (hcd x)⟩
  · intro w hw j' hj'
    have : w = c!"v1" := by simpa [stateBlock] using hw
    subst this
    rw [storedJson_unique hj' (grown_first (by simp))]
    exact ⟨_, rfl, by simp⟩
  · intro w hw j' hj'
    have : w = c!"v1" := by simpa [stateBlock] using hw
    subst this
    rw [storedJson_unique hj' (grown_first (by simp))]
    exact ⟨_, rfl, by simp⟩
  · intro cd m hc hm p
    have hcd : cd = c!"content" := by
      rcases hc with h | h
      · exact absurd h.1 (hcd _)
      · exact h.2
    subst hcd
    have := ofDigestMap_inj (member_unique hwf hm (b := ofDigestMap [(smallDigest, [c!"v1/content/f"])]) ⟨_, rfl, by simp⟩)
    subst this
    have hl : listed [(smallDigest, [c!"v1/content/f"])] = [c!"v1/content/f"] := rfl
    rw [hl, List.mem_singleton]
    constructor
    · rintro rfl
      exact ⟨c!"v1", [c!"f"], [1], by simp [stateBlock], by simp, by decide, by decide +kernel⟩
    · rintro ⟨v, ws, b, hv, hws, rfl, hl⟩
      have : v = c!"v1" := by simpa [stateBlock] using hv
      subst this
      rw [look_ne (by simp)] at hl
      have hm := Dict.mem_keys_of_get? hl
      have hall : ∀ q ∈ (grownFS c!"v2").map Prod.fst, [c!"w", c!"obj", c!"v1", c!"content"] <+: q → q.drop 4 = [] ∨ q.drop 4 = [c!"f"] := by
        decide +kernel
      rcases hall _ hm ⟨ws, rfl⟩ with h | h
      · exact absurd h hws
      · have : ws = [c!"f"] := h
        subst this
        decide

/-- The object of two versions of the examples, with another digest algorithm in the second, taken back to its first. -/
def ungrown : FS := demoMade

theorem ungrown_of : RolledBack demoGrown ungrown (absComps demoEnv.cwd c!"obj") c!"v1" c!"1.1" c!"sha256" [c!"v1"] where
  root := by decide +kernel
  declaration := by decide +kernel
  inventory := by decide +kernel
  sidecar := by decide +kernel
  versions := by
    intro w hw ws
    cases List.mem_singleton.mp hw
    have : partBelow [c!"w", c!"obj", c!"v1"] ungrown = partBelow [c!"w", c!"obj", c!"v1"] demoGrown := by decide +kernel
    exact same_below this _ ⟨ws, rfl⟩
  rest := by
    intro w ws h
    rw [look_ne (by simp)] at h
    have hm := Dict.mem_keys_of_get? (Option.ne_none_iff_exists'.mp h).choose_spec
    have hall : ∀ q ∈ ungrown.map Prod.fst, [c!"w", c!"obj"] <+: q → ∀ w ∈ (q.drop 2).head?,
      w ∈ [c!"0=ocfl_object_1.1", c!"inventory.json", c!"inventory.json.sha256", c!"v1"] := by decide +kernel
    have := hall _ hm ⟨w :: ws, rfl⟩ w rfl
    simp only [List.mem_cons, List.not_mem_nil, or_false] at this
    rcases this with rfl | rfl | rfl | rfl
    · exact .inl rfl
    · exact .inr (.inl rfl)
    · exact .inr (.inr (.inl rfl))
    · exact .inr (.inr (.inr (.inl (by simp))))

/-- Is this an inventory of the versions `names`, with the algorithm `alg` and for OCFL 1.1? -/
def inventoryOf (names : List Str) (alg : Str) : Json → Bool
  | .obj d => (match Dict.get? d c!"versions" with
      | some (.obj vs) => decide (vs.map Prod.fst = names)
      | _ => false) &&
    (match Dict.get? d c!"digestAlgorithm" with
      | some (.str a) => decide (a = alg)
      | _ => false) &&
    (match Dict.get? d c!"type" with
      | some (.str a) => decide (a = c!"https://ocfl.io/1.1/spec/#inventory")
      | _ => false)
  | _ => false

theorem inventoryOf_spec {names : List Str} {alg : Str} {j : Json} (h : inventoryOf names alg j = true) :
    ∃ vs, Member j c!"versions" (.obj vs) ∧ vs.map Prod.fst = names ∧ InventoryAlg j alg ∧ InventorySpec j c!"1.1" := by
  cases j with
  | obj d =>
    simp only [inventoryOf, Bool.and_eq_true] at h
    obtain ⟨⟨h1, h2⟩, h3⟩ := h
    split at h1
    · rename_i vs hvs
      split at h2
      · rename_i a ha
        split at h3
        · rename_i t ht
          rw [of_decide_eq_true h2] at ha
          rw [of_decide_eq_true h3] at ht
          exact ⟨vs, ⟨d, rfl, Dict.mem_of_get? hvs⟩, of_decide_eq_true h1, ⟨d, rfl, Dict.mem_of_get? ha⟩,
            by decide, '.', [], by decide, d, rfl, Dict.mem_of_get? ht⟩
        · cases h3
      · cases h2
    · cases h1
  | _ => cases h

/-- **C108** on it. -/
example : (∃ es, validateObject demoEnv {} 0 ungrown c!"obj" = .ok (true, es)) ∧
    ∃ s' md, run (extract demoEnv c!"obj" c!"head" c!"out") ungrown = (s', .ok md) ∧
      ∀ r b, FileBelow s' (absComps demoEnv.cwd c!"out") r b ↔ FileBelow demoFS (absComps demoEnv.cwd c!"src") r b := by
  obtain ⟨es, hv⟩ := accepted_object (E := demoEnv) (cfg := {}) (s := demoGrown) (path := c!"obj") (by decide +kernel)
  have hi : (storedJson? demoEnv.lib demoGrown (absComps demoEnv.cwd c!"obj" ++ [styleName none 1, c!"inventory.json"])).any
    (inventoryOf [c!"v1"] c!"sha256") = true := by decide +kernel
  obtain ⟨j, hj, hi⟩ := Option.any_eq_true _ _ |>.mp hi
  obtain ⟨vs, h1, h2, h3, h4⟩ := inventoryOf_spec hi
  obtain ⟨h5, h6⟩ := C108_history demoLibraries demoEnv_cwd demo_history demo_noCollision (by decide) (cfg := {}) rfl hv (k := 1) (by decide)
    (by decide) demoMade_wf (storedJson?_spec.mp hj) h1 h3 h4 (by rw [h2]; exact ungrown_of)
  exact ⟨h5, h6 0 _ c!"head" c!"out" (by decide) rfl (.inr ⟨rfl, rfl⟩) (by decide +kernel) (by decide +kernel)
    (vacant_of demoMade_wf (by decide +kernel))⟩

end Ocfl
