import Verif.Props.ValidExtract
import Verif.Props.Verdict

/-!
# C87: examples
-/

namespace Ocfl

open Spec FS Prog Validator

/-- An inventory with one version, that has the logical paths `paths`, all with the same content. -/
def oneInv (v : Str) (paths : List Str) : Json :=
  smallInv v [(v, .obj [(c!"created", .str c!"2020-01-01T00:00:00Z"), (c!"state", ofDigestMap [(smallDigest, paths)])])]
    [(c!"manifest", ofDigestMap [(smallDigest, [v ++ c!"/content/f"])])]

/-- An object with this inventory. Nobody but the reader of this file made it. -/
def oneFS (v : Str) (paths : List Str) : FS :=
  objectOf [declared, ([c!"inventory.json"], textOf (oneInv v paths)), ([c!"inventory.json.sha512"], sidecarOf (oneInv v paths)),
    ([v], .dir), ([v, c!"content"], .dir), ([v, c!"content", c!"f"], .file [1])]

theorem ofDigestMap_writable (d : Str) (ps : List Str) : (ofDigestMap [(d, ps)]).Writable := by
  unfold ofDigestMap
  refine .obj (by simp [Dict.NK]) ?_
  simp only [List.map_cons, List.map_nil, List.mem_cons, List.not_mem_nil, or_false, forall_eq]
  refine .arr ?_
  intro x hx
  obtain ⟨p, _, rfl⟩ := List.mem_map.mp hx
  exact .str

theorem oneInv_writable (v : Str) (paths : List Str) : (oneInv v paths).Writable := by
  unfold oneInv smallInv
  refine .obj (by simp only [Dict.NK, List.map_cons, List.map_nil, List.cons_append, List.nil_append]; decide) ?_
  simp only [List.cons_append, List.nil_append, List.mem_cons, List.not_mem_nil, or_false, forall_eq_or_imp, forall_eq]
  refine ⟨.str, .str, .str, .str, .obj (by simp [Dict.NK]) ?_, ofDigestMap_writable _ _⟩
  simp only [List.mem_cons, List.not_mem_nil, or_false, forall_eq]
  refine .obj (by simp only [Dict.NK, List.map_cons, List.map_nil]; decide) ?_
  simp only [List.mem_cons, List.not_mem_nil, or_false, forall_eq_or_imp, forall_eq]
  exact ⟨.str, ofDigestMap_writable _ _⟩

theorem oneFS_stored (v : Str) (paths : List Str) :
    StoredJson demoEnv.lib (oneFS v paths) (absComps demoEnv.cwd c!"obj" ++ [c!"inventory.json"]) (oneInv v paths) := by
  refine ⟨utf8 (pyJson.dumps (oneInv v paths)), pyJson.dumps (oneInv v paths), rfl, utf8Decode_utf8 _, ?_⟩
  rw [univNewlines_of_noCR (pyJson_lawful.noCR _ (oneInv_writable v paths))]
  exact pyJson_lawful.loads _ (oneInv_writable v paths)

/-- What the inventory says. -/
theorem oneInv_view (v : Str) (paths : List Str) :
    View (oneInv v paths) [(smallDigest, [v ++ c!"/content/f"])]
      [(v, .obj [(c!"created", .str c!"2020-01-01T00:00:00Z"), (c!"state", ofDigestMap [(smallDigest, paths)])])]
      (fun _ => [(smallDigest, paths)]) := by
  refine ⟨⟨_, rfl, by simp⟩, ⟨_, rfl, by simp⟩, ?_⟩
  intro u b hm
  simp only [List.mem_cons, List.not_mem_nil, or_false, Prod.mk.injEq] at hm
  rw [hm.2]
  exact ⟨_, rfl, by simp⟩

theorem oneFS_wf : (oneFS c!"v1" [c!"g", c!"d/h"]).WF where
  nk := by decide +kernel
  noRoot := by decide +kernel
  parent := by decide +kernel
  names := by decide +kernel

theorem nestedFS_wf : (oneFS c!"v1" [c!"g", c!"g/d/h"]).WF where
  nk := by decide +kernel
  noRoot := by decide +kernel
  parent := by decide +kernel
  names := by decide +kernel

theorem oneFS_valid : ∃ es, validateObject demoEnv {} 0 (oneFS c!"v1" [c!"g", c!"d/h"]) c!"obj" = .ok (true, es) :=
  accepted_object (by decide +kernel)

theorem nestedFS_valid : ∃ es, validateObject demoEnv {} 0 (oneFS c!"v1" [c!"g", c!"g/d/h"]) c!"obj" = .ok (true, es) :=
  accepted_object (by decide +kernel)

/-- **C87** on an object with two files of the same content. -/
example : ∃ s' md, run (extract demoEnv c!"obj" c!"head" c!"out") (oneFS c!"v1" [c!"g", c!"d/h"]) = (s', .ok md) ∧
    (∃ b, look s' [c!"w", c!"out", c!"d", c!"h"] = some (.file b) ∧ HasDigest demoEnv c!"sha512" b smallDigest) := by
  obtain ⟨es, hv⟩ := oneFS_valid
  obtain ⟨s', md, hr, hh, _⟩ := C87_partial demoLibraries demoEnv_cwd (cfg := {}) rfl oneFS_wf hv (oneFS_stored _ _) (oneInv_view _ _)
    (alg := c!"sha512") ⟨_, rfl, by simp⟩ (version := c!"head") (v := c!"v1") ⟨by simp, Or.inr ⟨rfl, _, rfl, by simp⟩⟩
    (by simp) (by
      intro p hp rest hq
      simp [listed] at hp hq
      rcases hp with rfl | rfl <;> simp at hq)
    (dstdir := c!"out") (by decide +kernel) (by decide +kernel) (vacant_of oneFS_wf (by decide +kernel))
  refine ⟨s', md, hr, ?_⟩
  obtain ⟨r, b, h1, h2⟩ := hh.complete c!"d/h" (by simp [listed])
  obtain ⟨d, h3, h4⟩ := hh.recorded r b h2
  have hw' : s'.WF := by
    have := (run_extract demoEnv_lawful demoEnv_cwd oneFS_wf (by decide +kernel) ?_ hr).1
    · exact this
    · intro j m c k1 k2 k3
      have := storedJson_unique (oneFS_stored _ _) k1
      subst this
      have := (sameView (demoEnv_lawful.wf _ _ k1.choose_spec.choose_spec.2.2) (oneInv_view _ _)
        ⟨k2, (oneInv_view _ _).versions, (oneInv_view _ _).state⟩).1
      subst this
      simp [listed] at k3
      exact ⟨[c!"v1", c!"content", c!"f"], by simp, (show ∀ w ∈ [c!"v1", c!"content", c!"f"], SafeName w by decide), by rw [k3]; decide⟩
  have e : r = [c!"d", c!"h"] := pathOf_inj' ⟨h2.1, fun w hw => look_names hw' h2.2 w (List.mem_append_right _ hw)⟩
    ⟨by simp, by decide⟩ (h1.symm.trans (by decide))
  subst e
  refine ⟨b, h2.2, ?_⟩
  obtain ⟨ps, hm, _⟩ := h3
  simp only [List.mem_cons, List.not_mem_nil, or_false, Prod.mk.injEq] at hm
  rw [← hm.1]
  exact h4 rfl

/-- **C87** for one file of an object with nested paths. -/
example : ∃ s' md b, run (extractFile demoEnv c!"obj" c!"v1" c!"out" c!"g/d/h") (oneFS c!"v1" [c!"g", c!"g/d/h"]) = (s', .ok md) ∧
    look s' [c!"w", c!"out", c!"h"] = some (.file b) ∧ HasDigest demoEnv c!"sha512" b smallDigest := by
  obtain ⟨es, hv⟩ := nestedFS_valid
  obtain ⟨s', md, b, d, hr, hl, ⟨ps, hm, _⟩, hd, _⟩ := C87_file demoLibraries demoEnv_cwd (cfg := {}) rfl nestedFS_wf hv (oneFS_stored _ _)
    (oneInv_view _ _) (alg := c!"sha512") ⟨_, rfl, by simp⟩ (version := c!"v1") (v := c!"v1") ⟨by simp, Or.inl rfl⟩ (by simp)
    (dstdir := c!"out") (by decide +kernel) (by decide +kernel) (Or.inl (by decide +kernel)) (segs := [c!"g", c!"d"]) (w := c!"h")
    (by rw [show pathOf ([c!"g", c!"d"] ++ [c!"h"]) = c!"g/d/h" from by decide]; simp [listed]) (by decide) (by decide +kernel)
  refine ⟨s', md, b, hr, hl, ?_⟩
  simp only [List.mem_cons, List.not_mem_nil, or_false, Prod.mk.injEq] at hm
  rw [← hm.1]
  exact hd rfl

/-- Does validation accept the object, and does extraction fail? -/
def validButStuck (s : FS) (e : PyErr) : Bool :=
  (match validateObject demoEnv {} 0 s c!"obj" with | .ok (b, _) => b | .error _ => false) &&
  match run (extract demoEnv c!"obj" c!"head" c!"out") s with
  | (_, .error e') => decide (e' = e)
  | _ => false

theorem validButStuck_spec {s : FS} {e : PyErr} (h : validButStuck s e = true) :
    (∃ es, validateObject demoEnv {} 0 s c!"obj" = .ok (true, es)) ∧ (run (extract demoEnv c!"obj" c!"head" c!"out") s).2 = .error e := by
  unfold validButStuck at h
  rw [Bool.and_eq_true] at h
  refine ⟨accepted_object h.1, ?_⟩
  have h2 := h.2
  split at h2
  · rename_i e' he
    rw [he, of_decide_eq_true h2]
  · cases h2

/-- **C87** fails if a logical path lies two levels below another one: the object is valid (see `C33_deep_conflict`), and
extraction fails halfway. -/
theorem C87_violated_nested : ∃ e, (oneFS c!"v1" [c!"g", c!"g/d/h"]).WF ∧
    (∃ es, validateObject demoEnv {} 0 (oneFS c!"v1" [c!"g", c!"g/d/h"]) c!"obj" = .ok (true, es)) ∧
    (run (extract demoEnv c!"obj" c!"head" c!"out") (oneFS c!"v1" [c!"g", c!"g/d/h"])).2 = .error e :=
  ⟨.notADirectory, nestedFS_wf, validButStuck_spec (by decide +kernel)⟩

/-- **C87** fails for version numbers of six digits: the object is valid, and nothing can be extracted from it. -/
theorem C87_violated_number :
    (∃ es, validateObject demoEnv {} 0 (oneFS c!"v000001" [c!"g", c!"d/h"]) c!"obj" = .ok (true, es)) ∧
    (run (extract demoEnv c!"obj" c!"head" c!"out") (oneFS c!"v000001" [c!"g", c!"d/h"])).2 = .error .objectException :=
  validButStuck_spec (by decide +kernel)

end Ocfl
