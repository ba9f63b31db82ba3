import Verif.Proofs.Alike
import Verif.Props.Lax
import Verif.Props.ValidExtractDemo

/-!
# C94: the report depends only on what is in the object's directory
-/

namespace Ocfl

open Spec FS Validator

/-- **C94** (partial): two directories with the same contents, in whatever places of whatever file
systems, get the same report from `validate_object`: the same verdict and the same entries in the
log, up to their order, or the same exception. The working directory, everything outside, and the
order in which directories are listed do not matter. This holds for every tree, valid or not; but with
lax digests the digest algorithms in the inventories must not contain slashes. -/
theorem C94_partial {E : Env} (hE : E.lib.Lawful) {cfg : Config} {s s' : FS} (hw : s.WF) (hw' : s'.WF) {cwd : Path} {path path' : Str}
    (hplain : cfg.lax = true → PlainAlgorithms E.lib s (absComps E.cwd path)) (h : SameContents s (absComps E.cwd path) s' (absComps cwd path')) (errors : Nat) :
    SameReport (validateObject E cfg errors s path) (validateObject { E with cwd := cwd } cfg errors s' path') := by
  have h0 : isdir s (absComps E.cwd path) = isdir s' (absComps cwd path') := by
    have := h []
    rw [List.append_nil, List.append_nil] at this
    unfold isdir
    rw [this]
  unfold validateObject fswOpen
  dsimp only
  rw [← h0]
  cases hd : isdir s (absComps E.cwd path) with
  | false => exact .verdict (List.Perm.refl _)
  | true => exact Twin.report hE hplain ⟨hw, hw', isdir_iff.mp hd, fun q _ => h q⟩

/-! ## Examples -/

/-- The entries of `brokenFS` in another order, in another directory, with something beside. -/
def movedFS : FS :=
  ([c!"data"], .dir) :: ([c!"data", c!"copy"], .dir) :: ([c!"data", c!"readme"], .file [7]) ::
    [([c!"stray"], .file [1]), ([c!"v3"], .dir), ([c!"v3", c!"contents"], .dir), ([c!"v1"], .dir),
      ([c!"v1", c!"inventory.json"], textOf hiddenInv), ([c!"inventory.json"], textOf hiddenInv), declared].map
      (fun e => ([c!"data", c!"copy"] ++ e.1, e.2))

theorem movedFS_wf : movedFS.WF where
  nk := by decide +kernel
  noRoot := by decide +kernel
  parent := by decide +kernel
  names := by decide +kernel

/-- What is below a directory is below the other directory too. -/
def contentsCover (s : FS) (p : Path) (s' : FS) (p' : Path) : Bool :=
  s.all (fun e => !(p.isPrefixOf e.1) || decide (FS.look s' (p' ++ e.1.drop p.length) = some e.2))

theorem contentsCover_spec {s s' : FS} {p p' : Path} (hp : p ≠ []) (h : contentsCover s p s' p' = true) {q : Path} {n : Node}
    (hl : look s (p ++ q) = some n) : look s' (p' ++ q) = some n := by
  rw [look_ne (by simp [hp])] at hl
  have := List.all_eq_true.mp h _ (Dict.mem_of_get? hl)
  dsimp only at this
  rw [List.drop_left, Bool.or_eq_true, decide_eq_true_eq] at this
  rcases this with h' | h'
  · rw [List.isPrefixOf_iff_prefix.mpr (List.prefix_append _ _)] at h'
    cases h'
  · exact h'

theorem sameContents_of {s s' : FS} {p p' : Path} (hp : p ≠ []) (hp' : p' ≠ []) (h : contentsCover s p s' p' = true)
    (h' : contentsCover s' p' s p = true) : SameContents s p s' p' := by
  intro q
  cases hl : look s (p ++ q) with
  | some n => exact (contentsCover_spec hp h hl).symm
  | none =>
    cases hl' : look s' (p' ++ q) with
    | none => rfl
    | some n => rw [contentsCover_spec hp' h' hl'] at hl; cases hl

theorem brokenFS_moved : SameContents brokenFS (absComps demoEnv.cwd c!"obj") movedFS (absComps [c!"data"] c!"copy") := by
  rw [show absComps demoEnv.cwd c!"obj" = [c!"w", c!"obj"] from by decide +kernel,
    show absComps [c!"data"] c!"copy" = [c!"data", c!"copy"] from by decide +kernel]
  exact sameContents_of (by simp) (by simp) (by decide +kernel) (by decide +kernel)

/-- The copy gets the same report as the original, which has four errors. -/
example : SameReport (validateObject demoEnv {} 0 brokenFS c!"obj") (validateObject { demoEnv with cwd := [c!"data"] } {} 0 movedFS c!"copy") :=
  C94_partial demoEnv_lawful brokenFS_wf movedFS_wf (by rintro ⟨⟩) brokenFS_moved 0

/-- The entries of the two reports are in different orders. -/
example : validateObject demoEnv {} 0 brokenFS c!"obj" =
      .ok (false, [⟨false, c!"W007a"⟩, ⟨false, c!"W007b"⟩, ⟨true, c!"E058a"⟩, ⟨true, c!"E046b"⟩, ⟨true, c!"E001a"⟩, ⟨true, c!"E058a"⟩]) ∧
    validateObject { demoEnv with cwd := [c!"data"] } {} 0 movedFS c!"copy" =
      .ok (false, [⟨false, c!"W007a"⟩, ⟨false, c!"W007b"⟩, ⟨true, c!"E058a"⟩, ⟨true, c!"E001a"⟩, ⟨true, c!"E046b"⟩, ⟨true, c!"E058a"⟩]) := by
  decide +kernel

/-- The entries of `md5FS` in the opposite order, in another directory. -/
def md5Copy : FS :=
  ([c!"data"], .dir) :: ([c!"data", c!"copy"], .dir) ::
    [([c!"v1"], .dir), ([c!"v1", c!"content"], .dir), ([c!"v1", c!"content", c!"f"], .file [1]),
      ([c!"inventory.json.md5"], .file (utf8 (demoRaw c!"md5" (utf8 (pyJson.dumps md5Inv)) ++ c!" inventory.json\n"))),
      ([c!"inventory.json"], textOf md5Inv), declared].map (fun e => ([c!"data", c!"copy"] ++ e.1, e.2))

theorem md5FS_wf : md5FS.WF where
  nk := by decide +kernel
  noRoot := by decide +kernel
  parent := by decide +kernel
  names := by decide +kernel

theorem md5Copy_wf : md5Copy.WF where
  nk := by decide +kernel
  noRoot := by decide +kernel
  parent := by decide +kernel
  names := by decide +kernel

theorem md5Inv_writable : md5Inv.Writable := by
  unfold md5Inv
  refine .obj (by simp only [Dict.NK, List.map_cons, List.map_nil]; decide) ?_
  simp only [List.mem_cons, List.not_mem_nil, or_false, forall_eq_or_imp, forall_eq]
  refine ⟨.str, .str, .str, .str, .obj (by simp [Dict.NK]) ?_, ofDigestMap_writable _ _⟩
  simp only [List.mem_cons, List.not_mem_nil, or_false, forall_eq]
  refine .obj (by simp only [Dict.NK, List.map_cons, List.map_nil]; decide) ?_
  simp only [List.mem_cons, List.not_mem_nil, or_false, forall_eq_or_imp, forall_eq]
  exact ⟨.str, ofDigestMap_writable _ _⟩

theorem md5FS_plain : PlainAlgorithms demoEnv.lib md5FS (absComps demoEnv.cwd c!"obj") := by
  intro q j a hq hst hm
  have hall : ∀ e ∈ md5FS, e.1.getLast? = some c!"inventory.json" → e.2 = textOf md5Inv := by decide +kernel
  obtain ⟨b, t, hl, hu, hj⟩ := hst
  have hlast : (absComps demoEnv.cwd c!"obj" ++ q).getLast? = some c!"inventory.json" := by
    rcases hq with rfl | ⟨v, rfl⟩ <;> simp
  have hne : absComps demoEnv.cwd c!"obj" ++ q ≠ [] := by
    rintro h
    rw [h] at hlast
    cases hlast
  rw [look_ne hne] at hl
  have hb := hall _ (Dict.mem_of_get? hl) hlast
  dsimp only at hb
  unfold textOf at hb
  cases hb
  rw [utf8Decode_utf8] at hu
  cases hu
  have hw := md5Inv_writable
  rw [univNewlines_of_noCR (pyJson_lawful.noCR _ hw)] at hj
  have : j = md5Inv := Option.some.inj (hj.symm.trans (pyJson_lawful.loads _ hw))
  subst this
  obtain ⟨d, hd, hm⟩ := hm
  cases hd
  simp at hm
  subst hm
  decide

theorem md5FS_moved : SameContents md5FS (absComps demoEnv.cwd c!"obj") md5Copy (absComps [c!"data"] c!"copy") := by
  rw [show absComps demoEnv.cwd c!"obj" = [c!"w", c!"obj"] from by decide +kernel,
    show absComps [c!"data"] c!"copy" = [c!"data", c!"copy"] from by decide +kernel]
  exact sameContents_of (by simp) (by simp) (by decide +kernel) (by decide +kernel)

/-- With lax digests: the object with MD5 is valid, so the copy is valid. -/
example : ∃ es, validateObject { demoEnv with cwd := [c!"data"] } { lax := true } 0 md5Copy c!"copy" = .ok (true, es) := by
  obtain ⟨es, h⟩ := accepted_object (E := demoEnv) (cfg := { lax := true }) (s := md5FS) (path := c!"obj") (by decide +kernel)
  have hr := C94_partial (cfg := { lax := true }) demoEnv_lawful md5FS_wf md5Copy_wf (fun _ => md5FS_plain) md5FS_moved 0
  rw [h] at hr
  generalize validateObject { demoEnv with cwd := [c!"data"] } { lax := true } 0 md5Copy c!"copy" = r at hr ⊢
  cases hr with
  | verdict _ => exact ⟨_, rfl⟩

/-- A digest algorithm that leads out of the object. -/
def outsideInv : Json := .obj [(c!"digestAlgorithm", .str c!"/../../x")]

/-- An object with this inventory, and beside it perhaps something named `x`. -/
def outsideFS (beside : List (Path × Node)) : FS :=
  objectOf [declared, ([c!"inventory.json"], textOf outsideInv), ([c!"inventory.json."], .dir)] ++ beside

/-- **C94** fails with lax digests: the name of the sidecar is made from the digest algorithm of the
inventory, which then may lead out of the object, so that the report depends on what is there. -/
theorem C94_violated : (outsideFS []).WF ∧ (outsideFS [([c!"w", c!"x"], .dir)]).WF ∧
    SameContents (outsideFS []) (absComps demoEnv.cwd c!"obj") (outsideFS [([c!"w", c!"x"], .dir)]) (absComps demoEnv.cwd c!"obj") ∧
    ¬ SameReport (validateObject demoEnv { lax := true } 0 (outsideFS []) c!"obj")
      (validateObject demoEnv { lax := true } 0 (outsideFS [([c!"w", c!"x"], .dir)]) c!"obj") := by
  refine ⟨⟨?_, ?_, ?_, ?_⟩, ⟨?_, ?_, ?_, ?_⟩, ?_, ?_⟩
  iterate 8 decide +kernel
  · exact sameContents_of (by decide +kernel) (by decide +kernel) (by decide +kernel) (by decide +kernel)
  · have h1 : validateObject demoEnv { lax := true } 0 (outsideFS []) c!"obj" =
        .ok (false, [⟨true, c!"E036a"⟩, ⟨true, c!"E036b"⟩, ⟨true, c!"E041a"⟩, ⟨true, c!"E041b"⟩, ⟨true, c!"E036d"⟩, ⟨true, c!"E058a"⟩, ⟨true, c!"E001b"⟩]) := by
      decide +kernel
    have h2 : validateObject demoEnv { lax := true } 0 (outsideFS [([c!"w", c!"x"], .dir)]) c!"obj" =
        .ok (false, [⟨true, c!"E036a"⟩, ⟨true, c!"E036b"⟩, ⟨true, c!"E041a"⟩, ⟨true, c!"E041b"⟩, ⟨true, c!"E036d"⟩, ⟨true, c!"E058b"⟩, ⟨true, c!"E001b"⟩]) := by
      decide +kernel
    rw [h1, h2]
    rintro ⟨h⟩
    revert h
    decide

end Ocfl
