import Verif.Proofs.ValidatorSteps
import Verif.Proofs.Walk

/-!
# Object validation: the entries of the object root
-/

namespace Ocfl

open Spec FS

theorem listdir_root {s : FS} {base : Path} (hd : look s base = some .dir) :
    listdir s base [] = .ok ((children s base).map (fun e => (e.1, decide (e.2 = .dir)))) := by
  unfold listdir
  dsimp only
  rw [resolve_nil, hd]
  rfl

theorem rstripSlash_name {v : Str} (hv : SafeName v) : rstripSlash v = v :=
  rstripSlash_join (ws := [v]) (isComp_list (by simpa using hv))

theorem listdir_name {s : FS} {base : Path} {v : Str} (hv : SafeName v) (hd : look s (base ++ [v]) = some .dir) :
    listdir s base v = .ok ((children s (base ++ [v])).map (fun e => (v ++ '/' :: e.1, decide (e.2 = .dir)))) := by
  unfold listdir
  dsimp only
  rw [resolve_name _ hv, hd]
  simp only [rstripSlash_name hv, if_neg hv.1]

namespace Validator

open W (Pass pass_ret pass_after pass_bind pass_unit_bind pass_err pass_warn pass_errUnless pass_py pass_log pass_ite
  pass_raised pass_abort pass_forEach pass_forM_nil pass_forM_cons)

theorem safe_extensions : SafeName c!"extensions" := by decide

theorem pass_validateExtensionsDir {s : FS} (hw : s.WF) {base : Path} (hd : look s (base ++ [c!"extensions"]) = some .dir) {u : Unit} :
    Pass (validateExtensionsDir s base) u ↔ ∀ w b, look s (base ++ [c!"extensions", w]) ≠ some (.file b) := by
  unfold validateExtensionsDir
  rw [listdir_name safe_extensions hd]
  simp only [pass_bind, pass_py, Except.ok.injEq, exists_eq_left', pass_forEach, List.mem_map, forall_exists_index, and_imp,
    Prod.forall, forall_apply_eq_imp_iff]
  have e : ∀ w, base ++ [c!"extensions", w] = base ++ [c!"extensions"] ++ [w] := by simp
  constructor
  · intro h w b hl
    rw [e, ← mem_children hw] at hl
    have := h _ _ w (.file b) hl rfl
    simp [pass_err] at this
  · intro h x d w nd hm heq
    obtain ⟨rfl, rfl⟩ := Prod.mk.inj heq
    rw [mem_children hw, ← e] at hm
    cases nd with
    | file b => exact absurd hm (h w b)
    | dir =>
      simp only [decide_true, if_true, pass_ite, pass_ret, pass_warn]
      by_cases hr : c!"extensions" ++ '/' :: w ∈ registeredExtensions <;> simp only [hr, true_and, not_true_eq_false, false_and, or_false, or_true, false_or,
        not_false_eq_true]

theorem pass_validateObjectRoot {s : FS} (hw : s.WF) {base : Path} (hd : look s base = some .dir) {spec alg : Str}
    {vds already : List Str} (hext : c!"extensions" ∉ vds) {u : Unit} :
    Pass (validateObjectRoot s base spec alg vds already) u ↔
      (∀ w b, look s (base ++ [w]) = some (.file b) →
        w ∈ [c!"0=ocfl_object_" ++ spec, c!"inventory.json", c!"inventory.json." ++ alg] ++ already) ∧
      (∀ w, look s (base ++ [w]) = some .dir → w ∈ vds ∨ w = c!"logs" ∨ w = c!"extensions") ∧
      (∀ w b, look s (base ++ [c!"extensions", w]) ≠ some (.file b)) := by
  unfold validateObjectRoot
  rw [listdir_root hd]
  simp only [pass_bind, pass_py, Except.ok.injEq, exists_eq_left', pass_forEach, List.mem_map, forall_exists_index, and_imp,
    Prod.forall]
  constructor
  · intro h
    have key : ∀ w nd, look s (base ++ [w]) = some nd →
        Pass (rootEntry s base vds ([c!"0=ocfl_object_" ++ spec, c!"inventory.json", c!"inventory.json." ++ alg] ++ already)
          (w, decide (nd = .dir))) () := fun w nd hl => h _ _ w nd ((mem_children hw).mpr hl) rfl
    refine ⟨fun w b hl => ?_, fun w hl => ?_, fun w b hl => ?_⟩
    · have := key w _ hl
      simpa [rootEntry, pass_errUnless] using this
    · have := key w _ hl
      simp only [rootEntry, decide_true, Bool.true_eq_false, if_false, pass_ite, pass_err] at this
      tauto
    · have hx : look s (base ++ [c!"extensions"]) = some .dir := by
        refine look_prefix hw (q := base ++ [c!"extensions", w]) ?_ ?_ hl
        · exact ⟨[w], by simp⟩
        · simp
      have := key _ _ hx
      simp only [rootEntry, decide_true, Bool.true_eq_false, if_false, if_neg hext, if_true] at this
      rw [if_neg (by decide), pass_validateExtensionsDir hw hx] at this
      exact this w b hl
  · rintro ⟨h1, h2, h3⟩ x d w nd hm heq
    obtain ⟨rfl, rfl⟩ := Prod.mk.inj heq
    rw [mem_children hw] at hm
    cases nd with
    | file b =>
      have := h1 w b hm
      simpa [rootEntry, pass_errUnless, inventoryFilename] using this
    | dir =>
      simp only [rootEntry, decide_true, Bool.true_eq_false, if_false]
      rcases h2 w hm with hv | rfl | rfl
      · rw [if_pos hv, pass_ret]
      · split
        · exact pass_ret.mpr rfl
        · exact pass_ret.mpr rfl
      · rw [if_neg hext, if_neg (by decide), if_pos rfl, pass_validateExtensionsDir hw hm]
        exact h3

end Validator
end Ocfl
