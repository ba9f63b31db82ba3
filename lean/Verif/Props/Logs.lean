import Verif.Props.Report

/-!
# C95: logs and the contents of extensions are not looked at
-/

namespace Ocfl

open Spec FS Validator

/-- **C95** (partial): two directories with the same contents, apart from what is inside the `logs`
directory and inside the directories of extensions, get the same report from `validate_object`. So
whatever is stored there, the object is as valid as without it, and nothing there is logged. With lax
digests the digest algorithms in the inventories must not contain slashes. -/
theorem C95_partial {E : Env} (hE : E.lib.Lawful) {cfg : Config} {s s' : FS} (hw : s.WF) (hw' : s'.WF) {path : Str}
    (hplain : cfg.lax = true → PlainAlgorithms E.lib s (absComps E.cwd path)) (h : SameApart s (absComps E.cwd path) s' (absComps E.cwd path)) (errors : Nat) :
    SameReport (validateObject E cfg errors s path) (validateObject E cfg errors s' path) := by
  have h0 : isdir s (absComps E.cwd path) = isdir s' (absComps E.cwd path) := by
    have := h [] counts_nil
    rw [List.append_nil] at this
    unfold isdir
    rw [this]
  unfold validateObject fswOpen
  dsimp only
  rw [← h0]
  cases hd : isdir s (absComps E.cwd path) with
  | false => exact .verdict (List.Perm.refl _)
  | true => exact Twin.report (cwd := E.cwd) hE hplain ⟨hw, hw', isdir_iff.mp hd, h⟩

/-! ## Examples -/

/-- The first path is inside `logs` or inside the directory of an extension. -/
def ignoredB : Path → Bool
  | a :: b :: r => a == c!"logs" || (a == c!"extensions" && (b :: r).length ≥ 2)
  | _ => false

theorem ignoredB_spec {q : Path} (h : ignoredB q = true) : Ignored q := by
  match q, h with
  | [a, b], h =>
    simp [ignoredB] at h
    subst h
    exact .inl ⟨[b], by simp, rfl⟩
  | a :: b :: c :: r, h =>
    simp [ignoredB] at h
    rcases h with rfl | rfl
    · exact .inl ⟨b :: c :: r, by simp, rfl⟩
    · exact .inr ⟨b, c :: r, by simp, rfl⟩

/-- What is below a directory, and counts, is below the other directory too. -/
def countedCover (s : FS) (p : Path) (s' : FS) : Bool :=
  s.all (fun e => !(p.isPrefixOf e.1) || ignoredB (e.1.drop p.length) || decide (FS.look s' e.1 = some e.2))

theorem countedCover_spec {s s' : FS} {p : Path} (hp : p ≠ []) (h : countedCover s p s' = true) {q : Path} {n : Node}
    (hq : ¬ Ignored q) (hl : look s (p ++ q) = some n) : look s' (p ++ q) = some n := by
  rw [look_ne (by simp [hp])] at hl
  have := List.all_eq_true.mp h _ (Dict.mem_of_get? hl)
  dsimp only at this
  rw [List.drop_left, Bool.or_eq_true, Bool.or_eq_true, decide_eq_true_eq] at this
  rcases this with (h' | h') | h'
  · rw [List.isPrefixOf_iff_prefix.mpr (List.prefix_append _ _)] at h'
    cases h'
  · exact absurd (ignoredB_spec h') hq
  · exact h'

theorem sameApart_of {s s' : FS} {p : Path} (hp : p ≠ []) (h : countedCover s p s' = true) (h' : countedCover s' p s = true) : SameApart s p s' p := by
  intro q hq
  cases hl : look s (p ++ q) with
  | some n => exact (countedCover_spec hp h hq hl).symm
  | none =>
    cases hl' : look s' (p ++ q) with
    | none => rfl
    | some n => rw [countedCover_spec hp h' hq hl'] at hl; cases hl

/-- The valid object of `oneFS` with logs and an extension. -/
def loggedFS (more : List (Path × Node)) : FS :=
  oneFS c!"v1" [c!"g", c!"d/h"] ++ ([([c!"logs"], Node.dir), ([c!"extensions"], .dir), ([c!"extensions", c!"0000-example"], .dir)] ++ more).map
    (fun (e : Path × Node) => ([c!"w", c!"obj"] ++ e.1, e.2))

/-- Things a validator would complain about elsewhere: an empty directory, a file that is not in the
manifest, an inventory that cannot be read. -/
def clutter : List (Path × Node) :=
  [([c!"logs", c!"inventory.json"], .file [255]), ([c!"logs", c!"empty"], .dir), ([c!"logs", c!"v1"], .dir),
    ([c!"extensions", c!"0000-example", c!"0=ocfl_object_1.0"], .file [1]), ([c!"extensions", c!"0000-example", c!"config.json"], .file [2])]

theorem loggedFS_wf : (loggedFS []).WF where
  nk := by decide +kernel
  noRoot := by decide +kernel
  parent := by decide +kernel
  names := by decide +kernel

theorem loggedFS_wf' : (loggedFS clutter).WF where
  nk := by decide +kernel
  noRoot := by decide +kernel
  parent := by decide +kernel
  names := by decide +kernel

theorem loggedFS_apart : SameApart (loggedFS []) (absComps demoEnv.cwd c!"obj") (loggedFS clutter) (absComps demoEnv.cwd c!"obj") := by
  rw [show absComps demoEnv.cwd c!"obj" = [c!"w", c!"obj"] from by decide +kernel]
  exact sameApart_of (by simp) (by decide +kernel) (by decide +kernel)

/-- The object stays valid with all this in it. -/
example : ∃ es, validateObject demoEnv {} 0 (loggedFS clutter) c!"obj" = .ok (true, es) := by
  obtain ⟨es, h⟩ := accepted_object (E := demoEnv) (cfg := {}) (s := loggedFS []) (path := c!"obj") (by decide +kernel)
  have hr := C95_partial (cfg := {}) demoEnv_lawful loggedFS_wf loggedFS_wf' (by rintro ⟨⟩) loggedFS_apart 0
  rw [h] at hr
  generalize validateObject demoEnv {} 0 (loggedFS clutter) c!"obj" = r at hr ⊢
  cases hr with
  | verdict _ => exact ⟨_, rfl⟩

/-- A digest algorithm that leads to a log. -/
def toLogsInv : Json := .obj [(c!"digestAlgorithm", .str c!"/../logs/x")]

/-- An object with this inventory and a directory for logs. -/
def toLogsFS (more : List (Path × Node)) : FS :=
  objectOf ([declared, ([c!"inventory.json"], textOf toLogsInv), ([c!"inventory.json."], .dir), ([c!"logs"], .dir)] ++ more)

/-- **C95** fails with lax digests: the name of the sidecar is made from the digest algorithm of the
inventory, which then may lead to a file in `logs`. -/
theorem C95_violated : (toLogsFS []).WF ∧ (toLogsFS [([c!"logs", c!"x"], .dir)]).WF ∧
    SameApart (toLogsFS []) (absComps demoEnv.cwd c!"obj") (toLogsFS [([c!"logs", c!"x"], .dir)]) (absComps demoEnv.cwd c!"obj") ∧
    ¬ SameReport (validateObject demoEnv { lax := true } 0 (toLogsFS []) c!"obj")
      (validateObject demoEnv { lax := true } 0 (toLogsFS [([c!"logs", c!"x"], .dir)]) c!"obj") := by
  refine ⟨⟨?_, ?_, ?_, ?_⟩, ⟨?_, ?_, ?_, ?_⟩, ?_, ?_⟩
  iterate 8 decide +kernel
  · exact sameApart_of (by decide +kernel) (by decide +kernel) (by decide +kernel)
  · have h1 : validateObject demoEnv { lax := true } 0 (toLogsFS []) c!"obj" =
        .ok (false, [⟨true, c!"E036a"⟩, ⟨true, c!"E036b"⟩, ⟨true, c!"E041a"⟩, ⟨true, c!"E041b"⟩, ⟨true, c!"E036d"⟩, ⟨true, c!"E058a"⟩, ⟨true, c!"E001b"⟩]) := by
      decide +kernel
    have h2 : validateObject demoEnv { lax := true } 0 (toLogsFS [([c!"logs", c!"x"], .dir)]) c!"obj" =
        .ok (false, [⟨true, c!"E036a"⟩, ⟨true, c!"E036b"⟩, ⟨true, c!"E041a"⟩, ⟨true, c!"E041b"⟩, ⟨true, c!"E036d"⟩, ⟨true, c!"E058b"⟩, ⟨true, c!"E001b"⟩]) := by
      decide +kernel
    rw [h1, h2]
    rintro ⟨h⟩
    revert h
    decide

end Ocfl
