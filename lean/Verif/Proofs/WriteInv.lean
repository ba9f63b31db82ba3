import Verif.Proofs.StartVersion

/-!
# What `write_inventory_and_sidecar` does
-/

namespace Ocfl

open Spec FS Prog Ocfl.Inv

/-- The line of a sidecar. -/
def sidecarLine (digest : Str) : Bytes := utf8 (digest ++ c!" " ++ inventoryFilename ++ c!"\n")

/-- The root directory, or the directory of a version. -/
inductive VDir : Str → Path → Prop
  | root : VDir [] []
  | version {v : Str} : SafeName v → VDir v [v]

theorem VDir.resolve {vdir : Str} {vd : Path} (h : VDir vdir vd) (base : Path) : FS.resolve base vdir = base ++ vd := by
  cases h with
  | root => rw [resolve_nil, List.append_nil]
  | version h => exact resolve_name base h

theorem VDir.resolve_in {vdir : Str} {vd : Path} (h : VDir vdir vd) (base : Path) {w : Str} (hw : SafeName w) :
    FS.resolve base (osPathJoin vdir w) = base ++ vd ++ [w] := by
  cases h with
  | root => rw [osPathJoin_nil, List.append_nil]; exact resolve_name base hw
  | version h =>
    have : osPathJoin vdir w = joinWith '/' [vdir, w] := by
      have := osPathJoin_joinWith (ws := [vdir]) (b := w) (by simpa using SafeName.isComp h) hw.2.2.2
      simpa [joinWith] using this
    rw [this, resolve_join base (by simp [h, hw])]
    simp

/-- What writing an inventory with its sidecar leaves behind. -/
structure WroteInv (E : Env) (alg : Str) (dir : Path) (inv : Inv) (s s' : FS) : Prop where
  wf : s'.WF
  digest : ∃ d, fileDigest E.raw alg (utf8 (inventoryText E inv)) = some d ∧
    look s' (dir ++ [sidecarName alg]) = some (.file (sidecarLine d))
  inventory : look s' (dir ++ [inventoryFilename]) = some (.file (utf8 (inventoryText E inv)))
  isDir : look s' dir = some .dir
  notDir : ∀ q, q = dir ++ [inventoryFilename] ∨ q = dir ++ [sidecarName alg] → look s q ≠ some .dir
  rest : ∀ q, q ≠ dir ++ [inventoryFilename] → q ≠ dir ++ [sidecarName alg] → q ≠ dir → look s' q = look s q

theorem inventory_ne_sidecar {dir : Path} {alg : Str} : dir ++ [inventoryFilename] ≠ dir ++ [sidecarName alg] := by
  intro h
  rw [List.append_cancel_left_eq] at h
  simp only [List.cons.injEq, and_true] at h
  have := congrArg List.length h
  simp [sidecarName, inventoryFilename] at this

theorem concat_ne_self {dir : Path} {w : Str} : dir ++ [w] ≠ dir := by
  intro h
  have := congrArg List.length h
  simp at this

/-- The step that makes the directory. -/
def ensureDir (dir : Path) : Prog Unit :=
  Prog.get (fun s => if FS.exists_ s dir = false then FS.makedir dir else .ret (.ok ()))

theorem run_ensureDir_inv {s s' : FS} (hw : s.WF) {dir : Path} (hsafe : ∀ w ∈ dir, SafeName w)
    (hr : run (ensureDir dir) s = (s', .ok ())) :
    s'.WF ∧ look s' dir ≠ none ∧ (look s dir = none → Clear s dir) ∧
      (∀ q, look s' q = if look s dir = none ∧ q <+: dir then some .dir else look s q) := by
  unfold ensureDir at hr
  rw [run_get] at hr
  cases hx : look s dir with
  | some n =>
    rw [if_neg (by unfold exists_; rw [hx]; simp)] at hr
    cases hr
    refine ⟨hw, by rw [hx]; simp, by simp, fun q => by simp⟩
  | none =>
    rw [if_pos (by unfold exists_; rw [hx]; rfl), run_makedir_absent hx] at hr
    have hc := run_makedirs_inv hw hr
    obtain ⟨s2, h1, h2, h3⟩ := run_makedirs_ok hw true hsafe hc (Or.inl rfl)
    rw [h1] at hr
    cases hr
    refine ⟨h2, by rw [h3, if_pos List.prefix_rfl]; simp, fun _ => hc, fun q => by rw [h3]; simp⟩

theorem run_ensureDir_ok {s : FS} (hw : s.WF) {dir : Path} (hsafe : ∀ w ∈ dir, SafeName w)
    (hd : look s dir = some .dir ∨ (look s dir = none ∧ look s dir.dropLast = some .dir)) :
    ∃ s', run (ensureDir dir) s = (s', .ok ()) ∧ s'.WF ∧ ∀ q, look s' q = if q = dir then some .dir else look s q := by
  unfold ensureDir
  rw [run_get]
  rcases hd with hd | ⟨hd, hp⟩
  · rw [if_neg (by unfold exists_; rw [hd]; simp)]
    refine ⟨s, rfl, hw, fun q => ?_⟩
    split
    · rename_i he; rw [he, hd]
    · rfl
  · rw [if_pos (by unfold exists_; rw [hd]; rfl), run_makedir_absent hd]
    have hne : dir ≠ [] := by rintro rfl; rw [look_nil] at hd; cases hd
    obtain ⟨t, w, he⟩ : ∃ t w, dir = t ++ [w] := by
      rcases List.eq_nil_or_concat dir with h | ⟨t, w, h⟩
      · exact absurd h hne
      · exact ⟨t, w, by rw [h, List.concat_eq_append]⟩
    have hc : Clear s dir := by
      rw [he] at hp hd ⊢
      rw [List.dropLast_concat] at hp
      exact clear_concat.mpr ⟨clear_of_dir hw hp, Or.inl hd⟩
    obtain ⟨s2, h1, h2, h3⟩ := run_makedirs_ok hw true hsafe hc (Or.inl rfl)
    refine ⟨s2, h1, h2, fun q => ?_⟩
    rw [h3]
    by_cases hq : q = dir
    · subst hq; simp
    · rw [if_neg hq]
      split
      · rename_i hpre
        rw [he] at hpre hp hq
        rw [List.dropLast_concat] at hp
        rcases prefix_concat.mp hpre with h | h
        · exact absurd h hq
        · by_cases hqt : q = t
          · rw [hqt, hp]
          · rw [look_prefix hw h hqt hp]
      · rfl

theorem writeInv_eq {E : Env} {o : Obj} {base : Path} {inv : Inv} {vdir : Str} {vd : Path} (hv : VDir vdir vd) (s : FS) :
    run (writeInventoryAndSidecar E o base (some inv) vdir) s =
      run (Prog.bind (ensureDir (base ++ vd)) (fun _ =>
        Prog.bind (FS.writeFile (base ++ vd ++ [inventoryFilename]) (utf8 (inventoryText E inv))) (fun _ =>
        Prog.bind (Prog.look (fun s => digestAt E s (base ++ vd ++ [inventoryFilename]) o.digestAlgorithm)) (fun digest =>
        FS.writeFile (FS.resolve base (osPathJoin vdir (sidecarName o.digestAlgorithm))) (sidecarLine digest))))) s := by
  unfold writeInventoryAndSidecar
  rw [hv.resolve base, hv.resolve_in base (w := inventoryFilename) (by decide)]
  rfl

/-- A successful call. -/
theorem run_writeInv_inv {E : Env} {o : Obj} {base : Path} {inv : Inv} {vdir : Str} {vd : Path} (hv : VDir vdir vd) {s s' : FS}
    (hw : s.WF) (hb : look s base = some .dir)
    (hr : run (writeInventoryAndSidecar E o base (some inv) vdir) s = (s', .ok ())) :
    WroteInv E o.digestAlgorithm (base ++ vd) inv s s' ∧ (look s (base ++ vd) = none ∨ look s (base ++ vd) = some .dir) := by
  rw [writeInv_eq hv] at hr
  have hsb : ∀ w ∈ base, SafeName w := look_names hw hb
  have hsafe : ∀ w ∈ base ++ vd, SafeName w := by
    intro w hm
    rcases List.mem_append.mp hm with hm | hm
    · exact hsb w hm
    · cases hv with
      | root => cases hm
      | version h => rw [List.mem_singleton.mp hm]; exact h
  obtain ⟨s1, _, h1, hr⟩ := run_bind_inv hr
  obtain ⟨hw1, hd1, hc1, hl1⟩ := run_ensureDir_inv hw hsafe h1
  obtain ⟨s2, _, h2, hr⟩ := run_bind_inv hr
  have h2 : exec (.write (base ++ vd ++ [inventoryFilename]) (utf8 (inventoryText E inv))) s1 = (s2, .ok ()) := h2
  obtain ⟨_, hi1, hp1, rfl⟩ := exec_write_ok h2
  obtain ⟨s3, d, h3, hr⟩ := run_bind_inv hr
  rw [run_look] at h3
  obtain ⟨h30, h31⟩ := Prod.mk.inj h3
  subst h30
  obtain ⟨b, hb3, hfd⟩ := digestAt_ok.mp h31
  rw [look_set (by simp), if_pos rfl] at hb3
  cases hb3
  have hsc := sidecar_safe (fileDigest_noSlash hfd)
  rw [hv.resolve_in base hsc] at hr
  have hr : exec (.write (base ++ vd ++ [sidecarName o.digestAlgorithm]) (sidecarLine d)) _ = (s', .ok ()) := hr
  obtain ⟨_, hs2, hp2, rfl⟩ := exec_write_ok hr
  rw [List.dropLast_concat] at hp1 hp2
  have hw2 : FS.WF (Dict.set s1 (base ++ vd ++ [inventoryFilename]) (.file (utf8 (inventoryText E inv)))) := by
    refine WF_set hw1 (by simp) (by rw [List.dropLast_concat]; exact hp1) ?_ (fun h => absurd h hi1)
    intro w hm
    rcases List.mem_append.mp hm with hm | hm
    · exact hsafe w hm
    · rw [List.mem_singleton.mp hm]; decide
  have hl2 : look s1 (base ++ vd) = some .dir := hp1
  refine ⟨⟨?_, ⟨d, hfd, ?_⟩, ?_, ?_, ?_, ?_⟩, ?_⟩
  · refine WF_set hw2 (by simp) (by rw [List.dropLast_concat]; exact hp2) ?_ (fun h => absurd h hs2)
    intro w hm
    rcases List.mem_append.mp hm with hm | hm
    · exact hsafe w hm
    · rw [List.mem_singleton.mp hm]; exact hsc
  · rw [look_set (by simp), if_pos rfl]
  · rw [look_set (by simp), if_neg inventory_ne_sidecar, look_set (by simp), if_pos rfl]
  · rw [look_set (by simp), if_neg (Ne.symm concat_ne_self), look_set (by simp), if_neg (Ne.symm concat_ne_self)]
    exact hl2
  · rintro q (rfl | rfl) hq
    · refine hi1 ?_
      rw [hl1]; split
      · rfl
      · exact hq
    · refine hs2 ?_
      rw [look_set (by simp), if_neg (Ne.symm inventory_ne_sidecar), hl1]; split
      · rfl
      · exact hq
  · intro q q1 q2 q3
    rw [look_set (by simp), if_neg q2, look_set (by simp), if_neg q1, hl1]
    split
    · rename_i h
      obtain ⟨h, hpre⟩ := h
      rw [show look s q = some .dir from ?_]
      cases hv with
      | root => rw [List.append_nil, hb] at h; cases h
      | version hv =>
        rcases prefix_concat.mp hpre with hq | hq
        · exact absurd hq q3
        · by_cases hqb : q = base
          · rw [hqb, hb]
          · exact look_prefix hw hq hqb hb
    · rfl
  · rw [hl1] at hl2
    split at hl2
    · rename_i h; exact Or.inl h.1
    · exact Or.inr hl2

/-- When a call succeeds. -/
theorem run_writeInv_ok {E : Env} {o : Obj} {base : Path} {inv : Inv} {vdir : Str} {vd : Path} (hv : VDir vdir vd) {s : FS}
    (hw : s.WF) (hb : look s base = some .dir) (hd : look s (base ++ vd) = none ∨ look s (base ++ vd) = some .dir)
    (hi : look s (base ++ vd ++ [inventoryFilename]) ≠ some .dir)
    (hs : look s (base ++ vd ++ [sidecarName o.digestAlgorithm]) ≠ some .dir)
    (halg : ∃ d, fileDigest E.raw o.digestAlgorithm (utf8 (inventoryText E inv)) = some d) :
    ∃ s', run (writeInventoryAndSidecar E o base (some inv) vdir) s = (s', .ok ()) := by
  rw [writeInv_eq hv]
  have hsb : ∀ w ∈ base, SafeName w := look_names hw hb
  have hsafe : ∀ w ∈ base ++ vd, SafeName w := by
    intro w hm
    rcases List.mem_append.mp hm with hm | hm
    · exact hsb w hm
    · cases hv with
      | root => cases hm
      | version h => rw [List.mem_singleton.mp hm]; exact h
  have hd' : look s (base ++ vd) = some .dir ∨ (look s (base ++ vd) = none ∧ look s (base ++ vd).dropLast = some .dir) := by
    rcases hd with hd | hd
    · right
      refine ⟨hd, ?_⟩
      cases hv with
      | root => rw [List.append_nil, hb] at hd; cases hd
      | version hv => rw [List.dropLast_concat]; exact hb
    · exact Or.inl hd
  obtain ⟨s1, h1, hw1, hl1⟩ := run_ensureDir_ok hw hsafe hd'
  rw [run_bind_ok h1]
  have e1 : exec (.write (base ++ vd ++ [inventoryFilename]) (utf8 (inventoryText E inv))) s1 =
      (Dict.set s1 (base ++ vd ++ [inventoryFilename]) (.file (utf8 (inventoryText E inv))), .ok ()) := by
    apply exec_write
    · rw [hl1, if_neg concat_ne_self]; exact hi
    · rw [List.dropLast_concat, hl1, if_pos rfl]
  rw [run_bind_ok (p := FS.writeFile _ _) e1]
  obtain ⟨d, hd⟩ := halg
  rw [run_bind_ok (a := d) (s1 := Dict.set s1 (base ++ vd ++ [inventoryFilename]) (.file (utf8 (inventoryText E inv)))) (by
    rw [run_look]
    congr 1
    rw [digestAt_ok]
    exact ⟨_, by rw [look_set (by simp), if_pos rfl], hd⟩)]
  have hsc := sidecar_safe (fileDigest_noSlash hd)
  rw [hv.resolve_in base hsc]
  refine ⟨_, exec_write ?_ ?_⟩
  · rw [look_set (by simp), if_neg (Ne.symm inventory_ne_sidecar), hl1, if_neg concat_ne_self]; exact hs
  · rw [List.dropLast_concat, look_set (by simp), if_neg (Ne.symm concat_ne_self), hl1, if_pos rfl]

end Ocfl
