import Verif.Proofs.FirstVersion
import Verif.Proofs.WriteDone
import Verif.Proofs.ExtractMore
import Verif.Props.Namaste

/-!
# What a successful `create` leaves
-/

namespace Ocfl

open Spec FS Prog Ocfl.Inv

/-- The name of the declaration file. -/
def Spec.declarationName (v : Str) : Str := c!"0=ocfl_object_" ++ v

theorem tvalue_declaration {isWord : Char → Bool} (hword : WordClass isWord) {v : Str} (hv : v ∈ supported) :
    contentToTvalue isWord (c!"ocfl_object_" ++ v) = c!"ocfl_object_" ++ v := by
  have hs : ∀ v ∈ supported, strip (c!"ocfl_object_" ++ v) = c!"ocfl_object_" ++ v ∧
      (c!"ocfl_object_" ++ v).take 40 = c!"ocfl_object_" ++ v ∧
      ∀ c ∈ c!"ocfl_object_" ++ v, c.toNat < 128 ∧ (c.isAlphanum || c = '_' || c = '.') = true := by decide
  obtain ⟨h1, h2, h3⟩ := hs v hv
  unfold contentToTvalue
  rw [h1, h2]
  conv_rhs => rw [← List.map_id (c!"ocfl_object_" ++ v)]
  refine List.map_congr_left ?_
  intro c hc
  obtain ⟨h4, h5⟩ := h3 c hc
  rw [hword c h4]
  rw [if_pos]
  · rfl
  · simp only [Bool.or_eq_true, decide_eq_true_eq] at h5 ⊢
    exact Or.inl (Or.inl h5)

theorem declaration_safe {v : Str} (hv : v ∈ supported) : SafeName (declarationName v) :=
  (show ∀ v ∈ supported, SafeName (declarationName v) by decide) v hv

theorem run_writeDeclaration_inv {E : Env} (hword : WordClass E.isWord) {o : Obj} (ho : o.specVersion ∈ supported) {base : Path}
    {s s' : FS} (hr : run (writeDeclaration E o base) s = (s', .ok ())) :
    look s base = some .dir ∧ look s (base ++ [declarationName o.specVersion]) ≠ some .dir ∧
    s' = Dict.set s (base ++ [declarationName o.specVersion]) (.file (utf8 (c!"ocfl_object_" ++ o.specVersion ++ c!"\n"))) := by
  unfold writeDeclaration namasteWrite namasteFilename at hr
  rw [tvalue_declaration hword ho, osPathJoin_nil] at hr
  have e : natStr 0 ++ c!"=" ++ (c!"ocfl_object_" ++ o.specVersion) = declarationName o.specVersion := rfl
  rw [e, resolve_name base (declaration_safe ho)] at hr
  obtain ⟨_, h2, h3, h4⟩ := exec_write_ok (show exec (.write _ _) s = (s', .ok ()) from hr)
  rw [List.dropLast_concat] at h3
  exact ⟨h3, h2, h4⟩

theorem run_writeDeclaration_ok {E : Env} (hword : WordClass E.isWord) {o : Obj} (ho : o.specVersion ∈ supported) {base : Path}
    {s : FS} (hb : look s base = some .dir) (hd : look s (base ++ [declarationName o.specVersion]) ≠ some .dir) :
    run (writeDeclaration E o base) s =
      (Dict.set s (base ++ [declarationName o.specVersion]) (.file (utf8 (c!"ocfl_object_" ++ o.specVersion ++ c!"\n"))), .ok ()) := by
  unfold writeDeclaration namasteWrite namasteFilename
  rw [tvalue_declaration hword ho, osPathJoin_nil]
  have e : natStr 0 ++ c!"=" ++ (c!"ocfl_object_" ++ o.specVersion) = declarationName o.specVersion := rfl
  rw [e, resolve_name base (declaration_safe ho)]
  exact exec_write hd (by rw [List.dropLast_concat]; exact hb)

/-- What the creation of an object leaves. -/
structure Created (E : Env) (o : Obj) (base src : Path) (head : Str) (nv : NV) (s s' : FS) : Prop where
  wf : s'.WF
  isDir : look s' base = some .dir
  headDir : look s' (base ++ [head]) = some .dir
  files : ∀ e ∈ nv.filesToCopy, ∃ b, look s (FS.resolve src e.1) = some (.file b) ∧ look s' (FS.resolve base e.2) = some (.file b)
  dirs : ∀ e ∈ nv.filesToCopy, ∀ q, q <+: (FS.resolve base e.2).dropLast → look s' q = some .dir
  digest : ∃ d, fileDigest E.raw o.digestAlgorithm (utf8 (inventoryText E nv.inv)) = some d ∧
    ∀ dir, dir = base ∨ dir = base ++ [head] → look s' (dir ++ [sidecarName o.digestAlgorithm]) = some (.file (sidecarLine d))
  inventory : ∀ dir, dir = base ∨ dir = base ++ [head] →
    look s' (dir ++ [inventoryFilename]) = some (.file (utf8 (inventoryText E nv.inv)))
  declaration : look s' (base ++ [declarationName o.specVersion]) =
    some (.file (utf8 (c!"ocfl_object_" ++ o.specVersion ++ c!"\n")))
  rest : ∀ q, q ≠ base → q ≠ base ++ [head] → ¬ InventoryFile base o.digestAlgorithm q →
    ¬ InventoryFile (base ++ [head]) o.digestAlgorithm q → q ≠ base ++ [declarationName o.specVersion] →
    (∀ e ∈ nv.filesToCopy, ¬ q <+: FS.resolve base e.2) → look s' q = look s q
  outside : ∀ q, ¬ base <+: q → look s' q = look s q

theorem head_first {w head : Str} {c : Char} (hv : head.head? = some 'v') (hc : w.head? = some c) (hne : c ≠ 'v') (base : Path) :
    base ++ [w] ≠ base ++ [head] := by
  intro h
  rw [List.append_cancel_left_eq] at h
  simp only [List.cons.injEq, and_true] at h
  rw [h, hv] at hc
  exact hne (Option.some.inj hc).symm

theorem declaration_ne {base : Path} {v w : Str} {c : Char} (hw : w.head? = some c) (hc : c ≠ '0') :
    base ++ [w] ≠ base ++ [declarationName v] := by
  intro h
  rw [List.append_cancel_left_eq] at h
  simp only [List.cons.injEq, and_true] at h
  rw [h] at hw
  exact hc (Option.some.inj hw).symm

theorem writeFirst_ok_inv {E : Env} (hword : WordClass E.isWord) (hcwd : ∀ w ∈ E.cwd, SafeName w) {o : Obj} (ho : o.specVersion ∈ supported)
    {src : Path} {nv : NV} {objdir : Str} {s s' : FS} (hw : s.WF) (hq : QueueReady c!"v1" nv.filesToCopy)
    (hbase : look s (absComps E.cwd objdir) = none ∨ look s (absComps E.cwd objdir) = some .dir)
    (hsrc : ∀ e ∈ nv.filesToCopy, ¬ absComps E.cwd objdir <+: FS.resolve src e.1)
    (hr : run (writeFirst E o src nv objdir) s = (s', .ok ())) :
    Created E o (absComps E.cwd objdir) src c!"v1" nv s s' := by
  unfold writeFirst at hr
  have hh : SafeName c!"v1" := by decide
  have hv : (c!"v1" : Str).head? = some 'v' := rfl
  generalize hhead : (c!"v1" : Str) = head at *
  obtain ⟨s1, base, h1, hr⟩ := run_bind_inv hr
  obtain ⟨hbe, w1, hp, hpar, l1⟩ := run_openObjCreate hcwd hw h1
  subst hbe
  generalize hB : absComps E.cwd objdir = base at *
  have hd1 : look s1 base = some .dir := by
    rw [l1]
    split
    · rfl
    · rename_i h
      rcases hbase with h' | h'
      · exact absurd ⟨rfl, h'⟩ h
      · exact h'
  have k1 : ∀ q, q ≠ base → look s1 q = look s q := by
    intro q hq
    rw [l1, if_neg]
    rintro ⟨h, _⟩; exact hq h
  obtain ⟨s2, _, h2, hr⟩ := run_bind_inv hr
  obtain ⟨i2, -⟩ := run_writeInv_inv (VDir.version hh) w1 hd1 h2
  obtain ⟨s3, _, h3, hr⟩ := run_bind_inv hr
  obtain ⟨hd2, hnd2, rfl⟩ := run_writeDeclaration_inv hword ho h3
  have hD : base ++ [declarationName o.specVersion] ≠ [] := by simp
  have hsafe : ∀ w ∈ base, SafeName w := look_names w1 hd1
  have w3 : FS.WF (Dict.set s2 (base ++ [declarationName o.specVersion]) (.file (utf8 (c!"ocfl_object_" ++ o.specVersion ++ c!"\n")))) := by
    refine WF_set i2.wf hD (by rw [List.dropLast_concat]; exact hd2) ?_ (fun h => absurd h hnd2)
    intro w hm
    rcases List.mem_append.mp hm with hm | hm
    · exact hsafe w hm
    · rw [List.mem_singleton.mp hm]; exact declaration_safe ho
  obtain ⟨s4, _, h4, hr⟩ := run_bind_inv hr
  have hd3 : look (Dict.set s2 (base ++ [declarationName o.specVersion]) (.file (utf8 (c!"ocfl_object_" ++ o.specVersion ++ c!"\n")))) base = some .dir := by
    rw [look_set hD, if_neg (Ne.symm concat_ne_self)]; exact hd2
  obtain ⟨i4, -⟩ := run_writeInv_inv VDir.root w3 hd3 h4
  rw [List.append_nil] at i4
  have hdisj : ∀ e ∈ nv.filesToCopy, ∀ e' ∈ nv.filesToCopy, FS.resolve src e.1 ≠ FS.resolve base e'.2 := by
    intro e he e' he' heq
    refine hsrc e he ?_
    rw [heq]
    exact (List.prefix_append _ _).trans (hq.apart hh base he').2.2.2.1
  have c5 := run_copyAll_inv hh hq i4.wf hsafe hdisj hr
  -- what the steps before copying leave
  have hi : (inventoryFilename : Str).head? = some 'i' := rfl
  have hsi : (sidecarName o.digestAlgorithm : Str).head? = some 'i' := rfl
  have hdv : (declarationName o.specVersion : Str).head? = some '0' := rfl
  have l4 : ∀ q, q ≠ base → q ≠ base ++ [head] → ¬ InventoryFile base o.digestAlgorithm q →
      ¬ InventoryFile (base ++ [head]) o.digestAlgorithm q → q ≠ base ++ [declarationName o.specVersion] → look s4 q = look s q := by
    intro q q1 q2 q3 q4 q5
    rw [i4.rest q (fun h => q3 (Or.inl h)) (fun h => q3 (Or.inr h)) q1, look_set hD, if_neg q5,
      i2.rest q (fun h => q4 (Or.inl h)) (fun h => q4 (Or.inr h)) q2, k1 q q1]
  have hdecl4 : look s4 (base ++ [declarationName o.specVersion]) = some (.file (utf8 (c!"ocfl_object_" ++ o.specVersion ++ c!"\n"))) := by
    rw [i4.rest _ (Ne.symm (declaration_ne hi (by decide))) (Ne.symm (declaration_ne hsi (by decide))) concat_ne_self,
      look_set hD, if_pos rfl]
  have hv4 : ∀ w, look s4 (base ++ [head] ++ [w]) = look s2 (base ++ [head] ++ [w]) := by
    intro w
    have hne : base ++ [head] ++ [w] ≠ base := by
      intro h; have := congrArg List.length h; simp at this
    rw [i4.rest _ two_ne_one two_ne_one hne, look_set hD, if_neg two_ne_one]
  have hhd4 : look s4 (base ++ [head]) = some .dir := by
    rw [i4.rest _ (Ne.symm (inventory_ne_head hv)) (Ne.symm (sidecar_ne_head hv)) concat_ne_self, look_set hD,
      if_neg (declaration_ne hv (by decide)), i2.isDir]
  -- a file written before is not in the way
  have keep : ∀ q b, look s4 q = some (.file b) → (∀ e ∈ nv.filesToCopy, q ≠ FS.resolve base e.2) → look s' q = some (.file b) := by
    intro q b hl hne
    rw [c5.rest q ?_, hl]
    intro e he hpre
    have := prefix_dropLast hpre (hne e he)
    rcases c5.clear e he q this with h | h <;> rw [hl] at h <;> cases h
  have keepd : ∀ q, look s4 q = some .dir → look s' q = some .dir := by
    intro q hl
    by_cases hall : ∀ e ∈ nv.filesToCopy, ¬ q <+: FS.resolve base e.2
    · rw [c5.rest q hall, hl]
    · simp only [not_forall, not_not] at hall
      obtain ⟨e, he, hpre⟩ := hall
      by_cases hqe : q = FS.resolve base e.2
      · exfalso
        rw [hqe] at hl
        exact c5.notDir e he hl
      · exact c5.dirs e he q (prefix_dropLast hpre hqe)
  refine ⟨c5.wf, keepd _ i4.isDir, keepd _ hhd4, ?_, c5.dirs, ?_, ?_, keep _ _ hdecl4 (fun e he h => (hq.apart hh base he).2.1 _ h.symm),
    ?_, ?_⟩
  · intro e he
    obtain ⟨b, hb1, hb2⟩ := c5.files e he
    refine ⟨b, ?_, hb2⟩
    have hnp := hsrc e he
    rw [l4] at hb1
    · exact hb1
    · intro h; exact hnp (by rw [h]; exact List.prefix_rfl)
    · intro h; exact hnp (by rw [h]; exact List.prefix_append _ _)
    · rintro (h | h) <;> exact hnp (by rw [h]; exact List.prefix_append _ _)
    · rintro (h | h) <;> exact hnp (by rw [h, List.append_assoc]; exact List.prefix_append _ _)
    · intro h; exact hnp (by rw [h]; exact List.prefix_append _ _)
  · obtain ⟨d, hd, hl⟩ := i4.digest
    obtain ⟨d', hd', hl'⟩ := i2.digest
    rw [hd] at hd'
    cases hd'
    refine ⟨d, hd, ?_⟩
    rintro dir (rfl | rfl)
    · exact keep _ _ hl (fun e he h => (hq.apart hh dir he).2.1 _ h.symm)
    · exact keep _ _ (by rw [hv4]; exact hl') (fun e he h => (hq.apart hh base he).1 _ h.symm)
  · rintro dir (rfl | rfl)
    · exact keep _ _ i4.inventory (fun e he h => (hq.apart hh dir he).2.1 _ h.symm)
    · exact keep _ _ (by rw [hv4]; exact i2.inventory) (fun e he h => (hq.apart hh base he).1 _ h.symm)
  · intro q q1 q2 q3 q4 q5 q6
    rw [c5.rest q q6, l4 q q1 q2 q3 q4 q5]
  · intro q hq'
    have n1 : q ≠ base := by rintro rfl; exact hq' List.prefix_rfl
    have e4 : look s4 q = look s q := by
      refine l4 q n1 ?_ ?_ ?_ ?_
      · rintro rfl; exact hq' (List.prefix_append _ _)
      · rintro (rfl | rfl) <;> exact hq' (List.prefix_append _ _)
      · rintro (rfl | rfl) <;> exact hq' (by rw [List.append_assoc]; exact List.prefix_append _ _)
      · rintro rfl; exact hq' (List.prefix_append _ _)
    by_cases hqb : q <+: base
    · have : look s4 q = some .dir := look_prefix i4.wf hqb n1 i4.isDir
      rw [keepd q this, ← e4, this]
    · rw [c5.rest q ?_, e4]
      intro e he hpre
      obtain ⟨cd, ws, _, _, _, h4', _⟩ := hq.dst hh base he
      rw [h4'] at hpre
      rcases prefix_split hpre with h | h
      · exact hqb h
      · exact hq' ((List.prefix_append _ _).trans h)

end Ocfl
