import Verif.Proofs.Sound
import Verif.Proofs.Extract

/-!
# When `create` succeeds
-/

namespace Ocfl

open Spec FS Prog Inv

theorem firstVersion_succeeds {id sv alg cd : Str} {metadata : Option VBlock} {dedupe : Bool} {fixity : List Str} {norm : Option Str}
    (hfx : ∀ t ∈ fixity, KnownAlg t) : ∃ nv, NV.firstVersion id sv (some alg) (some cd) metadata dedupe fixity norm = .ok nv := by
  unfold NV.firstVersion
  simp only
  obtain ⟨fx', e1, _⟩ := foldl_fixity hfx (Inv.initManifestAndVersions
    { Inv.setSpecVersion { id := some id } sv with digestAlgorithm := some alg }) (fun fx hf => by cases hf)
  rw [e1]
  have hadd : ∀ inv : Inv, inv.versions = some [] →
      inv.addVersion none metadata none none = .ok { inv with versions := some [(c!"v1", metadata.getD {})], head := some c!"v1" } := by
    intro inv hv
    have hvd : inv.versionsD = [] := by unfold Inv.versionsD; rw [hv]; rfl
    unfold Inv.addVersion Inv.nextVersionDir Inv.versionDirectories
    rw [hvd]
    rfl
  rw [hadd _ rfl]
  exact ⟨_, rfl⟩

theorem prepareFirst_succeeds {E : Env} {o : Obj} (ho : GoodSettings o) (hid : o.id ≠ none)
    (hnorm : o.norm = none ∨ o.norm = some c!"md5" ∨ o.norm = some c!"uri") {srcdir : Str} {metadata : Option VBlock}
    (hmeta : GoodMeta metadata) {s : FS} (hw : s.WF) (hsrc : look s (absComps E.cwd srcdir) = some .dir) :
    ∃ nv, prepareFirst E o srcdir metadata s = .ok (absComps E.cwd srcdir, nv) := by
  obtain ⟨id, hid⟩ := Option.ne_none_iff_exists'.mp hid
  have hfx : ∀ t ∈ o.fixity.getD [], KnownAlg t := by
    cases hf : o.fixity with
    | none => simp
    | some l => exact ho.fixity l hf
  obtain ⟨nv0, h0⟩ := firstVersion_succeeds (id := id) (sv := o.specVersion) (alg := o.digestAlgorithm) (cd := o.contentDirectory)
    (metadata := metadata) (dedupe := o.dedupe) (norm := o.norm) hfx
  obtain ⟨g, h1, _⟩ := ground_first (by rintro rfl; exact ho.id hid) ho.specVersion ho.algorithm
    ⟨ho.contentDirectory.2.2.2, ho.contentDirectory.2.1, ho.contentDirectory.2.2.1⟩ hfx hmeta h0
  obtain ⟨nv, ha⟩ := addFromSrcdir_succeeds (E := E) hw hsrc g.building ⟨_, g.manifest⟩ g.queue g.stateOf (by rw [h1]; exact hnorm)
    (fun b => ⟨_, by rw [g.algorithm]; exact fileDigest_known E.raw ho.algorithm b⟩)
  refine ⟨nv, ?_⟩
  unfold prepareFirst fswOpen
  rw [hid]
  have hd : isdir s (absComps E.cwd srcdir) = true := by unfold isdir; rw [hsrc]; rfl
  simp only [hd, if_true, h0, ha]

/-- Copying the queue of a new version succeeds: nothing is in the version directory but the inventory and its sidecar, which are not
where the content directory is. -/
theorem copyQueue_succeeds {base src : Path} {head cd : Str} {files : Dict Str Str} (hh : SafeName head) (hq : QueueReady head files)
    {f : Str → List Str} (hf : ∀ x ∈ files, f x.2 ≠ [] ∧ (∀ w ∈ f x.2, SafeName w) ∧ x.2 = pathOf (head :: cd :: f x.2))
    (hcd : SafeName cd) (hap : ∀ x ∈ files, ∀ y ∈ files, f x.2 <+: f y.2 → x = y) {s : FS} (hw : s.WF) (hsafe : ∀ w ∈ base, SafeName w)
    (hdisj : ∀ e ∈ files, ∀ e' ∈ files, FS.resolve src e.1 ≠ FS.resolve base e'.2)
    (hdir : look s (base ++ [head]) = some .dir) (hnone : ∀ r, look s (base ++ head :: cd :: r) = none)
    (hsrc : ∀ e ∈ files, ∃ b, look s (FS.resolve src e.1) = some (.file b)) :
    ∃ s', run (copyAll base src files) s = (s', .ok ()) := by
  have hres : ∀ x ∈ files, FS.resolve base x.2 = base ++ head :: cd :: f x.2 := by
    intro x hx
    obtain ⟨h1, h2, h3⟩ := hf x hx
    conv_lhs => rw [h3]
    refine resolve_pathOf base ?_
    intro w hw
    rcases List.mem_cons.mp hw with rfl | hw
    · exact hh
    · rcases List.mem_cons.mp hw with rfl | hw
      · exact hcd
      · exact h2 w hw
  unfold copyAll
  refine forEach_places_ok (D := []) files (src := fun e => FS.resolve src e.1) (dst := fun e => FS.resolve base e.2)
    (fun e he => copyInto_places hh hq hsafe hdisj he) hdisj ?_ s hw (look_nil s) ?_
  · intro x hx y hy hp
    have h1 := (hf y hy).1
    rw [hres x hx, hres y hy] at hp
    have h2 := hp.trans (List.dropLast_prefix _)
    rw [List.prefix_append_right_inj, List.cons_prefix_cons, List.cons_prefix_cons] at h2
    have he := hap x hx y hy h2.2.2
    subst he
    have := hp.length_le
    simp only [List.length_dropLast, List.length_append, List.length_cons] at this
    omega
  · intro e he
    have h1 := (hf e he).1
    refine ⟨hsrc e he, ?_, ?_, ?_⟩
    · show FS.resolve base e.2 ≠ []
      rw [hres e he]; simp
    · show look s (FS.resolve base e.2) ≠ _
      rw [hres e he, hnone]; simp
    · show Clear s (FS.resolve base e.2).dropLast
      rw [hres e he]
      intro q hq
      by_cases hb : q <+: base ++ [head]
      · exact clear_of_dir hw hdir q hb
      · refine Or.inl ?_
        have hq2 := hq.trans (List.dropLast_prefix _)
        have hlt : base ++ [head] <+: q := by
          rcases List.prefix_or_prefix_of_prefix hq2 (show base ++ [head] <+: base ++ head :: cd :: f e.2 from ⟨cd :: f e.2, by simp⟩) with h | h
          · exact absurd h hb
          · exact h
        obtain ⟨r, rfl⟩ := hlt
        cases r with
        | nil => exact absurd (by simp) hb
        | cons w r =>
          rw [List.append_assoc, List.prefix_append_right_inj] at hq2
          have h3 : w = cd := by
            obtain ⟨t, ht⟩ := hq2
            exact (List.cons.inj (List.cons.inj ht).2).1
          subst h3
          rw [List.append_assoc]
          exact hnone r

/-- Writing a new object succeeds. -/
theorem writeFirst_succeeds {E : Env} (hword : WordClass E.isWord) (hcwd : ∀ w ∈ E.cwd, SafeName w) {o : Obj} (ho : GoodSettings o)
    {src : Path} {nv : NV} {objdir : Str} {s : FS} (hw : s.WF) (hvac : Vacant s (absComps E.cwd objdir))
    (hpar : look s (absComps E.cwd (osPathSplit objdir).1) = some .dir) {head cd : Str} (hhead : head = c!"v1") (hq : QueueReady head nv.filesToCopy)
    {f : Str → List Str} (hf : ∀ x ∈ nv.filesToCopy, f x.2 ≠ [] ∧ (∀ w ∈ f x.2, SafeName w) ∧ x.2 = pathOf (head :: cd :: f x.2))
    (hcd : SafeName cd) (hap : ∀ x ∈ nv.filesToCopy, ∀ y ∈ nv.filesToCopy, f x.2 <+: f y.2 → x = y)
    (hci : cd ≠ inventoryFilename) (hcs : cd ≠ sidecarName o.digestAlgorithm)
    (hsrc : ∀ e ∈ nv.filesToCopy, ∃ b, look s (FS.resolve src e.1) = some (.file b)) :
    ∃ s', run (writeFirst E o src nv objdir) s = (s', .ok ()) := by
  have hh : SafeName head := by subst hhead; decide
  have hv : head.head? = some 'v' := by subst hhead; rfl
  unfold writeFirst
  rw [← hhead]
  obtain ⟨s1, h1⟩ := run_openObjCreate_ok hcwd hw hpar
  obtain ⟨_, w1, _, _, l1⟩ := run_openObjCreate hcwd hw h1
  rw [run_bind_ok h1]
  generalize absComps E.cwd objdir = base at *
  have hd1 : look s1 base = some .dir := by
    rw [l1]
    split
    · rfl
    · rename_i h
      rcases hvac.1 with h' | h'
      · exact absurd ⟨rfl, h'⟩ h
      · exact h'
  have k1 : ∀ q, q ≠ base → look s1 q = look s q := by
    intro q hq
    rw [l1, if_neg]
    rintro ⟨h, _⟩; exact hq h
  have n1 : ∀ r, r ≠ [] → look s1 (base ++ r) = none := by
    intro r hr
    rw [k1 _ (by simpa using hr)]
    exact hvac.2 r hr
  have hdig := fileDigest_known E.raw ho.algorithm (utf8 (inventoryText E nv.inv))
  obtain ⟨s2, h2⟩ := run_writeInv_ok (o := o) (inv := nv.inv) (VDir.version hh) w1 hd1 (Or.inl (n1 _ (by simp)))
    (by rw [List.append_assoc, n1 _ (by simp)]; simp) (by rw [List.append_assoc, n1 _ (by simp)]; simp) ⟨_, hdig⟩
  rw [run_bind_ok h2]
  obtain ⟨i2, -⟩ := run_writeInv_inv (VDir.version hh) w1 hd1 h2
  have hb2 : look s2 base = some .dir := by
    have := i2.isDir
    simpa using look_parent i2.wf this
  have hi : (inventoryFilename : Str).head? = some 'i' := rfl
  have hsi : (sidecarName o.digestAlgorithm : Str).head? = some 'i' := rfl
  have hdv : (declarationName o.specVersion : Str).head? = some '0' := rfl
  have hl : ∀ (w x y : Str), base ++ [w] ≠ base ++ [x] ++ [y] := by
    intro w x y he
    have := congrArg List.length he
    simp at this
  have n2 : ∀ w, w ≠ head → look s2 (base ++ [w]) = none := by
    intro w hwh
    rw [i2.rest _ (hl _ _ _) (hl _ _ _) (by intro he; exact hwh (by simpa using he))]
    exact n1 _ (by simp)
  have hdn : declarationName o.specVersion ≠ head := by
    rintro he; rw [he, hv] at hdv; cases hdv
  have hin : inventoryFilename ≠ head := by
    rintro he; rw [he, hv] at hi; cases hi
  have hsn : sidecarName o.digestAlgorithm ≠ head := by
    rintro he; rw [he, hv] at hsi; cases hsi
  have h3 := run_writeDeclaration_ok hword ho.specVersion hb2 (by rw [n2 _ hdn]; simp)
  rw [run_bind_ok h3]
  have hsafe : ∀ w ∈ base, SafeName w := look_names w1 hd1
  have hD : base ++ [declarationName o.specVersion] ≠ [] := by simp
  generalize hs3 : Dict.set s2 (base ++ [declarationName o.specVersion]) (.file (utf8 (c!"ocfl_object_" ++ o.specVersion ++ c!"\n"))) = s3
  have l3 : ∀ q, q ≠ base ++ [declarationName o.specVersion] → look s3 q = look s2 q := by
    intro q hq
    rw [← hs3, look_set hD, if_neg hq]
  have w3 : FS.WF s3 := by
    rw [← hs3]
    refine WF_set i2.wf hD (by rw [List.dropLast_concat]; exact hb2) ?_ (fun h => absurd h (by rw [n2 _ hdn]; simp))
    intro w hm
    rcases List.mem_append.mp hm with hm | hm
    · exact hsafe w hm
    · rw [List.mem_singleton.mp hm]; exact declaration_safe ho.specVersion
  have hb3 : look s3 base = some .dir := by rw [l3 _ (Ne.symm concat_ne_self)]; exact hb2
  have n3 : ∀ w, w ≠ head → w ≠ declarationName o.specVersion → look s3 (base ++ [w]) = none := by
    intro w hw1 hw2
    rw [l3 _ (by intro he; exact hw2 (by simpa using he))]
    exact n2 w hw1
  have hid : inventoryFilename ≠ declarationName o.specVersion := by
    rintro he; rw [he] at hi; cases hi
  have hsd : sidecarName o.digestAlgorithm ≠ declarationName o.specVersion := by
    rintro he; rw [he] at hsi; cases hsi
  obtain ⟨s4, h4⟩ := run_writeInv_ok (o := o) (inv := nv.inv) VDir.root w3 hb3 (Or.inr (by rw [List.append_nil]; exact hb3))
    (by rw [List.append_nil, n3 _ hin hid]; simp) (by rw [List.append_nil, n3 _ hsn hsd]; simp) ⟨_, hdig⟩
  rw [run_bind_ok h4]
  obtain ⟨i4, -⟩ := run_writeInv_inv VDir.root w3 hb3 h4
  rw [List.append_nil] at i4
  have hlong : ∀ {w x : Str} {r : Path}, r ≠ [] → base ++ w :: r ≠ base ++ [x] := by
    intro w x r hr he
    have h1 := congrArg List.length he
    have h2 := List.length_pos_iff.mpr hr
    simp only [List.length_append, List.length_cons, List.length_nil] at h1
    omega
  -- the version directory
  have l4 : ∀ q, q ≠ base ++ [inventoryFilename] → q ≠ base ++ [sidecarName o.digestAlgorithm] → q ≠ base →
      q ≠ base ++ [declarationName o.specVersion] → look s4 q = look s2 q := by
    intro q q1 q2 q3 q4
    rw [i4.rest q q1 q2 q3, l3 q q4]
  have hcons : ∀ w, w ≠ head → base ++ [head] ≠ base ++ [w] := by
    intro w hw he
    exact hw (by simpa using he.symm)
  have hdir : look s4 (base ++ [head]) = some .dir := by
    rw [l4 _ (hcons _ hin) (hcons _ hsn) concat_ne_self (hcons _ hdn)]
    exact i2.isDir
  have hnone : ∀ r, look s4 (base ++ head :: cd :: r) = none := by
    intro r
    rw [l4 _ (hlong (by simp)) (hlong (by simp)) (by simp) (hlong (by simp)), i2.rest]
    · exact n1 _ (by simp)
    · intro he
      rw [List.append_assoc, List.append_cancel_left_eq] at he
      exact hci (List.cons.inj (List.cons.inj he).2).1
    · intro he
      rw [List.append_assoc, List.append_cancel_left_eq] at he
      exact hcs (List.cons.inj (List.cons.inj he).2).1
    · exact hlong (by simp)
  have hout : ∀ q b, look s q = some (.file b) → ¬ base <+: q := by
    rintro q b hl ⟨r, rfl⟩
    by_cases hr : r = []
    · subst hr
      rw [List.append_nil] at hl
      rcases hvac.1 with h | h <;> (rw [h] at hl; cases hl)
    · rw [hvac.2 r hr] at hl; cases hl
  have hkept : ∀ q b, look s q = some (.file b) → look s4 q = some (.file b) := by
    intro q b hl
    have ho := hout q b hl
    have hne : ∀ r, q ≠ base ++ r := fun r he => ho ⟨r, he.symm⟩
    rw [l4 q (hne _) (hne _) (by intro he; exact hne [] (by rw [List.append_nil]; exact he)) (hne _), i2.rest q (by rw [List.append_assoc]; exact hne _)
      (by rw [List.append_assoc]; exact hne _) (hne _), k1 q (by intro he; exact hne [] (by rw [List.append_nil]; exact he))]
    exact hl
  refine copyQueue_succeeds hh hq hf hcd hap i4.wf hsafe ?_ hdir hnone ?_
  · intro e he e' he' heq
    obtain ⟨b, hb⟩ := hsrc e he
    refine hout _ b hb ?_
    rw [heq]
    exact (List.prefix_append _ _).trans (hq.apart hh base he').2.2.2.1
  · intro e he
    obtain ⟨b, hb⟩ := hsrc e he
    exact ⟨b, hkept _ b hb⟩

/-- `create` succeeds. -/
theorem create_succeeds {E : Env} (hhash : HashLib E.raw) (hword : WordClass E.isWord) (hcwd : ∀ w ∈ E.cwd, SafeName w) {o : Obj} (ho : GoodSettings o)
    (hid : o.id ≠ none) (hnorm : o.norm = none ∨ o.norm = some c!"md5" ∨ o.norm = some c!"uri")
    (hci : o.contentDirectory ≠ inventoryFilename) (hcs : o.contentDirectory ≠ sidecarName o.digestAlgorithm)
    {srcdir objdir : Str} {metadata : Option VBlock} (hmeta : GoodMeta metadata) {s : FS} (hw : s.WF)
    (hsrc : look s (absComps E.cwd srcdir) = some .dir) (hvac : Vacant s (absComps E.cwd objdir))
    (hpar : look s (absComps E.cwd (osPathSplit objdir).1) = some .dir) :
    ∃ s' inv, run (create E o srcdir metadata (some objdir)) s = (s', .ok inv) := by
  obtain ⟨nv, hp⟩ := prepareFirst_succeeds ho hid hnorm hmeta hw hsrc
  obtain ⟨nv0, srcs, hff⟩ := prepareFirst_ok hw ho hmeta hp
  have hcd : nv0.inv.contentDirectoryToUse ≠ [] := by rw [hff.contentDirectory]; exact ho.contentDirectory.1
  have hx := hexNames_srcEnv hhash s (absComps E.cwd srcdir)
  have hq := hff.ground.queueReady hff.added hff.source.names hx hcd
  obtain ⟨f, hf, hap⟩ := hff.ground.queueSegs hff.added hff.source.names hx hcd
  rw [hff.contentDirectory] at hf
  obtain ⟨s', hr⟩ := writeFirst_succeeds (src := absComps E.cwd srcdir) (nv := nv) hword hcwd ho hw hvac hpar (head := styleName none 1) (by decide) hq
    (fun x hx => ⟨(hf x hx).1, (hf x hx).2.1, (hf x hx).2.2.1⟩) ho.contentDirectory hap hci hcs (by
      intro e he
      obtain ⟨r, b, h1, h2⟩ := (hff.source.files e.1).mp (hff.added.queueDone e he)
      rw [h2, resolve_join _ ((treeOK_below hw _).names r b h1).2]
      exact ⟨b, h1.2⟩)
  refine ⟨s', nv.inv, ?_⟩
  unfold create
  have hl : run (Prog.look (prepareFirst E o srcdir metadata)) s = (s, .ok (absComps E.cwd srcdir, nv)) := by rw [run_look, hp]
  rw [run_bind_ok hl]
  show run (Prog.bind (writeFirst E o (absComps E.cwd srcdir) nv objdir) _) s = _
  rw [run_bind_ok hr]
  rfl

end Ocfl
