import Verif.Proofs.PlainCalls
import Verif.Proofs.WriteInv

/-!
# What a successful `write_new_version` leaves
-/

namespace Ocfl

open Spec FS Prog Ocfl.Inv

theorem Prog.bind_assoc {α β γ : Type} (p : Prog α) (f : α → Prog β) (g : β → Prog γ) :
    Prog.bind (Prog.bind p f) g = Prog.bind p (fun a => Prog.bind (f a) g) := by
  induction p with
  | ret r => cases r <;> rfl
  | get k ih => show Prog.get _ = Prog.get _; congr 1; funext s; exact ih s
  | op o k ih => show Prog.op _ _ = Prog.op _ _; congr 1; funext r; exact ih r

/-! ## Copying the queued files -/

/-- A queue of files of `src` for the version directory `head` in `base`: source and content paths
are plain, the content paths are different and lie deeper than the version directory itself. -/
structure QueueReady (head : Str) (files : Dict Str Str) : Prop where
  source : ∀ e ∈ files, PlainPath e.1
  content : ∀ e ∈ files, ∃ cd ws, ws ≠ [] ∧ (∀ w ∈ cd :: ws, SafeName w) ∧ e.2 = pathOf (head :: cd :: ws)
  nodup : (files.map Prod.snd).Nodup

theorem QueueReady.inside {head : Str} {files : Dict Str Str} (h : QueueReady head files) : QueueInside head files := by
  intro e he
  obtain ⟨cd, ws, h1, h2, h3⟩ := h.content e he
  exact ⟨cd :: ws, by simp, h2, h3⟩

theorem QueueReady.dst {head : Str} {files : Dict Str Str} (h : QueueReady head files) (hh : SafeName head) (base : Path)
    {e : Str × Str} (he : e ∈ files) :
    ∃ cd ws, ws ≠ [] ∧ (∀ w ∈ head :: cd :: ws, SafeName w) ∧ e.2 = pathOf (head :: cd :: ws) ∧
      FS.resolve base e.2 = base ++ head :: cd :: ws ∧ FS.resolve base (osDirname e.2) = (base ++ head :: cd :: ws).dropLast := by
  obtain ⟨cd, ws, h1, h2, h3⟩ := h.content e he
  have hs : ∀ w ∈ head :: cd :: ws, SafeName w := by
    intro w hw
    rcases List.mem_cons.mp hw with rfl | hw
    · exact hh
    · exact h2 w hw
  refine ⟨cd, ws, h1, hs, h3, by rw [h3, resolve_pathOf base hs], ?_⟩
  rw [h3, resolve_dirname hs (by simp), List.dropLast_append_of_ne_nil (by simp)]

theorem QueueReady.dst_nodup {head : Str} {files : Dict Str Str} (h : QueueReady head files) (hh : SafeName head) (base : Path) :
    (files.map (fun e => FS.resolve base e.2)).Nodup := by
  have h1 : (files.map Prod.snd).Nodup := h.nodup
  have e : files.map (fun e => FS.resolve base e.2) = (files.map Prod.snd).map (FS.resolve base) := by
    rw [List.map_map]; rfl
  rw [e]
  refine List.Nodup.map_on ?_ h1
  intro x hx y hy hxy
  obtain ⟨a, ha, rfl⟩ := List.mem_map.mp hx
  obtain ⟨b, hb, rfl⟩ := List.mem_map.mp hy
  obtain ⟨cd, ws, _, _, ha2, ha3, _⟩ := h.dst hh base ha
  obtain ⟨cd', ws', _, _, hb2, hb3, _⟩ := h.dst hh base hb
  rw [ha3, hb3, List.append_cancel_left_eq] at hxy
  rw [ha2, hb2, hxy]

/-- What copying the queue leaves. -/
structure Copied (base src : Path) (queue : Dict Str Str) (s s' : FS) : Prop where
  wf : s'.WF
  files : ∀ e ∈ queue, ∃ b, look s (FS.resolve src e.1) = some (.file b) ∧ look s' (FS.resolve base e.2) = some (.file b)
  dirs : ∀ e ∈ queue, ∀ q, q <+: (FS.resolve base e.2).dropLast → look s' q = some .dir
  rest : ∀ q, (∀ e ∈ queue, ¬ q <+: FS.resolve base e.2) → look s' q = look s q
  clear : ∀ e ∈ queue, Clear s (FS.resolve base e.2).dropLast
  notDir : ∀ e ∈ queue, look s (FS.resolve base e.2) ≠ some .dir

theorem copyInto_places {base src : Path} {head : Str} {files : Dict Str Str} (hh : SafeName head) (h : QueueReady head files)
    (hsafe : ∀ w ∈ base, SafeName w) (hdisj : ∀ e ∈ files, ∀ e' ∈ files, FS.resolve src e.1 ≠ FS.resolve base e'.2)
    {e : Str × Str} (he : e ∈ files) :
    PlacesFile [] (copyIntoObject base src e.1 e.2) (FS.resolve src e.1) (FS.resolve base e.2) := by
  obtain ⟨cd, ws, h1, h2, h3, h4, h5⟩ := h.dst hh base he
  unfold copyIntoObject
  rw [h5, h4]
  refine places_if_missing (by rw [← h4]; exact hdisj e he e he) ?_ false
  intro w hw
  rcases List.mem_append.mp hw with hw | hw
  · exact hsafe w hw
  · exact h2 w hw

theorem run_copyAll_inv {base src : Path} {head : Str} {files : Dict Str Str} (hh : SafeName head) (h : QueueReady head files)
    {s s' : FS} (hw : s.WF) (hsafe : ∀ w ∈ base, SafeName w)
    (hdisj : ∀ e ∈ files, ∀ e' ∈ files, FS.resolve src e.1 ≠ FS.resolve base e'.2)
    (hr : run (copyAll base src files) s = (s', .ok ())) : Copied base src files s s' := by
  obtain ⟨h1, h2, h3, h4, h5⟩ := forEach_places (ι := Str × Str) (step := fun e => copyIntoObject base src e.1 e.2)
    (src := fun e => FS.resolve src e.1) (dst := fun e => FS.resolve base e.2) (D := []) files
    (fun e he => copyInto_places hh h hsafe hdisj he) hdisj (h.dst_nodup hh base) s s' hw (look_nil s) hr
  exact ⟨h1, h2, h3, h5, fun e he => (h4 e he).2.2.2, fun e he => (h4 e he).2.2.1⟩

/-! ## The removal of the old sidecar -/

/-- The sidecar that is removed. -/
def removedSidecar (base : Path) (nv : NV) (q : Path) : Prop :=
  ∃ old, nv.oldDigestAlgorithm = some old ∧ nv.inv.digestAlgorithm ≠ some old ∧ q = base ++ [sidecarName old]

theorem run_removeOldSidecar_inv {base : Path} {nv : NV} (hold : ∀ old, nv.oldDigestAlgorithm = some old → '/' ∉ old) {s s' : FS}
    (hw : s.WF) (hr : run (removeOldSidecar base nv) s = (s', .ok ())) :
    s'.WF ∧ (∀ q, removedSidecar base nv q → look s' q = none) ∧ (∀ q, ¬ removedSidecar base nv q → look s' q = look s q) := by
  unfold removeOldSidecar at hr
  cases ho : nv.oldDigestAlgorithm with
  | none =>
    rw [ho] at hr
    cases hr
    exact ⟨hw, (fun q ⟨old, h, _⟩ => by rw [ho] at h; cases h), fun _ _ => rfl⟩
  | some old =>
    rw [ho] at hr
    dsimp only at hr
    by_cases hne : nv.inv.digestAlgorithm = some old
    · rw [if_neg (by simp [hne])] at hr
      cases hr
      refine ⟨hw, ?_, fun _ _ => rfl⟩
      rintro q ⟨old', h, h', _⟩
      rw [ho] at h; cases h
      exact absurd hne h'
    · rw [if_pos hne] at hr
      have e : inventoryFilename ++ c!"." ++ old = sidecarName old := rfl
      rw [e, resolve_name base (sidecar_safe (hold old ho))] at hr
      unfold FS.rm at hr
      rw [run_get] at hr
      split at hr
      · cases hr
      · have hr : exec (.remove (base ++ [sidecarName old])) s = (s', .ok ()) := hr
        unfold exec at hr
        dsimp only at hr
        split at hr
        · cases hr
        · cases hr
        · rename_i b hb
          cases hr
          refine ⟨WF_erase hw hb, ?_, ?_⟩
          · rintro q ⟨old', h, _, rfl⟩
            rw [ho] at h; cases h
            rw [look_erase hw (by simp), if_pos rfl]
          · intro q hq
            rw [look_erase hw (by simp), if_neg]
            intro he
            exact hq ⟨old, ho, hne, he⟩

theorem run_removeOldSidecar_ok {base : Path} {nv : NV} (hold : ∀ old, nv.oldDigestAlgorithm = some old → '/' ∉ old) {s : FS}
    (h : ∀ q, removedSidecar base nv q → ∃ b, look s q = some (.file b)) :
    ∃ s', run (removeOldSidecar base nv) s = (s', .ok ()) := by
  unfold removeOldSidecar
  cases ho : nv.oldDigestAlgorithm with
  | none => exact ⟨s, rfl⟩
  | some old =>
    dsimp only
    by_cases hne : nv.inv.digestAlgorithm = some old
    · rw [if_neg (by simp [hne])]; exact ⟨s, rfl⟩
    · rw [if_pos hne]
      have e : inventoryFilename ++ c!"." ++ old = sidecarName old := rfl
      rw [e, resolve_name base (sidecar_safe (hold old ho))]
      obtain ⟨b, hb⟩ := h _ ⟨old, ho, hne, rfl⟩
      unfold FS.rm
      rw [run_get, if_neg (by simp [isdir, hb])]
      refine ⟨Dict.erase s (base ++ [sidecarName old]), ?_⟩
      show exec (.remove (base ++ [sidecarName old])) s = _
      unfold exec
      dsimp only
      rw [hb]

/-! ## The whole -/

/-- The paths that an inventory in `dir` takes. -/
def InventoryFile (dir : Path) (alg : Str) (q : Path) : Prop := q = dir ++ [inventoryFilename] ∨ q = dir ++ [sidecarName alg]

/-- What writing a version leaves. -/
structure WroteVersion (E : Env) (alg : Str) (base src : Path) (head : Str) (nv : NV) (s s' : FS) : Prop where
  wf : s'.WF
  absent : look s (base ++ [head]) = none
  headDir : look s' (base ++ [head]) = some .dir
  files : ∀ e ∈ nv.filesToCopy, ∃ b, look s (FS.resolve src e.1) = some (.file b) ∧ look s' (FS.resolve base e.2) = some (.file b)
  dirs : ∀ e ∈ nv.filesToCopy, ∀ q, q <+: (FS.resolve base e.2).dropLast → look s' q = some .dir
  digest : ∃ d, fileDigest E.raw alg (utf8 (inventoryText E nv.inv)) = some d ∧
    ∀ dir, dir = base ∨ dir = base ++ [head] → look s' (dir ++ [sidecarName alg]) = some (.file (sidecarLine d))
  inventory : ∀ dir, dir = base ∨ dir = base ++ [head] →
    look s' (dir ++ [inventoryFilename]) = some (.file (utf8 (inventoryText E nv.inv)))
  removed : ∀ q, removedSidecar base nv q → q ≠ base ++ [sidecarName alg] → look s' q = none
  rest : ∀ q, ¬ InventoryFile base alg q → ¬ removedSidecar base nv q → ¬ base ++ [head] <+: q → look s' q = look s q
  new : ∀ q, base ++ [head] <+: q → q ≠ base ++ [head] → ¬ InventoryFile (base ++ [head]) alg q →
    (∀ e ∈ nv.filesToCopy, ¬ q <+: FS.resolve base e.2) → look s' q = none

/-- What is there when only the root inventory is missing. -/
structure PutVersion (E : Env) (alg : Str) (base src : Path) (head : Str) (nv : NV) (s s' : FS) : Prop where
  wf : s'.WF
  absent : look s (base ++ [head]) = none
  headDir : look s' (base ++ [head]) = some .dir
  files : ∀ e ∈ nv.filesToCopy, ∃ b, look s (FS.resolve src e.1) = some (.file b) ∧ look s' (FS.resolve base e.2) = some (.file b)
  dirs : ∀ e ∈ nv.filesToCopy, ∀ q, q <+: (FS.resolve base e.2).dropLast → look s' q = some .dir
  digest : ∃ d, fileDigest E.raw alg (utf8 (inventoryText E nv.inv)) = some d ∧
    look s' (base ++ [head] ++ [sidecarName alg]) = some (.file (sidecarLine d))
  inventory : look s' (base ++ [head] ++ [inventoryFilename]) = some (.file (utf8 (inventoryText E nv.inv)))
  removed : ∀ q, removedSidecar base nv q → look s' q = none
  rest : ∀ q, ¬ removedSidecar base nv q → ¬ base ++ [head] <+: q → look s' q = look s q
  new : ∀ q, base ++ [head] <+: q → q ≠ base ++ [head] → ¬ InventoryFile (base ++ [head]) alg q →
    (∀ e ∈ nv.filesToCopy, ¬ q <+: FS.resolve base e.2) → look s' q = none

theorem sidecar_ne_head {base : Path} {alg head : Str} (hv : head.head? = some 'v') : base ++ [sidecarName alg] ≠ base ++ [head] := by
  intro h
  rw [List.append_cancel_left_eq] at h
  simp only [List.cons.injEq, and_true] at h
  rw [← h] at hv
  cases hv

theorem inventory_ne_head {base : Path} {head : Str} (hv : head.head? = some 'v') : base ++ [inventoryFilename] ≠ base ++ [head] := by
  intro h
  rw [List.append_cancel_left_eq] at h
  simp only [List.cons.injEq, and_true] at h
  rw [← h] at hv
  cases hv

theorem two_ne_one {base : Path} {a b c : Str} : base ++ [a] ++ [b] ≠ base ++ [c] := by
  intro h
  have := congrArg List.length h
  simp at this

theorem not_under {base : Path} {w head : Str} (h : base ++ [w] ≠ base ++ [head]) : ¬ base ++ [head] <+: base ++ [w] := by
  intro hp
  exact h (hp.eq_of_length (by simp)).symm

/-- The files written for an inventory are not among those copied. -/
theorem QueueReady.apart {head : Str} {files : Dict Str Str} (h : QueueReady head files) (hh : SafeName head) (base : Path)
    {e : Str × Str} (he : e ∈ files) : (∀ w, FS.resolve base e.2 ≠ base ++ [head] ++ [w]) ∧
      (∀ w, FS.resolve base e.2 ≠ base ++ [w]) ∧ FS.resolve base e.2 ≠ base ++ [head] ∧ base ++ [head] <+: FS.resolve base e.2 ∧
      base ++ [head] <+: (FS.resolve base e.2).dropLast ∧ base ++ [head] ≠ (FS.resolve base e.2).dropLast := by
  obtain ⟨cd, ws, h1, _, _, h4, _⟩ := h.dst hh base he
  rw [h4]
  have hl : 1 ≤ ws.length := List.length_pos_iff.mpr h1
  refine ⟨fun w e => ?_, fun w e => ?_, fun e => ?_, ⟨cd :: ws, by simp⟩, ⟨(cd :: ws).dropLast, ?_⟩, fun e => ?_⟩
  · have := congrArg List.length e; simp only [List.length_append, List.length_cons, List.length_nil] at this; omega
  · have := congrArg List.length e; simp at this
  · have := congrArg List.length e; simp at this
  · rw [List.dropLast_append_of_ne_nil (by simp)]
    simp
  · have := congrArg List.length e
    simp only [List.length_dropLast, List.length_append, List.length_cons, List.length_nil] at this
    omega

/-- The steps before the root inventory is written. -/
def putVersion (E : Env) (o : Obj) (base src : Path) (nv : NV) (head : Str) : Prog Unit :=
  Prog.bind (removeOldSidecar base nv) (fun _ =>
  Prog.bind (FS.makedir (FS.resolve base head)) (fun _ =>
  Prog.bind (copyAll base src nv.filesToCopy) (fun _ =>
  writeInventoryAndSidecar E o base (some nv.inv) head)))

theorem putVersion_ok_inv {E : Env} {o : Obj} {base src : Path} {nv : NV} {head : Str} {s s' : FS} (hw : s.WF)
    (hb : look s base = some .dir) (hh : SafeName head) (hv : head.head? = some 'v')
    (hq : QueueReady head nv.filesToCopy) (hold : ∀ old, nv.oldDigestAlgorithm = some old → '/' ∉ old)
    (hsrc : ∀ e ∈ nv.filesToCopy, look s (FS.resolve src e.1) ≠ none)
    (hr : run (putVersion E o base src nv head) s = (s', .ok ())) : PutVersion E o.digestAlgorithm base src head nv s s' := by
  unfold putVersion at hr
  obtain ⟨s1, _, h1, hr⟩ := run_bind_inv hr
  obtain ⟨w1, r1, k1⟩ := run_removeOldSidecar_inv hold hw h1
  obtain ⟨s2, _, h2, hr⟩ := run_bind_inv hr
  rw [resolve_name base hh] at h2
  have hsb := look_names hw hb
  have hnr : ∀ {q}, (∀ alg, q ≠ base ++ [sidecarName alg]) → ¬ removedSidecar base nv q := by
    rintro q hq ⟨old, _, _, rfl⟩; exact hq old rfl
  -- the directory is made
  have habs1 : look s1 (base ++ [head]) = none := by
    by_contra hne
    rw [run_makedir_exists hne] at h2
    cases h2
  have habs : look s (base ++ [head]) = none := by
    rw [← k1 _ (hnr (fun alg => Ne.symm (sidecar_ne_head hv)))]; exact habs1
  have hnb : ∀ alg, base ≠ base ++ [sidecarName alg] := fun alg => Ne.symm concat_ne_self
  have hb1 : look s1 base = some .dir := by rw [k1 _ (hnr hnb)]; exact hb
  rw [run_makedir_absent habs1] at h2
  obtain ⟨s2', e2, w2, l2⟩ := run_makedirs_ok w1 true (p := base ++ [head]) (by
      intro w hm
      rcases List.mem_append.mp hm with hm | hm
      · exact hsb w hm
      · rw [List.mem_singleton.mp hm]; exact hh) (clear_concat.mpr ⟨clear_of_dir w1 hb1, Or.inl habs1⟩) (Or.inl rfl)
  rw [h2] at e2
  cases e2
  have l2 : ∀ q, look s2 q = if q = base ++ [head] then some .dir else look s1 q := by
    intro q
    rw [l2]
    by_cases hq : q = base ++ [head]
    · subst hq; simp
    · rw [if_neg hq]
      split
      · rename_i hp
        rcases prefix_concat.mp hp with h | h
        · exact absurd h hq
        · by_cases hqb : q = base
          · rw [hqb, hb1]
          · rw [look_prefix w1 h hqb hb1]
      · rfl
  -- the files are copied
  obtain ⟨s3, _, h3, hr⟩ := run_bind_inv hr
  have hnone : ∀ q, base ++ [head] <+: q → look s q = none := by
    intro q hp
    by_cases he : base ++ [head] = q
    · rw [← he]; exact habs
    · exact look_below_none hw hp he (by rw [habs]; simp)
  have hdisj : ∀ e ∈ nv.filesToCopy, ∀ e' ∈ nv.filesToCopy, FS.resolve src e.1 ≠ FS.resolve base e'.2 := by
    intro e he e' he' heq
    refine hsrc e he ?_
    rw [heq]
    exact hnone _ (hq.apart hh base he').2.2.2.1
  have c3 := run_copyAll_inv hh hq w2 hsb hdisj h3
  have hpre : ∀ e ∈ nv.filesToCopy, ∀ q, q <+: FS.resolve base e.2 → q <+: base ∨ base ++ [head] <+: q := by
    intro e he q hp
    obtain ⟨cd, ws, _, _, _, h4, _⟩ := hq.dst hh base he
    rw [h4] at hp
    exact prefix_split hp
  have hdeep : ∀ q, base ++ [head] <+: q → ¬ q <+: base := by
    intro q h1 h2
    have h3 := h1.length_le
    have h4 := h2.length_le
    simp at h3
    omega
  have hb2 : look s2 base = some .dir := by rw [l2, if_neg (Ne.symm concat_ne_self)]; exact hb1
  have hd2 : look s2 (base ++ [head]) = some .dir := by rw [l2, if_pos rfl]
  -- what lies elsewhere is not touched by copying
  have out3 : ∀ q, ¬ base ++ [head] <+: q → look s3 q = look s2 q := by
    intro q hnd
    by_cases hqb : q <+: base
    · have e2 : look s2 q = some .dir := by
        by_cases he : q = base
        · rw [he]; exact hb2
        · exact look_prefix w2 hqb he hb2
      rw [e2]
      cases hf : nv.filesToCopy with
      | nil => rw [c3.rest q (by simp [hf]), e2]
      | cons e rest =>
        have he : e ∈ nv.filesToCopy := by rw [hf]; simp
        refine c3.dirs e he q ?_
        exact hqb.trans ((List.prefix_append _ _).trans (hq.apart hh base he).2.2.2.2.1)
    · refine c3.rest q ?_
      intro e he hp
      rcases hpre e he q hp with h | h
      · exact hqb h
      · exact hnd h
  have hb3 : look s3 base = some .dir := by
    rw [out3 _ (by intro hp; have := hp.length_le; rw [List.length_append, List.length_singleton] at this; omega)]; exact hb2
  -- the inventories
  obtain ⟨wi4, hd3⟩ := run_writeInv_inv (VDir.version hh) c3.wf hb3 hr
  -- copied files and the directories above them are still there
  have l4 : ∀ q, base ++ [head] <+: q → q ≠ base ++ [head] → ¬ InventoryFile (base ++ [head]) o.digestAlgorithm q →
      look s' q = look s3 q := by
    intro q hp hne hni
    exact wi4.rest q (fun h => hni (Or.inl h)) (fun h => hni (Or.inr h)) hne
  have hfile : ∀ e ∈ nv.filesToCopy, ∀ b, look s3 (FS.resolve base e.2) = some (.file b) → look s' (FS.resolve base e.2) = some (.file b) := by
    intro e he b hl
    obtain ⟨a1, a2, a3, a4, a5, a6⟩ := hq.apart hh base he
    rw [l4 _ a4 a3, hl]
    rintro (h | h)
    · exact a1 _ h
    · exact a1 _ h
  have hdir : ∀ e ∈ nv.filesToCopy, ∀ q, q <+: (FS.resolve base e.2).dropLast → look s' q = some .dir := by
    intro e he q hp
    obtain ⟨a1, a2, a3, a4, a5, a6⟩ := hq.apart hh base he
    obtain ⟨b, _, hb'⟩ := c3.files e he
    refine look_prefix wi4.wf (q := FS.resolve base e.2) (hp.trans (List.dropLast_prefix _)) ?_ (hfile e he b hb')
    intro h
    have h1 := hp.length_le
    rw [h, List.length_dropLast] at h1
    have h2 := a4.length_le
    simp at h2
    omega
  refine ⟨wi4.wf, habs, wi4.isDir, ?_, hdir, wi4.digest, wi4.inventory, ?_, ?_, ?_⟩
  · intro e he
    obtain ⟨b, hb1', hb2'⟩ := c3.files e he
    refine ⟨b, ?_, hfile e he b hb2'⟩
    have hne : FS.resolve src e.1 ≠ base ++ [head] := by
      intro h; exact hsrc e he (by rw [h]; exact habs)
    rw [l2, if_neg hne] at hb1'
    by_cases hrm : removedSidecar base nv (FS.resolve src e.1)
    · rw [r1 _ hrm] at hb1'; cases hb1'
    · rw [k1 _ hrm] at hb1'; exact hb1'
  · rintro q ⟨old, ho, hne, rfl⟩
    rw [wi4.rest _ (Ne.symm two_ne_one) (Ne.symm two_ne_one) (sidecar_ne_head hv),
      out3 _ (not_under (sidecar_ne_head hv)), l2, if_neg (sidecar_ne_head hv), r1 _ ⟨old, ho, hne, rfl⟩]
  · intro q hq2 hq3
    rw [wi4.rest q (by rintro rfl; exact hq3 (List.prefix_append _ _)) (by rintro rfl; exact hq3 (List.prefix_append _ _))
          (by rintro rfl; exact hq3 List.prefix_rfl), out3 q hq3, l2, if_neg (by rintro rfl; exact hq3 List.prefix_rfl), k1 q hq2]
  · intro q hp hne hni hnf
    rw [l4 q hp hne hni, c3.rest q hnf, l2, if_neg hne, k1 q (hnr (fun alg h => ?_)), hnone q hp]
    rw [h] at hp
    exact not_under (sidecar_ne_head hv) hp

theorem writeNewVersion_eq {E : Env} {o : Obj} {base src : Path} {nv : NV} {head : Str} (hhead : nv.inv.head = some head) :
    writeNewVersion E o base src nv = Prog.bind (putVersion E o base src nv head) (fun _ =>
      Prog.bind (writeInventoryAndSidecar E o base (some nv.inv) []) (fun _ => .ret (.ok nv.inv))) := by
  unfold writeNewVersion putVersion
  rw [hhead]
  dsimp only
  simp only [Prog.bind_assoc]

/-- A successful call. -/
theorem writeNewVersion_ok_inv {E : Env} {o : Obj} {base src : Path} {nv : NV} {head : Str} {s s' : FS} {inv : Inv} (hw : s.WF)
    (hb : look s base = some .dir) (hhead : nv.inv.head = some head) (hh : SafeName head) (hv : head.head? = some 'v')
    (hq : QueueReady head nv.filesToCopy) (hold : ∀ old, nv.oldDigestAlgorithm = some old → '/' ∉ old)
    (hsrc : ∀ e ∈ nv.filesToCopy, look s (FS.resolve src e.1) ≠ none)
    (hr : run (writeNewVersion E o base src nv) s = (s', .ok inv)) :
    inv = nv.inv ∧ WroteVersion E o.digestAlgorithm base src head nv s s' := by
  rw [writeNewVersion_eq hhead] at hr
  obtain ⟨s4, _, h4, hr⟩ := run_bind_inv hr
  have P := putVersion_ok_inv hw hb hh hv hq hold hsrc h4
  obtain ⟨s5, _, h5, hr⟩ := run_bind_inv hr
  have hr : (s5, Except.ok nv.inv) = (s', (.ok inv : Py Inv)) := hr
  cases hr
  have hnb : ¬ removedSidecar base nv base := by
    rintro ⟨old, _, _, h⟩; exact concat_ne_self h.symm
  have hnub : ¬ base ++ [head] <+: base := by
    intro hp; have := hp.length_le; rw [List.length_append, List.length_singleton] at this; omega
  have hb4 : look s4 base = some .dir := by
    rw [P.rest base hnb hnub]; exact hb
  obtain ⟨wi5, _⟩ := run_writeInv_inv VDir.root P.wf hb4 h5
  rw [List.append_nil] at wi5
  have l5 : ∀ q, base ++ [head] <+: q → look s' q = look s4 q := by
    intro q hp
    refine wi5.rest q ?_ ?_ ?_
    · rintro rfl; exact not_under (inventory_ne_head hv) hp
    · rintro rfl; exact not_under (sidecar_ne_head hv) hp
    · rintro rfl; exact hnub hp
  have hdir : ∀ q, look s4 q = some .dir → look s' q = some .dir := by
    intro q hq
    by_cases hqb : q = base
    · rw [hqb]; exact wi5.isDir
    · rw [wi5.rest q _ _ hqb, hq]
      · rintro rfl; exact wi5.notDir _ (Or.inl rfl) hq
      · rintro rfl; exact wi5.notDir _ (Or.inr rfl) hq
  obtain ⟨d4, hd4, hd4'⟩ := P.digest
  obtain ⟨d5, hd5, hd5'⟩ := wi5.digest
  rw [hd4] at hd5
  cases hd5
  refine ⟨rfl, wi5.wf, P.absent, hdir _ P.headDir, ?_, fun e he q hp => hdir q (P.dirs e he q hp), ⟨d4, hd4, ?_⟩, ?_, ?_, ?_, ?_⟩
  · intro e he
    obtain ⟨b, h1, h2⟩ := P.files e he
    exact ⟨b, h1, by rw [l5 _ (hq.apart hh base he).2.2.2.1]; exact h2⟩
  · rintro dir (rfl | rfl)
    · exact hd5'
    · rw [l5 _ (List.prefix_append _ _)]; exact hd4'
  · rintro dir (rfl | rfl)
    · exact wi5.inventory
    · rw [l5 _ (List.prefix_append _ _)]; exact P.inventory
  · rintro q hrm hq'
    have hrm' := hrm
    obtain ⟨old, ho, hne, rfl⟩ := hrm
    rw [wi5.rest _ (Ne.symm inventory_ne_sidecar) hq' concat_ne_self, P.removed _ hrm']
  · intro q hq1 hq2 hq3
    by_cases hqb : q = base
    · rw [hqb, hb]; exact wi5.isDir
    · rw [wi5.rest q (fun h => hq1 (Or.inl h)) (fun h => hq1 (Or.inr h)) hqb, P.rest q hq2 hq3]
  · intro q hp hne hni hnf
    rw [l5 q hp, P.new q hp hne hni hnf]

end Ocfl
