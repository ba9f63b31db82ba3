import Verif.Proofs.ObjPaths
import Verif.Proofs.Parse
import Mathlib.Data.List.Nodup

/-!
# What `extract` does to the file system
-/

namespace Ocfl

open Spec FS Prog Ocfl.Inv

/-! ## The destination -/

theorem openObj_ok {E : Env} {p : Str} {s : FS} {base : Path} (h : openObj E p s = .ok base) :
    base = absComps E.cwd p ∧ look s base = some .dir := by
  unfold openObj fswOpen at h
  dsimp only at h
  split at h
  · cases h
  · rename_i b hb
    split at hb
    · rename_i hd
      cases hb
      cases h
      exact ⟨rfl, by simpa [isdir] using hd⟩
    · cases hb

theorem openObj_dir {E : Env} {p : Str} {s : FS} (h : look s (absComps E.cwd p) = some .dir) :
    openObj E p s = .ok (absComps E.cwd p) := by
  unfold openObj fswOpen
  dsimp only
  rw [if_pos (by simp [isdir, h])]

theorem isdir_iff {s : FS} {p : Path} : isdir s p = true ↔ look s p = some .dir := by simp [isdir]

theorem listdir_dir {s : FS} (base : Path) (path : Str) (h : look s (resolve base path) = some .dir) :
    ∃ l, listdir s base path = .ok l ∧ l.length = (children s (resolve base path)).length := by
  unfold listdir
  dsimp only
  rw [h]
  exact ⟨_, rfl, by rw [List.length_map]⟩

theorem children_nil {s : FS} (h : s.WF) {p : Path} (hp : children s p = []) : ∀ r, r ≠ [] → look s (p ++ r) = none := by
  intro r hr
  cases r with
  | nil => exact absurd rfl hr
  | cons w r =>
    cases hl : look s (p ++ w :: r) with
    | none => rfl
    | some n =>
      exfalso
      have : ∃ n, look s (p ++ [w]) = some n := by
        by_cases hr : r = []
        · subst hr; exact ⟨n, hl⟩
        · refine ⟨.dir, look_above h r hr (n := n) ?_⟩
          rw [List.append_assoc]; exact hl
      obtain ⟨n', hn'⟩ := this
      have := (mem_children h).mpr hn'
      rw [hp] at this
      simp at this

theorem vacant_children {s : FS} (h : s.WF) {p : Path} (hv : ∀ r, r ≠ [] → look s (p ++ r) = none) : children s p = [] := by
  rw [List.eq_nil_iff_forall_not_mem]
  rintro ⟨w, n⟩ hm
  have := (mem_children h).mp hm
  rw [hv [w] (by simp)] at this
  cases this

/-- The directory in which `extract` looks for its destination. -/
def dstParent (E : Env) (dstdir : Str) : Path := absComps E.cwd (osPathSplit (osNormpath dstdir)).1

theorem dstParent_resolve (E : Env) (dstdir : Str) :
    resolve (dstParent E dstdir) (osPathSplit (osNormpath dstdir)).2 = absComps E.cwd dstdir ∧
    '/' ∉ (osPathSplit (osNormpath dstdir)).2 := by
  unfold dstParent
  rw [← absComps_normpath E.cwd dstdir]
  exact absComps_split E.cwd (osNormpath dstdir)

theorem normStep_cases (acc : List Str) (w : Str) :
    normStep acc w = acc ∨ normStep acc w = acc.dropLast ∨ normStep acc w = acc ++ [w] := by
  unfold normStep
  split
  · exact Or.inl rfl
  · split
    · exact Or.inr (Or.inl rfl)
    · exact Or.inr (Or.inr rfl)

/-- If the destination is not a directory then it lies in the directory that was opened. -/
theorem dst_above {E : Env} {s : FS} (h : s.WF) {dstdir : Str} (hp : look s (dstParent E dstdir) = some .dir)
    (hd : look s (absComps E.cwd dstdir) ≠ some .dir) : (absComps E.cwd dstdir).dropLast = dstParent E dstdir := by
  obtain ⟨h1, h2⟩ := dstParent_resolve E dstdir
  rw [resolve_no_slash h2] at h1
  rcases normStep_cases (dstParent E dstdir) (osPathSplit (osNormpath dstdir)).2 with e | e | e
  · rw [e] at h1; rw [← h1, hp] at hd; exact absurd rfl hd
  · rw [e] at h1
    have := look_parent h hp
    rw [h1] at this
    exact absurd this hd
  · rw [e] at h1
    rw [← h1, List.dropLast_concat]

/-- What the preparation of the destination has done when it succeeds. -/
theorem run_extractDst {E : Env} (hcwd : ∀ w ∈ E.cwd, SafeName w) {s s1 : FS} (h : s.WF) {dstdir : Str} {dst : Path}
    (hr : run (extractDst E dstdir) s = (s1, .ok dst)) :
    dst = absComps E.cwd dstdir ∧ Vacant s dst ∧ s1.WF ∧
    ∀ q, look s1 q = if q = dst then some .dir else look s q := by
  have hD := (dstParent_resolve E dstdir).1
  unfold extractDst at hr
  dsimp only at hr
  obtain ⟨s0, pbase, h1, h2⟩ := run_bind_inv hr
  rw [run_look] at h1
  obtain ⟨rfl, h1'⟩ := Prod.mk.inj h1
  obtain ⟨rfl, hpd⟩ := openObj_ok h1'
  obtain ⟨s2, _, h3, h4⟩ := run_bind_inv h2
  rw [run_ret] at h4
  obtain ⟨rfl, h4'⟩ := Prod.mk.inj h4
  rw [run_get] at h3
  unfold prepareDst at h3
  have hpd : look s (dstParent E dstdir) = some .dir := hpd
  change resolve (absComps E.cwd (osPathSplit (osNormpath dstdir)).1) _ = _ at hD
  rw [hD] at h3 h4'
  cases h4'
  refine ⟨rfl, ?_⟩
  by_cases hid : isdir s (absComps E.cwd dstdir) = true
  · rw [if_pos hid] at h3
    have hid := isdir_iff.mp hid
    obtain ⟨l, hl, hlen⟩ := listdir_dir (dstParent E dstdir) (osPathSplit (osNormpath dstdir)).2
      (by rw [(dstParent_resolve E dstdir).1]; exact hid)
    change listdir s (absComps E.cwd (osPathSplit (osNormpath dstdir)).1) _ = _ at hl
    rw [hl] at h3
    dsimp only at h3
    rw [(dstParent_resolve E dstdir).1] at hlen
    split at h3
    · rw [run_ret] at h3
      cases h3
    · rename_i hz
      rw [run_ret] at h3
      obtain ⟨rfl, _⟩ := Prod.mk.inj h3
      have hc : children s (absComps E.cwd dstdir) = [] := by
        rw [← List.length_eq_zero_iff, ← hlen]
        omega
      refine ⟨⟨Or.inr hid, children_nil h hc⟩, h, ?_⟩
      intro q
      split
      · rename_i he; rw [he]; exact hid
      · rfl
  · rw [if_neg hid] at h3
    have hnd : look s (absComps E.cwd dstdir) ≠ some .dir := fun hh => hid (isdir_iff.mpr hh)
    have habove := dst_above h hpd hnd
    cases hx : look s (absComps E.cwd dstdir) with
    | some n =>
      rw [run_makedir_exists (by rw [hx]; simp)] at h3
      cases h3
    | none =>
      rw [run_makedir_absent hx] at h3
      have hc := run_makedirs_inv h h3
      obtain ⟨s', e1, hw1, hl1⟩ := run_makedirs_ok h true (absComps_safe hcwd dstdir) hc (Or.inl rfl)
      rw [e1] at h3
      obtain ⟨rfl, _⟩ := Prod.mk.inj h3
      refine ⟨⟨Or.inl hx, ?_⟩, hw1, ?_⟩
      · intro r hr
        apply look_below_none h (List.prefix_append _ r) _ hnd
        intro he
        exact hr (List.append_cancel_left (by rw [List.append_nil]; exact he.symm))
      · intro q
        rw [hl1]
        by_cases hq : q = absComps E.cwd dstdir
        · rw [if_pos hq, if_pos (by rw [hq]; exact List.prefix_rfl)]
        · rw [if_neg hq]
          split
          · rename_i hpre
            have : q <+: (absComps E.cwd dstdir).dropLast := by
              have hne : absComps E.cwd dstdir ≠ [] := by
                intro he; rw [he, look_nil] at hx; cases hx
              rw [← List.dropLast_concat_getLast hne] at hpre hq
              rcases prefix_concat.mp hpre with he | he
              · exact absurd he hq
              · exact he
            rw [habove] at this
            by_cases hq2 : q = dstParent E dstdir
            · rw [hq2]; exact hpd.symm
            · exact (look_prefix h this hq2 hpd).symm
          · rfl

/-- The preparation succeeds if there is room. -/
theorem run_extractDst_ok {E : Env} (hcwd : ∀ w ∈ E.cwd, SafeName w) {s : FS} (h : s.WF) {dstdir : Str}
    (hp : look s (dstParent E dstdir) = some .dir) (hv : Vacant s (absComps E.cwd dstdir)) :
    ∃ s1, run (extractDst E dstdir) s = (s1, .ok (absComps E.cwd dstdir)) := by
  have hD := (dstParent_resolve E dstdir).1
  have hp' : openObj E (osPathSplit (osNormpath dstdir)).1 s = .ok (dstParent E dstdir) := openObj_dir hp
  unfold extractDst
  dsimp only
  rw [run_bind_ok (s1 := s) (a := dstParent E dstdir) (by rw [run_look, hp'])]
  rw [hD]
  have : ∃ s1, run (Prog.get (prepareDst (dstParent E dstdir) (osPathSplit (osNormpath dstdir)).2)) s = (s1, .ok ()) := by
    rw [run_get]
    unfold prepareDst
    rw [hD]
    by_cases hid : isdir s (absComps E.cwd dstdir) = true
    · rw [if_pos hid]
      obtain ⟨l, hl, hlen⟩ := listdir_dir (dstParent E dstdir) (osPathSplit (osNormpath dstdir)).2
        (by rw [hD]; exact isdir_iff.mp hid)
      rw [hl]
      dsimp only
      rw [hD, vacant_children h hv.2] at hlen
      rw [if_neg (by simp [hlen])]
      exact ⟨s, rfl⟩
    · rw [if_neg hid]
      have hnd : look s (absComps E.cwd dstdir) ≠ some .dir := fun hh => hid (isdir_iff.mpr hh)
      have hnone : look s (absComps E.cwd dstdir) = none := by
        rcases hv.1 with h1 | h1
        · exact h1
        · exact absurd h1 hnd
      rw [run_makedir_absent hnone]
      have habove := dst_above h hp hnd
      have hne : absComps E.cwd dstdir ≠ [] := by
        intro he; rw [he, look_nil] at hnone; cases hnone
      have hc : Clear s (absComps E.cwd dstdir) := by
        rw [← List.dropLast_concat_getLast hne, clear_concat, habove]
        refine ⟨clear_of_dir h hp, Or.inl ?_⟩
        rw [← habove, List.dropLast_concat_getLast hne]
        exact hnone
      obtain ⟨s', e1, -, -⟩ := run_makedirs_ok h true (absComps_safe hcwd dstdir) hc (Or.inl rfl)
      exact ⟨s', e1⟩
  obtain ⟨s1, h1⟩ := this
  rw [run_bind_ok h1]
  exact ⟨s1, rfl⟩

/-! ## The files -/

/-- The content path used for a digest. -/
def firstOf (m : DigestMap) (d : Str) : Str :=
  match firstPath m d with
  | .ok f => f
  | .error _ => []

/-- Content path and logical path of the files that are copied. -/
def extractItems (m st : DigestMap) : List (Str × Str) := st.flatMap (fun e => e.2.map (fun p => (firstOf m e.1, p)))

theorem run_forEach_append {α : Type} (f : α → Prog Unit) (l l' : List α) (s : FS) :
    run (forEach f (l ++ l')) s = run (Prog.bind (forEach f l) (fun _ => forEach f l')) s := by
  induction l generalizing s with
  | nil => rfl
  | cons x l ih =>
    rw [List.cons_append]
    show run (Prog.bind (f x) (fun _ => forEach f (l ++ l'))) s =
      run (Prog.bind (Prog.bind (f x) (fun _ => forEach f l)) (fun _ => forEach f l')) s
    rw [run_bind, run_bind, run_bind]
    cases run (f x) s with
    | mk s1 r =>
      cases r with
      | error e => rfl
      | ok a =>
        dsimp only
        rw [ih s1, run_bind]

theorem run_bind_congr {α β : Type} {p q : Prog α} {f g : α → Prog β} {s : FS} (h1 : run p s = run q s)
    (h2 : ∀ a s', run (f a) s' = run (g a) s') : run (Prog.bind p f) s = run (Prog.bind q g) s := by
  rw [run_bind, run_bind, h1]
  cases run q s with
  | mk s1 r =>
    cases r with
    | ok a => exact h2 a s1
    | error e => rfl

theorem forEach_map' {α β : Type} (f : α → β) (body : β → Prog Unit) (l : List α) :
    forEach body (l.map f) = forEach (fun a => body (f a)) l := by
  induction l with
  | nil => rfl
  | cons a l ih => rw [List.map_cons]; unfold forEach; rw [ih]

theorem run_extractState {base dst : Path} {m : DigestMap} : ∀ {st : DigestMap},
    (∀ e ∈ st, ∃ f, firstPath m e.1 = .ok f) → ∀ s : FS,
    run (extractState base dst m st) s = run (forEach (fun i => extractOne base dst i.1 i.2) (extractItems m st)) s
  | [], _, _ => rfl
  | (d, files) :: rest, h, s => by
    obtain ⟨f, hf⟩ := h (d, files) (by simp)
    have hfo : firstOf m d = f := by unfold firstOf; rw [hf]
    have e : extractItems m ((d, files) :: rest) = files.map (fun p => (f, p)) ++ extractItems m rest := by
      unfold extractItems
      rw [List.flatMap_cons]
      simp only [hfo]
    rw [e, run_forEach_append]
    unfold extractState
    rw [hf]
    show run (Prog.bind (forEach (extractOne base dst f) files) _) s = _
    apply run_bind_congr
    · rw [forEach_map']
    · intro _ s'
      exact run_extractState (fun e he => h e (by simp [he])) s'

theorem safe_iff (w : Str) : Safe w ↔ SafeName w := Iff.rfl

theorem logical_resolve {segs : List Str} {p : Str} (h : LogicalPath segs p) (dst : Path) :
    resolve dst p = dst ++ segs ∧ resolve dst (osDirname p) = (dst ++ segs).dropLast ∧ p = joinWith '/' segs := by
  obtain ⟨h0, h1, rfl⟩ := h
  rw [← joinWith_eq_pathOf]
  have h1 : ∀ w ∈ segs, SafeName w := h1
  refine ⟨resolve_join dst h1, ?_, rfl⟩
  rw [osDirname_join (isComp_list h1) h0, resolve_join dst (fun w hw => h1 w (List.dropLast_subset _ hw)),
    List.dropLast_append_of_ne_nil h0]

theorem extractOne_places {base dst : Path} {c p : Str} {segs : List Str} (h : LogicalPath segs p)
    (hdst : ∀ w ∈ dst, SafeName w) (hne : resolve base c ≠ dst ++ segs) :
    PlacesFile [] (extractOne base dst c p) (resolve base c) (dst ++ segs) := by
  have hl := logical_resolve h dst
  have := places_makedirs (src := resolve base c) (dst := dst ++ segs) hne (by
    intro w hw
    rcases List.mem_append.mp hw with h1 | h1
    · exact hdst w h1
    · exact h.2.1 w h1)
  unfold extractOne
  rw [hl.1, hl.2.1]
  exact this

/-- What is needed of a manifest and a state for copying. -/
structure Extractable (m st : DigestMap) : Prop where
  manifestKeys : Dict.NK m
  digests : ∀ e ∈ st, ∃ ps, ps ≠ [] ∧ (e.1, ps) ∈ m
  paths : ∀ p ∈ listed st, ∃ segs, LogicalPath segs p
  unique : PathsUnique st

theorem Extractable.first {m st : DigestMap} (h : Extractable m st) {e : Str × List Str} (he : e ∈ st) :
    ∃ f, firstPath m e.1 = .ok f ∧ firstOf m e.1 = f ∧ Lists m e.1 f := by
  obtain ⟨ps, hne, hm⟩ := h.digests e he
  have hg := Dict.get?_of_mem h.manifestKeys hm
  cases ps with
  | nil => exact absurd rfl hne
  | cons f ps =>
    have hf : firstPath m e.1 = .ok f := by unfold firstPath; rw [hg]
    exact ⟨f, hf, by unfold firstOf; rw [hf], f :: ps, hm, by simp⟩

theorem Extractable.item {m st : DigestMap} (h : Extractable m st) {i : Str × Str} (hi : i ∈ extractItems m st) :
    i.2 ∈ listed st ∧ Resolves m st i.2 i.1 := by
  unfold extractItems at hi
  obtain ⟨e, he, hi⟩ := List.mem_flatMap.mp hi
  obtain ⟨p, hp, rfl⟩ := List.mem_map.mp hi
  obtain ⟨f, hf, hfo, hl⟩ := h.first he
  have hlp : Lists st e.1 p := ⟨e.2, he, hp⟩
  refine ⟨mem_listed.mpr ⟨e.1, hlp⟩, e.1, hlp, ?_⟩
  dsimp only
  rw [hfo]; exact hl

theorem extractItems_snd (m st : DigestMap) : (extractItems m st).map Prod.snd = listed st := by
  unfold extractItems listed
  induction st with
  | nil => rfl
  | cons e st ih =>
    rw [List.flatMap_cons, List.map_append, ih, List.map_map, List.map_cons, List.flatten_cons]
    congr 1
    have : (Prod.snd ∘ fun p => (firstOf m e.1, p)) = (id : Str → Str) := rfl
    rw [this, List.map_id]

theorem split_logical {segs : List Str} {p : Str} (h : LogicalPath segs p) : splitOn '/' p = segs := (logical_segs h).symm

/-- Everything the copying loop does when it succeeds. -/
theorem run_extractState_inv {base dst : Path} {m st : DigestMap} (hx : Extractable m st)
    (hdst : ∀ w ∈ dst, SafeName w)
    (hsrc : ∀ i ∈ extractItems m st, ∀ r, resolve base i.1 ≠ dst ++ r)
    {s s' : FS} (hw : s.WF) (hr : run (extractState base dst m st) s = (s', .ok ())) :
    s'.WF ∧
    (∀ p ∈ listed st, ∀ segs, LogicalPath segs p → ∃ c b, (c, p) ∈ extractItems m st ∧ Resolves m st p c ∧
      FS.look s (resolve base c) = some (.file b) ∧ FS.look s' (dst ++ segs) = some (.file b)) ∧
    (∀ p ∈ listed st, ∀ segs, LogicalPath segs p → ∀ q, q <+: (dst ++ segs).dropLast → FS.look s' q = some Node.dir) ∧
    (∀ q, (∀ p ∈ listed st, ∀ segs, LogicalPath segs p → ¬ q <+: dst ++ segs) → FS.look s' q = FS.look s q) := by
  rw [run_extractState (fun e he => by obtain ⟨f, hf, _⟩ := hx.first he; exact ⟨f, hf⟩)] at hr
  have hseg : ∀ i ∈ extractItems m st, LogicalPath (splitOn '/' i.2) i.2 := by
    intro i hi
    obtain ⟨segs, hs⟩ := hx.paths i.2 (hx.item hi).1
    rw [split_logical hs]; exact hs
  have hnd : ((extractItems m st).map (fun i => dst ++ splitOn '/' i.2)).Nodup := by
    have : (extractItems m st).map (fun i => dst ++ splitOn '/' i.2) =
        ((extractItems m st).map Prod.snd).map (fun p => dst ++ splitOn '/' p) := by rw [List.map_map]; rfl
    rw [this, extractItems_snd]
    apply List.Nodup.map_on _ hx.unique
    intro p hp q hq he
    have := List.append_cancel_left he
    rw [← joinWith_splitOn '/' p, ← joinWith_splitOn '/' q, this]
  obtain ⟨h1, h2, h3, h4, h5⟩ := forEach_places (ι := Str × Str) (D := []) (step := fun i => extractOne base dst i.1 i.2)
    (src := fun i => resolve base i.1) (dst := fun i => dst ++ splitOn '/' i.2) (extractItems m st)
    (fun i hi => extractOne_places (hseg i hi) hdst (hsrc i hi _))
    (fun i hi j hj => hsrc i hi _)
    hnd s s' hw (look_nil s) hr
  have hitem : ∀ p ∈ listed st, ∃ c, (c, p) ∈ extractItems m st := by
    intro p hp
    rw [← extractItems_snd m st] at hp
    obtain ⟨⟨c, p'⟩, hi, rfl⟩ := List.mem_map.mp hp
    exact ⟨c, hi⟩
  refine ⟨h1, ?_, ?_, ?_⟩
  · intro p hp segs hs
    obtain ⟨c, hi⟩ := hitem p hp
    obtain ⟨b, hb1, hb2⟩ := h2 _ hi
    have hb2 : FS.look s' (dst ++ splitOn '/' p) = _ := hb2
    rw [split_logical hs] at hb2
    exact ⟨c, b, hi, (hx.item hi).2, hb1, hb2⟩
  · intro p hp segs hs q hq
    obtain ⟨c, hi⟩ := hitem p hp
    refine h3 _ hi q ?_
    show q <+: (dst ++ splitOn '/' p).dropLast
    rw [split_logical hs]; exact hq
  · intro q hq
    apply h5
    intro i hi
    exact hq i.2 (hx.item hi).1 _ (hseg i hi)

/-- The copying loop succeeds if the content is there and no logical path lies below another. -/
theorem run_extractState_ok {base dst : Path} {m st : DigestMap} (hx : Extractable m st)
    (hdst : ∀ w ∈ dst, SafeName w)
    (hsrc : ∀ i ∈ extractItems m st, ∀ r, resolve base i.1 ≠ dst ++ r)
    (hnest : ∀ p ∈ listed st, ∀ q ∈ listed st, ∀ ps qs, LogicalPath ps p → LogicalPath qs q → ps <+: qs → ps = qs)
    {s : FS} (hcontent : ∀ c p, (c, p) ∈ extractItems m st → ∃ b, look s (resolve base c) = some (.file b))
    (hw : s.WF) (hd : look s dst = some .dir) (hempty : ∀ r, r ≠ [] → look s (dst ++ r) = none) :
    ∃ s', run (extractState base dst m st) s = (s', .ok ()) := by
  rw [run_extractState (fun e he => by obtain ⟨f, hf, _⟩ := hx.first he; exact ⟨f, hf⟩)]
  have hseg : ∀ i ∈ extractItems m st, LogicalPath (splitOn '/' i.2) i.2 := by
    intro i hi
    obtain ⟨segs, hs⟩ := hx.paths i.2 (hx.item hi).1
    rw [split_logical hs]; exact hs
  apply forEach_places_ok (ι := Str × Str) (D := []) (step := fun i => extractOne base dst i.1 i.2)
    (src := fun i => resolve base i.1) (dst := fun i => dst ++ splitOn '/' i.2) (extractItems m st)
    (fun i hi => extractOne_places (hseg i hi) hdst (hsrc i hi _))
    (fun i hi j hj => hsrc i hi _)
    (by
      intro i hi j hj hpre
      have hne : splitOn '/' j.2 ≠ [] := splitOn_ne_nil _ _
      rw [List.dropLast_append_of_ne_nil hne, List.prefix_append_right_inj] at hpre
      have hpre' := hpre.trans (List.dropLast_prefix _)
      have he := hnest i.2 (hx.item hi).1 j.2 (hx.item hj).1 _ _ (hseg i hi) (hseg j hj) hpre'
      rw [he] at hpre
      have := hpre.length_le
      rw [List.length_dropLast] at this
      have := List.length_pos_iff.mpr hne
      omega)
    s hw (look_nil s)
  intro i hi
  have hne : splitOn '/' i.2 ≠ [] := splitOn_ne_nil _ _
  refine ⟨hcontent _ _ hi, by simp [hne], ?_, ?_⟩
  · rw [hempty _ hne]; simp
  · intro q hq
    rw [List.dropLast_append_of_ne_nil hne] at hq
    by_cases hqd : q <+: dst
    · exact clear_of_dir hw hd q hqd
    · left
      rcases List.prefix_or_prefix_of_prefix hq (List.prefix_append dst _) with h | ⟨r, rfl⟩
      · exact absurd h hqd
      · apply hempty
        rintro rfl
        exact hqd (by simp)

end Ocfl
