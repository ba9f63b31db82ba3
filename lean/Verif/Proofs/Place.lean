import Verif.Model.FswTree
import Verif.Proofs.FS

/-! # Putting files in place: what a loop of copying steps does to the file system -/

namespace Ocfl

open Spec FS Prog

/-- The file `src` can be copied to `dst`, creating directories on the way. -/
def CanPlace (s : FS) (src dst : Path) : Prop :=
  (∃ b, look s src = some (.file b)) ∧ dst ≠ [] ∧ look s dst ≠ some .dir ∧ Clear s dst.dropLast

/-- The file `src` has been copied to `dst`, and nothing else has changed but for directories on
the way. -/
def Placed (s : FS) (src dst : Path) (s' : FS) : Prop :=
  s'.WF ∧ ∃ b, look s src = some (.file b) ∧
    ∀ q, look s' q = if q = dst then some (.file b) else if q <+: dst.dropLast then some .dir else look s q

/-- A program that copies `src` to `dst` whenever that can be done, provided that the directory
`D` is there. -/
def PlacesFile (D : Path) (step : Prog Unit) (src dst : Path) : Prop :=
  ∀ s : FS, s.WF → look s D = some .dir → (CanPlace s src dst → ∃ s', run step s = (s', .ok ()) ∧ Placed s src dst s') ∧
    (∀ s', run step s = (s', .ok ()) → CanPlace s src dst)

theorem read_ok {s : FS} {p : Path} {b : Bytes} : FS.read s p = .ok b ↔ look s p = some (.file b) := by
  unfold FS.read
  cases look s p with
  | none => simp
  | some n => cases n <;> simp

theorem run_readFile (p : Path) (s : FS) : run (readFile p) s = (s, FS.read s p) := rfl

theorem run_copyfile {s : FS} {src dst : Path} {b : Bytes} (hne : src ≠ dst) (hb : look s src = some (.file b)) :
    run (fswCopyfile src dst) s = exec (.write dst b) s := by
  unfold fswCopyfile
  rw [run_bind_ok (a := b) (s1 := s) (by rw [run_readFile, read_ok.mpr hb]), if_neg hne]
  rfl

theorem run_copyfile_inv {s s' : FS} {src dst : Path} (hr : run (fswCopyfile src dst) s = (s', .ok ())) :
    (∃ b, look s src = some (.file b)) ∧ dst ≠ [] ∧ look s dst ≠ some .dir ∧ look s dst.dropLast = some .dir := by
  unfold fswCopyfile at hr
  obtain ⟨s1, b, h1, h2⟩ := run_bind_inv hr
  rw [run_readFile] at h1
  simp only [Prod.mk.injEq] at h1
  obtain ⟨rfl, h1⟩ := h1
  have := exec_write_ok h2
  exact ⟨⟨b, read_ok.mp h1⟩, this.1, this.2.1, this.2.2.1⟩

/-- After the directories are there the file is copied. -/
theorem copy_after_dirs {s s1 : FS} (hw : s.WF) (hw1 : s1.WF) {src dst : Path} (hne : src ≠ dst)
    (hsafe : ∀ w ∈ dst, SafeName w) (hp : CanPlace s src dst)
    (hl : ∀ q, look s1 q = if q <+: dst.dropLast then some .dir else look s q) :
    ∃ s', run (fswCopyfile src dst) s1 = (s', .ok ()) ∧ Placed s src dst s' := by
  obtain ⟨⟨b, hb⟩, hdn, hdd, hc⟩ := hp
  have hsrc : look s1 src = some (.file b) := by
    rw [hl, if_neg]
    · exact hb
    · intro hpre
      rcases hc src hpre with h1 | h1 <;> rw [hb] at h1 <;> cases h1
  have hndst : ¬ dst <+: dst.dropLast := by
    intro hpre
    have := hpre.length_le
    rw [List.length_dropLast] at this
    have := List.length_pos_iff.mpr hdn
    omega
  have hdst : look s1 dst ≠ some .dir := by
    rw [hl, if_neg hndst]; exact hdd
  have hpar : look s1 dst.dropLast = some .dir := by rw [hl, if_pos List.prefix_rfl]
  rw [run_copyfile hne hsrc, exec_write hdst hpar]
  refine ⟨_, rfl, WF_set hw1 hdn hpar hsafe (fun h => absurd h hdst), b, hb, fun q => ?_⟩
  rw [look_set hdn]
  by_cases hq : q = dst
  · rw [if_pos hq, if_pos hq]
  · rw [if_neg hq, if_neg hq, hl]

/-- `makedirs(dirname, exist_ok=True)`, then copy. -/
theorem places_makedirs {src dst : Path} (hne : src ≠ dst) (hsafe : ∀ w ∈ dst, SafeName w) :
    PlacesFile [] (Prog.bind (FS.makedirs dst.dropLast true) (fun _ => fswCopyfile src dst)) src dst := by
  intro s hw _
  have hsd : ∀ w ∈ dst.dropLast, SafeName w := fun w hm => hsafe w (List.dropLast_subset _ hm)
  constructor
  · intro hp
    obtain ⟨s1, e1, hw1, hl1⟩ := run_makedirs_ok hw true hsd hp.2.2.2 (Or.inl rfl)
    rw [run_bind_ok e1]
    exact copy_after_dirs hw hw1 hne hsafe hp hl1
  · intro s' hr
    obtain ⟨s1, _, h1, h2⟩ := run_bind_inv hr
    have hc := run_makedirs_inv hw h1
    obtain ⟨s1', e1, hw1, hl1⟩ := run_makedirs_ok hw true hsd hc (Or.inl rfl)
    rw [e1] at h1
    simp only [Prod.mk.injEq, and_true] at h1
    subst h1
    obtain ⟨⟨b, hb⟩, hdn, hdd, hpar⟩ := run_copyfile_inv h2
    refine ⟨⟨b, ?_⟩, hdn, ?_, hc⟩
    · rw [hl1] at hb
      split at hb
      · cases hb
      · exact hb
    · rw [hl1] at hdd
      split at hdd
      · simp at hdd
      · exact hdd

/-- Test for the directory, create it if it is not there, then copy. -/
theorem places_if_missing {src dst : Path} (hne : src ≠ dst) (hsafe : ∀ w ∈ dst, SafeName w) (eo : Bool) :
    PlacesFile [] (Prog.get (fun s => Prog.bind
      (if FS.exists_ s dst.dropLast = false then FS.makedirs dst.dropLast eo else .ret (.ok ()))
      (fun _ => fswCopyfile src dst))) src dst := by
  intro s hw _
  have hsd : ∀ w ∈ dst.dropLast, SafeName w := fun w hm => hsafe w (List.dropLast_subset _ hm)
  rw [run_get]
  by_cases hex : FS.exists_ s dst.dropLast = false
  · rw [if_pos hex]
    have hnone : look s dst.dropLast = none := by
      unfold exists_ at hex
      cases hx : look s dst.dropLast with
      | none => rfl
      | some n => rw [hx] at hex; simp at hex
    constructor
    · intro hp
      obtain ⟨s1, e1, hw1, hl1⟩ := run_makedirs_ok hw eo hsd hp.2.2.2 (Or.inr hnone)
      rw [run_bind_ok e1]
      exact copy_after_dirs hw hw1 hne hsafe hp hl1
    · intro s' hr
      obtain ⟨s1, _, h1, h2⟩ := run_bind_inv hr
      have hc := run_makedirs_inv hw h1
      obtain ⟨s1', e1, hw1, hl1⟩ := run_makedirs_ok hw eo hsd hc (Or.inr hnone)
      rw [e1] at h1
      simp only [Prod.mk.injEq, and_true] at h1
      subst h1
      obtain ⟨⟨b, hb⟩, hdn, hdd, hpar⟩ := run_copyfile_inv h2
      refine ⟨⟨b, ?_⟩, hdn, ?_, hc⟩
      · rw [hl1] at hb
        split at hb
        · cases hb
        · exact hb
      · rw [hl1] at hdd
        split at hdd
        · simp at hdd
        · exact hdd
  · rw [if_neg hex]
    constructor
    · intro hp
      have hd : look s dst.dropLast = some .dir := by
        rcases hp.2.2.2 _ List.prefix_rfl with h1 | h1
        · unfold exists_ at hex; rw [h1] at hex; simp at hex
        · exact h1
      apply copy_after_dirs hw hw hne hsafe hp
      intro q
      split
      · rename_i hq
        rcases eq_or_ne q dst.dropLast with rfl | hne'
        · exact hd
        · exact look_prefix hw hq hne' hd
      · rfl
    · intro s' hr
      obtain ⟨hb, hdn, hdd, hpar⟩ := run_copyfile_inv hr
      exact ⟨hb, hdn, hdd, clear_of_dir hw hpar⟩

theorem placed_dir {s s' : FS} {src dst D : Path} {b : Bytes} (hc : CanPlace s src dst)
    (hl : ∀ q, look s' q = if q = dst then some (.file b) else if q <+: dst.dropLast then some .dir else look s q)
    (hD : look s D = some .dir) : look s' D = some .dir := by
  rw [hl, if_neg, hD]
  · simp
  · rintro rfl; exact hc.2.2.1 hD

/-- What a loop of copying steps with different destinations has done when it succeeds. -/
theorem forEach_places {ι : Type} {step : ι → Prog Unit} {src dst : ι → Path} {D : Path} :
    ∀ (items : List ι), (∀ i ∈ items, PlacesFile D (step i) (src i) (dst i)) →
      (∀ i ∈ items, ∀ j ∈ items, src i ≠ dst j) → (items.map dst).Nodup →
      ∀ (s s' : FS), s.WF → look s D = some .dir → run (forEach step items) s = (s', .ok ()) →
        s'.WF ∧ (∀ i ∈ items, ∃ b, look s (src i) = some (.file b) ∧ look s' (dst i) = some (.file b)) ∧
        (∀ i ∈ items, ∀ q, q <+: (dst i).dropLast → look s' q = some .dir) ∧
        (∀ i ∈ items, CanPlace s (src i) (dst i)) ∧
        (∀ q, (∀ i ∈ items, ¬ q <+: dst i) → look s' q = look s q) := by
  intro items
  induction items with
  | nil =>
    intro _ _ _ s s' hw _ hr
    have : s' = s := by
      have : run (forEach step []) s = (s, .ok ()) := rfl
      rw [this] at hr
      simp only [Prod.mk.injEq, and_true] at hr
      exact hr.symm
    subst this
    exact ⟨hw, by simp, by simp, by simp, fun _ _ => rfl⟩
  | cons x items ih =>
    intro hstep hdisj hnd s s' hw hD hr
    obtain ⟨s1, _, h1, h2⟩ := run_bind_inv (p := step x) (f := fun _ => forEach step items) hr
    have hcan := (hstep x (by simp) s hw hD).2 s1 h1
    obtain ⟨s1', e1, hw1, b, hb, hl1⟩ := (hstep x (by simp) s hw hD).1 hcan
    rw [e1] at h1
    simp only [Prod.mk.injEq, and_true] at h1
    subst h1
    rw [List.map_cons, List.nodup_cons] at hnd
    obtain ⟨hw', hfiles, hdirs, hcans, hrest⟩ := ih (fun i hi => hstep i (by simp [hi]))
      (fun i hi j hj => hdisj i (by simp [hi]) j (by simp [hj])) hnd.2 s1' s' hw1 (placed_dir hcan hl1 hD) h2
    -- a path that is a file now stays a file
    have hkeepfile : ∀ q c, look s1' q = some (.file c) → (∀ i ∈ items, q ≠ dst i) → look s' q = some (.file c) := by
      intro q c hq hne
      by_cases hall : ∀ i ∈ items, ¬ q <+: dst i
      · rw [hrest q hall, hq]
      · exfalso
        simp only [not_forall, not_not] at hall
        obtain ⟨i, hi, hpre⟩ := hall
        have hcl := (hcans i hi).2.2.2
        have hpre' : q <+: (dst i).dropLast := by
          have hdi := (hcans i hi).2.1
          rcases List.eq_nil_or_concat (dst i) with he | ⟨t, w, he⟩
          · exact absurd he hdi
          · rw [List.concat_eq_append] at he
            rw [he] at hpre ⊢
            rw [List.dropLast_concat]
            rcases prefix_concat.mp hpre with hq' | hq'
            · exact absurd (hq'.trans he.symm) (hne i hi)
            · exact hq'
        rcases hcl q hpre' with hx | hx <;> rw [hq] at hx <;> cases hx
    -- a directory stays a directory
    have hkeepdir : ∀ q, look s1' q = some .dir → look s' q = some .dir := by
      intro q hq
      by_cases hall : ∀ i ∈ items, ¬ q <+: dst i
      · rw [hrest q hall, hq]
      · simp only [not_forall, not_not] at hall
        obtain ⟨i, hi, hpre⟩ := hall
        have hdi := (hcans i hi).2.1
        rcases List.eq_nil_or_concat (dst i) with he | ⟨t, w, he⟩
        · exact absurd he hdi
        · rw [List.concat_eq_append] at he
          rw [he] at hpre
          rcases prefix_concat.mp hpre with hq' | hq'
          · exfalso
            apply (hcans i hi).2.2.1
            rw [he, ← hq', hq]
          · apply hdirs i hi
            rw [he, List.dropLast_concat]
            exact hq'
    -- sources have not changed
    have hsrc : ∀ i ∈ items, look s1' (src i) = look s (src i) := by
      intro i hi
      obtain ⟨c, hc⟩ := (hcans i hi).1
      rw [hl1] at hc ⊢
      rw [if_neg (hdisj i (by simp [hi]) x (by simp))] at hc ⊢
      split at hc
      · cases hc
      · rename_i hnp
        rw [if_neg hnp]
    refine ⟨hw', ?_, ?_, ?_, ?_⟩
    · intro i hi
      rcases List.mem_cons.mp hi with rfl | hi
      · refine ⟨b, hb, hkeepfile _ b (by rw [hl1, if_pos rfl]) ?_⟩
        intro j hj he
        exact hnd.1 (by rw [he]; exact List.mem_map.mpr ⟨j, hj, rfl⟩)
      · obtain ⟨c, hc1, hc2⟩ := hfiles i hi
        exact ⟨c, by rw [← hsrc i hi]; exact hc1, hc2⟩
    · intro i hi q hq
      rcases List.mem_cons.mp hi with rfl | hi
      · apply hkeepdir
        rw [hl1, if_neg, if_pos hq]
        rintro rfl
        have := hq.length_le
        rw [List.length_dropLast] at this
        have := List.length_pos_iff.mpr hcan.2.1
        omega
      · exact hdirs i hi q hq
    · intro i hi
      rcases List.mem_cons.mp hi with rfl | hi
      · exact hcan
      · obtain ⟨hf, hdn, hnd', hcl⟩ := hcans i hi
        have hne : dst i ≠ dst x := fun he => hnd.1 (by rw [← he]; exact List.mem_map.mpr ⟨i, hi, rfl⟩)
        refine ⟨by rw [← hsrc i hi]; exact hf, hdn, ?_, ?_⟩
        · rw [hl1, if_neg hne] at hnd'
          split at hnd'
          · simp at hnd'
          · exact hnd'
        · intro q hq
          have := hcl q hq
          rw [hl1] at this
          split at this
          · rcases this with h | h <;> cases h
          · split at this
            · rename_i hq2
              exact hcan.2.2.2 q hq2
            · exact this
    · intro q hq
      rw [hrest q (fun i hi => hq i (by simp [hi])), hl1, if_neg, if_neg]
      · intro hc
        exact hq x (by simp) (hc.trans (List.dropLast_prefix _))
      · rintro rfl
        exact hq x (by simp) List.prefix_rfl

/-- A loop of copying steps succeeds if every step can be done at the beginning and no destination
lies below another. -/
theorem forEach_places_ok {ι : Type} {step : ι → Prog Unit} {src dst : ι → Path} {D : Path} :
    ∀ (items : List ι), (∀ i ∈ items, PlacesFile D (step i) (src i) (dst i)) →
      (∀ i ∈ items, ∀ j ∈ items, src i ≠ dst j) →
      (∀ i ∈ items, ∀ j ∈ items, ¬ dst i <+: (dst j).dropLast) →
      ∀ (s : FS), s.WF → look s D = some .dir → (∀ i ∈ items, CanPlace s (src i) (dst i)) →
        ∃ s', run (forEach step items) s = (s', .ok ()) := by
  intro items
  induction items with
  | nil => intro _ _ _ s _ _ _; exact ⟨s, rfl⟩
  | cons x items ih =>
    intro hstep hdisj hpre s hw hD hcan
    obtain ⟨s1, e1, hw1, b, hb, hl1⟩ := (hstep x (by simp) s hw hD).1 (hcan x (by simp))
    have e : run (forEach step (x :: items)) s = run (forEach step items) s1 := run_bind_ok e1
    rw [e]
    apply ih (fun i hi => hstep i (by simp [hi])) (fun i hi j hj => hdisj i (by simp [hi]) j (by simp [hj]))
      (fun i hi j hj => hpre i (by simp [hi]) j (by simp [hj])) s1 hw1 (placed_dir (hcan x (by simp)) hl1 hD)
    intro i hi
    obtain ⟨⟨c, hc⟩, hdn, hnd, hcl⟩ := hcan i (by simp [hi])
    refine ⟨⟨c, ?_⟩, hdn, ?_, ?_⟩
    · rw [hl1, if_neg (hdisj i (by simp [hi]) x (by simp)), if_neg]
      · exact hc
      · intro hp
        rcases (hcan x (by simp)).2.2.2 _ hp with h | h <;> rw [hc] at h <;> cases h
    · rw [hl1]
      split
      · simp
      · rw [if_neg (hpre i (by simp [hi]) x (by simp))]
        exact hnd
    · intro q hq
      rw [hl1]
      split
      · rename_i he
        subst he
        exact absurd hq (hpre x (by simp) i (by simp [hi]))
      · split
        · exact Or.inr rfl
        · exact hcl q hq

end Ocfl
