import Verif.Model.Many
import Verif.Proofs.Beside

/-!
# Programs that depend on different files

Programs that each change only what the others do not depend on come as far as each of them would have alone.
-/

namespace Ocfl

open Spec FS Prog

variable {α : Type} {B W : Path → Prop}

/-- A program gives the same in file systems that are the same where it looks. -/
theorem Prog.Local.run_agree {p : Prog α} (h : Local B p) : ∀ {s t : FS}, s.WF → t.WF → Agree B s t →
    (run p s).2 = (run p t).2 ∧ Agree B (run p s).1 (run p t).1 := by
  induction h with
  | ret => exact fun _ _ ha => ⟨rfl, ha⟩
  | get h1 _ ih =>
    intro s t hs ht ha
    rw [run_get, run_get, h1 s t hs ht ha]
    exact ih t hs ht ha
  | @op o k h1 h2 _ ih =>
    intro s t hs ht ha
    obtain ⟨e1, e2⟩ := exec_agree hs ht h2 ha
    show (run (k (FS.exec o s).2) (FS.exec o s).1).2 = (run (k (FS.exec o t).2) (FS.exec o t).1).2 ∧
      Agree B (run (k (FS.exec o s).2) (FS.exec o s).1).1 (run (k (FS.exec o t).2) (FS.exec o t).1).1
    rw [e1]
    exact ih _ (exec_wf hs h1) (exec_wf ht h1) e2

/-- A program that begins with a look and, once it has seen what is there in `s0`, depends on `B` and changes `W` only. -/
structure Tame (B W : Path → Prop) (s0 : FS) (k : FS → Prog α) : Prop where
  loc : ∀ t, t.WF → Agree B t s0 → Local B (k t)
  frame : ∀ t m, t.WF → Agree B t s0 → Visits (k t) t m → ∀ x, ¬ W x → look m x = look t x

/-- The program has come as far as if it were alone. -/
def Going (B : Path → Prop) (s0 : FS) (k : FS → Prog α) (q : Prog α) (s : FS) : Prop :=
  q = .get k ∧ Agree B s s0 ∨ ∃ t, t.WF ∧ Agree B t s0 ∧ Follows B (k t) t q s

theorem Going.stay {s0 : FS} {k : FS → Prog α} {q : Prog α} {s s' : FS} (h : Going B s0 k q s) (ha : Agree B s' s) : Going B s0 k q s' := by
  rcases h with ⟨h1, h2⟩ | ⟨t, h1, h2, h3⟩
  · exact Or.inl ⟨h1, ha.trans h2⟩
  · exact Or.inr ⟨t, h1, h2, h3.stay ha⟩

theorem Going.kept {s0 : FS} {k : FS → Prog α} (hk : Tame B W s0 k) {q : Prog α} {s : FS} (h : Going B s0 k q s) {x : Path} (hx : B x)
    (hW : ¬ W x) : look s x = look s0 x := by
  rcases h with ⟨_, h2⟩ | ⟨t, h1, h2, t', m, k1, k2, k3⟩
  · exact h2 x hx
  · rw [k3 x hx, hk.frame t m h1 h2 (k1.visits k2.visits) x hW]
    exact h2 x hx

theorem Going.step {s0 : FS} {k : FS → Prog α} (hk : Tame B W s0 k) {q q' : Prog α} {s s' : FS} (hs : s.WF) (h : Going B s0 k q s)
    (hst : Concurrent.Step q s q' s') : Going B s0 k q' s' ∧ s'.WF ∧ ∀ x, ¬ W x → look s' x = look s x := by
  have hmain : Going B s0 k q' s' ∧ s'.WF ∧ ∀ x, ¬ B x → look s' x = look s x := by
    rcases id h with ⟨rfl, ha⟩ | ⟨t, hw, ha, hf⟩
    · cases hst
      exact ⟨Or.inr ⟨s, hs, ha, .start .refl⟩, hs, fun _ _ => rfl⟩
    · have hl := hk.loc t hw ha
      obtain ⟨u, m, hr, _, _⟩ := id hf
      obtain ⟨k1, _, k3⟩ := local_step (hr.local hl) hs hst
      exact ⟨Or.inr ⟨t, hw, ha, hf.step hw hs hl hst⟩, k1, k3⟩
  obtain ⟨h1, h2, h3⟩ := hmain
  refine ⟨h1, h2, fun x hx => ?_⟩
  by_cases hB : B x
  · rw [h1.kept hk hB hx, h.kept hk hB hx]
  · exact h3 x hB

theorem Going.ended {s0 : FS} {k : FS → Prog α} {r : Py α} {s : FS} (h : Going B s0 k (.ret r) s) :
    ∃ t e, t.WF ∧ Agree B t s0 ∧ run (.get k) t = (e, r) ∧ Agree B s e := by
  rcases h with ⟨h, _⟩ | ⟨t, hw, ha, u, m, hr, hm, hag⟩
  · cases h
  · cases hm
    exact ⟨t, u, hw, ha, by rw [run_get]; exact hr.ended, hag⟩

/-- Programs that do not change what the others depend on. -/
theorem many_going {ι : Type} [DecidableEq ι] {α : ι → Type} {B W : ι → Path → Prop} {s0 : FS} {k : ∀ i, FS → Prog (α i)} (hs : s0.WF)
    (hk : ∀ i, Tame (B i) (W i) s0 (k i)) (hsep : ∀ i j, i ≠ j → ∀ x, B j x → ¬ W i x) {R : FS → FS → Prop}
    (hR : ∀ s s', R s s' → (s.WF → s'.WF) ∧ ∀ i, Agree (B i) s' s) {P : ∀ i, Prog (α i)} {s : FS}
    (h : Concurrent.Many R (fun i => .get (k i)) s0 P s) : s.WF ∧ ∀ i, Going (B i) s0 (k i) (P i) s := by
  induction h with
  | here => exact ⟨hs, fun i => Or.inl ⟨rfl, .refl⟩⟩
  | @step P1 s1 s2 i p _ hst ih =>
    obtain ⟨hw, hg⟩ := ih
    obtain ⟨h1, h2, h3⟩ := (hg i).step (hk i) hw hst
    refine ⟨h2, fun j => ?_⟩
    by_cases hj : j = i
    · subst hj
      rw [Function.update_self]
      exact h1
    · rw [Function.update_of_ne hj]
      exact (hg j).stay (fun x hx => h3 x (hsep i j (fun he => hj he.symm) x hx))
  | other _ hr ih =>
    obtain ⟨hw, hg⟩ := ih
    obtain ⟨h1, h2⟩ := hR _ _ hr
    exact ⟨h1 hw, fun i => (hg i).stay (h2 i)⟩

/-- Programs that write in a directory, and make directories above it that are there, change nothing outside it. -/
theorem frame_inside {p : Prog α} {base : Path} {s m : FS} (hp : Only (InDst base) p)
    (habove : ∀ x, x <+: base → x ≠ base → look s x ≠ none) (hv : Visits p s m) {x : Path} (hx : ¬ base <+: x) : look m x = look s x := by
  by_cases hb : x <+: base
  · refine hp.visits_spares ?_ (habove x hb (fun he => hx (he ▸ List.prefix_rfl))) hv
    rintro o (ho | ⟨y, _, rfl⟩) he
    · exact absurd (he ▸ ho) hx
    · exact ⟨y, rfl⟩
  · refine hp.visits_frame ?_ hv
    rintro o (ho | ⟨y, hy, rfl⟩) he
    · exact hx (he ▸ ho)
    · exact hb (show x <+: base from (show y = x from he) ▸ hy)

end Ocfl
