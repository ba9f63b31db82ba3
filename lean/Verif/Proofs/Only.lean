import Verif.Proofs.FS

/-!
# What a program may touch

`Only P p`: whatever the file system does in between, every operation of the program satisfies
`P`. Files that no such operation is aimed at stay as they are, at every moment.
-/

namespace Ocfl

open FS

/-- The path an operation is aimed at. -/
def FS.Op.target : FS.Op → Path
  | .mkdir p => p
  | .write p _ => p
  | .remove p => p

namespace Prog

variable {α β : Type}

inductive Only (P : FS.Op → Prop) : Prog α → Prop
  | ret {r : Py α} : Only P (.ret r)
  | get {k : FS → Prog α} : (∀ s, Only P (k s)) → Only P (.get k)
  | op {o : FS.Op} {k : Py Unit → Prog α} : P o → (∀ r, Only P (k r)) → Only P (.op o k)

variable {P Q : FS.Op → Prop}

theorem Only.mono (h : ∀ o, P o → Q o) {p : Prog α} (hp : Only P p) : Only Q p := by
  induction hp with
  | ret => exact .ret
  | get _ ih => exact .get ih
  | op ho _ ih => exact .op (h _ ho) ih

theorem Only.bind {p : Prog α} {f : α → Prog β} (hp : Only P p) (hf : ∀ a, Only P (f a)) : Only P (Prog.bind p f) := by
  induction hp with
  | @ret r => cases r with
    | ok a => exact hf a
    | error e => exact .ret
  | get _ ih => exact .get ih
  | op ho _ ih => exact .op ho ih

theorem Only.handle {p : Prog α} {f : PyErr → Prog α} (hp : Only P p) (hf : ∀ a, Only P (f a)) : Only P (Prog.handle p f) := by
  induction hp with
  | @ret r => cases r with
    | ok a => exact .ret
    | error e => exact hf e
  | get _ ih => exact .get ih
  | op ho _ ih => exact .op ho ih

theorem Only.look {f : FS → Py α} : Only P (Prog.look f) := .get (fun _ => .ret)

theorem Only.raise {e : PyErr} : Only P (Prog.raise e : Prog α) := .ret

theorem Only.perform {o : FS.Op} (h : P o) : Only P (Prog.perform o) := .op h (fun _ => .ret)

theorem Only.forEach {f : β → Prog Unit} {l : List β} (h : ∀ x ∈ l, Only P (f x)) : Only P (Prog.forEach f l) := by
  induction l with
  | nil => exact .ret
  | cons x xs ih =>
    exact (h x (by simp)).bind (fun _ => ih (fun y hy => h y (by simp [hy])))

theorem Only.ite {c : Prop} [Decidable c] {p q : Prog α} (hp : c → Only P p) (hq : ¬ c → Only P q) :
    Only P (if c then p else q) := by
  by_cases h : c
  · rw [if_pos h]; exact hp h
  · rw [if_neg h]; exact hq h

/-! ## Frames -/

theorem exec_frame {o : FS.Op} {s : FS} {q : Path} (h : o.target ≠ q) : FS.look (FS.exec o s).1 q = FS.look s q := by
  by_cases hq : q = []
  · subst hq; rw [look_nil, look_nil]
  · unfold FS.exec
    cases o with
    | mkdir p =>
      have h : p ≠ q := h
      dsimp only
      split
      · rfl
      · split
        · rfl
        · simp only [FS.look, if_neg hq]
          rw [Dict.get?_set, if_neg h]
    | write p b =>
      have h : p ≠ q := h
      dsimp only
      split
      · rfl
      · split
        · rfl
        · simp only [FS.look, if_neg hq]
          rw [Dict.get?_set, if_neg h]
    | remove p =>
      have h : p ≠ q := h
      dsimp only
      split
      · rfl
      · rfl
      · simp only [FS.look, if_neg hq]
        rw [Dict.get?_erase_ne _ h]

/-- Creating a directory changes nothing that exists. -/
theorem exec_mkdir_keeps {p : Path} {s : FS} {q : Path} (h : FS.look s q ≠ none) :
    FS.look (FS.exec (.mkdir p) s).1 q = FS.look s q := by
  by_cases hpq : p = q
  · subst hpq
    unfold FS.exec
    dsimp only
    split
    · rfl
    · rename_i hn; exact absurd hn h
  · exact exec_frame hpq

/-- Operations that leave an existing entry `q` alone. -/
def Spares (q : Path) (o : FS.Op) : Prop := o.target = q → ∃ p, o = .mkdir p

theorem exec_spares {o : FS.Op} {s : FS} {q : Path} (h : Spares q o) (hq : FS.look s q ≠ none) :
    FS.look (FS.exec o s).1 q = FS.look s q := by
  by_cases ht : o.target = q
  · obtain ⟨p, rfl⟩ := h ht
    exact exec_mkdir_keeps hq
  · exact exec_frame ht

theorem midway_frame {o : FS.Op} {s s' : FS} {q : Path} (h : o.target ≠ q) (hm : Midway o s s') : FS.look s' q = FS.look s q := by
  cases hm with
  | before => rfl
  | after => exact exec_frame h
  | partly n ho => subst ho; exact exec_frame h

theorem midway_spares {o : FS.Op} {s s' : FS} {q : Path} (h : Spares q o) (hq : FS.look s q ≠ none) (hm : Midway o s s') :
    FS.look s' q = FS.look s q := by
  by_cases ht : o.target = q
  · obtain ⟨p, rfl⟩ := h ht
    cases hm with
    | before => rfl
    | after => exact exec_mkdir_keeps hq
    | partly n ho => cases ho
  · exact midway_frame ht hm

theorem visits_run (p : Prog α) (s : FS) : Visits p s (run p s).1 := by
  induction p generalizing s with
  | ret r => exact .here
  | get k ih => exact .get (ih s s)
  | op o k ih => exact .next (ih _ _)

/-- What no operation is aimed at is unchanged at every moment. -/
theorem Only.visits_frame {p : Prog α} {s s' : FS} {q : Path} (hp : Only P p) (h : ∀ o, P o → o.target ≠ q)
    (hv : Visits p s s') : FS.look s' q = FS.look s q := by
  induction hv with
  | here => rfl
  | get _ ih => cases hp with | get hk => exact ih (hk _)
  | mid hm => cases hp with | op ho _ => exact midway_frame (h _ ho) hm
  | next _ ih => cases hp with | op ho hk => rw [ih (hk _)]; exact exec_frame (h _ ho)

/-- An entry at which at most directories are created is unchanged at every moment. -/
theorem Only.visits_spares {p : Prog α} {s s' : FS} {q : Path} (hp : Only P p) (h : ∀ o, P o → Spares q o)
    (hq : FS.look s q ≠ none) (hv : Visits p s s') : FS.look s' q = FS.look s q := by
  induction hv with
  | here => rfl
  | get _ ih => cases hp with | get hk => exact ih (hk _) hq
  | mid hm => cases hp with | op ho _ => exact midway_spares (h _ ho) hq hm
  | next _ ih =>
    cases hp with
    | op ho hk =>
      have h1 := exec_spares (h _ ho) hq
      rw [ih (hk _) (by rw [h1]; exact hq)]
      exact h1

theorem Only.run_frame {p : Prog α} {s : FS} {q : Path} (hp : Only P p) (h : ∀ o, P o → o.target ≠ q) :
    FS.look (run p s).1 q = FS.look s q := hp.visits_frame h (visits_run p s)

theorem Only.run_spares {p : Prog α} {s : FS} {q : Path} (hp : Only P p) (h : ∀ o, P o → Spares q o)
    (hq : FS.look s q ≠ none) : FS.look (run p s).1 q = FS.look s q := hp.visits_spares h hq (visits_run p s)

end Prog

namespace FS

open Prog

/-- `makedirs` only creates the directory and those above it. -/
theorem only_makedirs (p : Path) (eo : Bool) : Only (fun o => ∃ q, q ≠ [] ∧ q <+: p ∧ o = .mkdir q) (makedirs p eo) := by
  induction p using List.reverseRecOn with
  | nil =>
    unfold makedirs makedirsRev
    exact .ite (fun _ => .ret) (fun _ => .ret)
  | append_singleton p w ih =>
    have ih' : Only (fun o => ∃ q, q ≠ [] ∧ q <+: p ++ [w] ∧ o = .mkdir q) (makedirsRev eo p.reverse) := by
      refine Only.mono ?_ ih
      rintro o ⟨q, h1, h2, h3⟩
      exact ⟨q, h1, h2.trans (List.prefix_append _ _), h3⟩
    unfold makedirs
    have hrev : (p ++ [w]).reverse = w :: p.reverse := by simp
    have hback : (w :: p.reverse).reverse = p ++ [w] := by simp
    rw [hrev]
    unfold makedirsRev
    dsimp only
    rw [hback]
    refine .get (fun s => .ite (fun _ => ?_) (fun _ => ?_))
    · exact .handle (.perform ⟨_, by simp, List.prefix_rfl, rfl⟩) (fun _ => .look)
    · refine .bind (.handle ih' (fun _ => .ite (fun _ => .ret) (fun _ => .ret))) (fun _ => ?_)
      exact .handle (.perform ⟨_, by simp, List.prefix_rfl, rfl⟩) (fun _ => .look)

theorem only_makedir (p : Path) : Only (fun o => ∃ q, q ≠ [] ∧ q <+: p ∧ o = .mkdir q) (makedir p) :=
  .get (fun _ => .ite (fun _ => .ret) (fun _ => only_makedirs p true))

theorem run_makedirs_frame {s s' : FS} {p q : Path} {eo : Bool} {r : Py Unit} (h : run (makedirs p eo) s = (s', r))
    (hq : ¬ q <+: p) : look s' q = look s q := by
  have := (only_makedirs p eo).run_frame (s := s) (q := q) (by rintro o ⟨q', -, h2, rfl⟩ rfl; exact hq h2)
  rwa [h] at this

end FS
end Ocfl
