import Verif.Proofs.Crash
import Verif.Model.Together

/-!
# Programs that depend on a part of the file system only

`Local B p`: what the program does depends only on the entries at the paths of `B`, and everything it
operates on is in `B`. If others change nothing in `B` then the program does what it would have done alone:
`Follows`.
-/

namespace Ocfl

open Spec FS Prog

/-- The same entries at the paths of `B`. -/
def Agree (B : Path → Prop) (s t : FS) : Prop := ∀ x, B x → look s x = look t x

theorem Agree.refl {B : Path → Prop} {s : FS} : Agree B s s := fun _ _ => rfl

theorem Agree.symm {B : Path → Prop} {s t : FS} (h : Agree B s t) : Agree B t s := fun x hx => (h x hx).symm

theorem Agree.trans {B : Path → Prop} {s t u : FS} (h : Agree B s t) (h' : Agree B t u) : Agree B s u :=
  fun x hx => (h x hx).trans (h' x hx)

namespace Prog

variable {α β : Type}

inductive Local (B : Path → Prop) : Prog α → Prop
  | ret {r : Py α} : Local B (.ret r)
  | get {k : FS → Prog α} : (∀ s s', s.WF → s'.WF → Agree B s s' → k s = k s') → (∀ s, Local B (k s)) → Local B (.get k)
  | op {o : FS.Op} {k : Py Unit → Prog α} : SafeTarget o → (∀ x, x <+: o.target → B x) → (∀ r, Local B (k r)) → Local B (.op o k)

variable {B : Path → Prop}

theorem Local.mono {B' : Path → Prop} (hB : ∀ x, B x → B' x) {p : Prog α} (h : Local B p) : Local B' p := by
  induction h with
  | ret => exact .ret
  | get h1 _ ih => exact .get (fun s s' hw hw' ha => h1 s s' hw hw' (fun x hx => ha x (hB x hx))) ih
  | op h1 h2 _ ih => exact .op h1 (fun x hx => hB x (h2 x hx)) ih

theorem Local.safe {p : Prog α} (h : Local B p) : Only SafeTarget p := by
  induction h with
  | ret => exact .ret
  | get _ _ ih => exact .get ih
  | op h1 _ _ ih => exact .op h1 ih

theorem Local.inside {p : Prog α} (h : Local B p) : Only (fun o => B o.target) p := by
  induction h with
  | ret => exact .ret
  | get _ _ ih => exact .get ih
  | op _ h2 _ ih => exact .op (h2 _ List.prefix_rfl) ih

theorem Local.bind {p : Prog α} {f : α → Prog β} (hp : Local B p) (hf : ∀ a, Local B (f a)) : Local B (Prog.bind p f) := by
  induction hp with
  | @ret r => cases r with
    | ok a => exact hf a
    | error e => exact .ret
  | get h1 _ ih =>
    refine .get (fun s s' hw hw' ha => ?_) ih
    show Prog.bind _ f = Prog.bind _ f
    rw [h1 s s' hw hw' ha]
  | op h1 h2 _ ih => exact .op h1 h2 ih

theorem Local.handle {p : Prog α} {f : PyErr → Prog α} (hp : Local B p) (hf : ∀ a, Local B (f a)) : Local B (Prog.handle p f) := by
  induction hp with
  | @ret r => cases r with
    | ok a => exact .ret
    | error e => exact hf e
  | get h1 _ ih =>
    refine .get (fun s s' hw hw' ha => ?_) ih
    show Prog.handle _ f = Prog.handle _ f
    rw [h1 s s' hw hw' ha]
  | op h1 h2 _ ih => exact .op h1 h2 ih

theorem Local.look {f : FS → Py α} (h : ∀ s s', s.WF → s'.WF → Agree B s s' → f s = f s') : Local B (Prog.look f) :=
  .get (fun s s' hw hw' ha => by rw [h s s' hw hw' ha]) (fun _ => .ret)

theorem Local.perform {o : FS.Op} (h1 : SafeTarget o) (h2 : ∀ x, x <+: o.target → B x) : Local B (Prog.perform o) :=
  .op h1 h2 (fun _ => .ret)

theorem Local.forEach {f : β → Prog Unit} {l : List β} (h : ∀ x ∈ l, Local B (f x)) : Local B (Prog.forEach f l) := by
  induction l with
  | nil => exact .ret
  | cons x xs ih => exact (h x (by simp)).bind (fun _ => ih (fun y hy => h y (by simp [hy])))

theorem Local.ite {c : Prop} [Decidable c] {p q : Prog α} (hp : c → Local B p) (hq : ¬ c → Local B q) :
    Local B (if c then p else q) := by
  by_cases h : c
  · rw [if_pos h]; exact hp h
  · rw [if_neg h]; exact hq h

/-- A look whose value matters for what follows only if it succeeds. -/
theorem Local.look_bind {f : FS → Py α} {g : α → Prog β} (h : ∀ s s', s.WF → s'.WF → Agree B s s' → f s = f s')
    (hg : ∀ s a, f s = .ok a → Local B (g a)) : Local B (Prog.bind (Prog.look f) g) := by
  refine .get (fun s s' hw hw' ha => ?_) (fun s => ?_)
  · show Prog.bind (Prog.ret (f s)) g = Prog.bind (Prog.ret (f s')) g
    rw [h s s' hw hw' ha]
  · show Local B (Prog.bind (Prog.ret (f s)) g)
    cases hf : f s with
    | error e => exact .ret
    | ok a => exact hg s a hf

end Prog

/-! ## What is read -/

variable {B : Path → Prop}

theorem isfile_agree {s t : FS} {p : Path} (h : look s p = look t p) : isfile s p = isfile t p := by
  unfold isfile; rw [h]

theorem missing_agree {s t : FS} {p : Path} (h : ∀ x, x <+: p → look s x = look t x) : missing s p = missing t p := by
  unfold missing
  have : (fun n => isfile s (p.take n)) = (fun n => isfile t (p.take n)) := by
    funext n
    exact isfile_agree (h _ (List.take_prefix _ _))
  rw [this]

theorem read_agree {s t : FS} {p : Path} (h : ∀ x, x <+: p → look s x = look t x) : FS.read s p = FS.read t p := by
  unfold FS.read
  rw [h p List.prefix_rfl, missing_agree h]

theorem exists_agree {s t : FS} {p : Path} (h : look s p = look t p) : exists_ s p = exists_ t p := by
  unfold exists_; rw [h]

theorem isdir_agree {s t : FS} {p : Path} (h : look s p = look t p) : isdir s p = isdir t p := by
  unfold isdir; rw [h]

theorem noParent_agree {s t : FS} {p : Path} (h : ∀ x, x <+: p → look s x = look t x) : noParent s p = noParent t p := by
  unfold noParent
  rw [h _ (List.dropLast_prefix p), missing_agree (fun x hx => h x (hx.trans (List.dropLast_prefix p)))]

theorem digestAt_agree {E : Env} {s t : FS} {p : Path} {alg : Str} (h : ∀ x, x <+: p → look s x = look t x) :
    digestAt E s p alg = digestAt E t p alg := by
  unfold digestAt
  rw [read_agree h]

/-- An operation does the same in two states that agree. -/
theorem exec_agree {s t : FS} (hs : s.WF) (ht : t.WF) {o : FS.Op} (hB : ∀ x, x <+: o.target → B x) (h : Agree B s t) :
    (FS.exec o s).2 = (FS.exec o t).2 ∧ Agree B (FS.exec o s).1 (FS.exec o t).1 := by
  have hl : ∀ x, x <+: o.target → look s x = look t x := fun x hx => h x (hB x hx)
  cases o with
  | mkdir p =>
    have hl : ∀ x, x <+: p → look s x = look t x := hl
    unfold FS.exec
    dsimp only
    rw [hl p List.prefix_rfl, noParent_agree hl]
    split
    · exact ⟨rfl, h⟩
    · rename_i hn
      have hne : p ≠ [] := by rintro rfl; rw [look_nil] at hn; cases hn
      split
      · exact ⟨rfl, h⟩
      · refine ⟨rfl, fun x hx => ?_⟩
        dsimp only
        rw [look_set hne, look_set hne, h x hx]
  | write p b =>
    have hl : ∀ x, x <+: p → look s x = look t x := hl
    unfold FS.exec
    dsimp only
    rw [hl p List.prefix_rfl, noParent_agree hl]
    split
    · exact ⟨rfl, h⟩
    · rename_i hn
      have hne : p ≠ [] := by rintro rfl; rw [look_nil] at hn; exact hn rfl
      split
      · exact ⟨rfl, h⟩
      · refine ⟨rfl, fun x hx => ?_⟩
        dsimp only
        rw [look_set hne, look_set hne, h x hx]
  | remove p =>
    have hl : ∀ x, x <+: p → look s x = look t x := hl
    unfold FS.exec
    dsimp only
    rw [hl p List.prefix_rfl, missing_agree hl]
    split
    · exact ⟨rfl, h⟩
    · exact ⟨rfl, h⟩
    · rename_i b hn
      have hne : p ≠ [] := by rintro rfl; rw [look_nil] at hn; cases hn
      refine ⟨rfl, fun x hx => ?_⟩
      dsimp only
      rw [look_erase hs hne, look_erase ht hne, h x hx]

/-- Writing a file after a part of it has been written. -/
theorem exec_write_again {s : FS} {p : Path} {b b' : Bytes} :
    (FS.exec (.write p b) (FS.exec (.write p b') s).1).2 = (FS.exec (.write p b) s).2 ∧
    ∀ x, look (FS.exec (.write p b) (FS.exec (.write p b') s).1).1 x = look (FS.exec (.write p b) s).1 x := by
  by_cases hd : look s p = some .dir
  · have : ∀ b, FS.exec (.write p b) s = (s, .error .isADirectory) := by intro b; unfold FS.exec; dsimp only; rw [hd]
    rw [this b', this b]
    exact ⟨rfl, fun _ => rfl⟩
  have hne : p ≠ [] := by rintro rfl; rw [look_nil] at hd; exact hd rfl
  cases hp : noParent s p with
  | some e =>
    have : ∀ b, FS.exec (.write p b) s = (s, .error e) := by
      intro b
      unfold FS.exec
      dsimp only
      rw [hp]
      split
      · exact absurd ‹_› hd
      · rfl
    rw [this b', this b]
    exact ⟨rfl, fun _ => rfl⟩
  | none =>
    have hpar : look s p.dropLast = some .dir := by
      unfold noParent at hp
      split at hp
      · assumption
      · cases hp
      · cases hp
    have e1 := FS.exec_write (b := b') hd hpar
    have e2 := FS.exec_write (b := b) hd hpar
    have hq : p.dropLast ≠ p := by
      intro he
      have := congrArg List.length he
      rw [List.length_dropLast] at this
      have : p.length ≠ 0 := by simpa using hne
      omega
    have e3 := FS.exec_write (s := Dict.set s p (.file b')) (p := p) (b := b)
      (by rw [look_set hne, if_pos rfl]; simp) (by rw [look_set hne, if_neg hq]; exact hpar)
    rw [e1, e2]
    dsimp only
    rw [e3]
    refine ⟨rfl, fun x => ?_⟩
    dsimp only
    rw [look_set hne, look_set hne, look_set hne]
    split <;> rfl

/-! ## The file operations -/

namespace FS

theorem local_makedirs {p : Path} (hs : ∀ w ∈ p, SafeName w) (hB : ∀ x, x <+: p → B x) (eo : Bool) : Local B (makedirs p eo) := by
  induction p using List.reverseRecOn with
  | nil =>
    unfold makedirs makedirsRev
    exact .ite (fun _ => .ret) (fun _ => .ret)
  | append_singleton p w ih =>
    have ih' : Local B (makedirsRev eo p.reverse) :=
      ih (fun w hw => hs w (by simp [hw])) (fun x hx => hB x (hx.trans (List.prefix_append _ _)))
    unfold makedirs
    have hrev : (p ++ [w]).reverse = w :: p.reverse := by simp
    have hback : (w :: p.reverse).reverse = p ++ [w] := by simp
    rw [hrev]
    unfold makedirsRev
    dsimp only
    rw [hback]
    have hlast : Local B (Prog.handle (Prog.perform (.mkdir (p ++ [w]))) (fun e =>
        Prog.look (fun s => if eo && isdir s (p ++ [w]) then .ok () else .error e))) :=
      .handle (.perform hs hB) (fun _ => .look (fun s s' _ _ ha => by
        rw [isdir_agree (ha _ (hB _ List.prefix_rfl))]))
    refine .get (fun s s' _ _ ha => ?_) (fun s => .ite (fun _ => hlast) (fun _ => ?_))
    · rw [List.reverse_reverse, exists_agree (ha _ (hB _ (List.prefix_append _ _)))]
    · exact .bind (.handle ih' (fun _ => .ite (fun _ => .ret) (fun _ => .ret))) (fun _ => hlast)

theorem local_makedir {p : Path} (hs : ∀ w ∈ p, SafeName w) (hB : ∀ x, x <+: p → B x) : Local B (makedir p) :=
  .get (fun s s' _ _ ha => by rw [exists_agree (ha _ (hB _ List.prefix_rfl))])
    (fun _ => .ite (fun _ => .ret) (fun _ => local_makedirs hs hB true))

theorem local_rm {p : Path} (hs : ∀ w ∈ p, SafeName w) (hB : ∀ x, x <+: p → B x) : Local B (rm p) :=
  .get (fun s s' _ _ ha => by rw [isdir_agree (ha _ (hB _ List.prefix_rfl))])
    (fun _ => .ite (fun _ => .ret) (fun _ => .perform hs hB))

end FS

theorem local_copyfile {src dst : Path} (hs : ∀ w ∈ dst, SafeName w) (hsrc : ∀ x, x <+: src → B x) (hdst : ∀ x, x <+: dst → B x) :
    Local B (fswCopyfile src dst) :=
  .bind (.look (fun s s' _ _ ha => read_agree (fun x hx => ha x (hsrc x hx)))) (fun _ => .perform hs hdst)

/-! ## The course of a program -/

/-- `Reach p s q t`: the program `p`, alone from `s` on, comes to `q` with the file system `t`. -/
inductive Reach {α : Type} (p : Prog α) (s : FS) : Prog α → FS → Prop
  | here : Reach p s p s
  | get {k : FS → Prog α} {t : FS} : Reach p s (.get k) t → Reach p s (k t) t
  | op {o : FS.Op} {k : Py Unit → Prog α} {t : FS} : Reach p s (.op o k) t → Reach p s (k (FS.exec o t).2) (FS.exec o t).1

/-- The file system while the next operation of a program goes on. -/
inductive Mid {α : Type} : Prog α → FS → FS → Prop
  | now {p : Prog α} {t : FS} : Mid p t t
  | part {q : Path} {b : Bytes} {k : Py Unit → Prog α} {t : FS} (n : Nat) :
      Mid (.op (.write q b) k) t (FS.exec (.write q (b.take n)) t).1

section
variable {α β : Type}

theorem Reach.run {p q : Prog α} {s t : FS} (h : Reach p s q t) : Prog.run p s = Prog.run q t := by
  induction h with
  | here => rfl
  | get _ ih => rw [ih, run_get]
  | op _ ih => rw [ih]; rfl

theorem Reach.ended {p : Prog α} {s t : FS} {r : Py α} (h : Reach p s (.ret r) t) : Prog.run p s = (t, r) := by
  rw [h.run]; rfl

theorem Reach.visits {p q : Prog α} {s t m : FS} (h : Reach p s q t) (hv : Visits q t m) : Visits p s m := by
  induction h generalizing m with
  | here => exact hv
  | get _ ih => exact ih (.get hv)
  | op _ ih => exact ih (.next hv)

theorem Reach.trans {p q r : Prog α} {s t u : FS} (h : Reach p s q t) (h' : Reach q t r u) : Reach p s r u := by
  induction h' with
  | here => exact h
  | get _ ih => exact ih.get
  | op _ ih => exact ih.op

theorem Mid.visits {p : Prog α} {t m : FS} (h : Mid p t m) : Visits p t m := by
  cases h with
  | now => exact .here
  | part n => exact .mid (.partly n rfl)

theorem Reach.only {P : FS.Op → Prop} {p q : Prog α} {s t : FS} (h : Reach p s q t) (hp : Only P p) : Only P q := by
  induction h with
  | here => exact hp
  | get _ ih => cases ih with | get hk => exact hk _
  | op _ ih => cases ih with | op _ hk => exact hk _

theorem Reach.local {p q : Prog α} {s t : FS} (h : Reach p s q t) (hp : Local B p) : Local B q := by
  induction h with
  | here => exact hp
  | get _ ih => cases ih with | get _ hk => exact hk _
  | op _ ih => cases ih with | op _ _ hk => exact hk _

/-- A program in two parts is in the first or in the second. -/
theorem Reach.bind_inv {p : Prog α} {f : α → Prog β} {q : Prog β} {s t : FS} (h : Reach (Prog.bind p f) s q t) :
    (∃ p', Reach p s p' t ∧ q = Prog.bind p' f) ∨ ∃ s1 a, Prog.run p s = (s1, .ok a) ∧ Reach (f a) s1 q t := by
  have key : ∀ {q : Prog β} {t : FS}, ((∃ p', Reach p s p' t ∧ q = Prog.bind p' f) ∨ ∃ s1 a, Prog.run p s = (s1, .ok a) ∧ Reach (f a) s1 q t) →
      ((∃ p', Reach p s p' t ∧ q = Prog.bind p' f ∧ ∀ r, p' ≠ .ret r) ∨ (∃ e, q = .ret (.error e) ∧ Reach p s (.ret (.error e)) t) ∨
        ∃ s1 a, Prog.run p s = (s1, .ok a) ∧ Reach (f a) s1 q t) := by
    rintro q t (⟨p', h1, rfl⟩ | h)
    · cases p' with
      | ret r =>
        cases r with
        | ok a => exact Or.inr (Or.inr ⟨t, a, h1.ended, .here⟩)
        | error e => exact Or.inr (Or.inl ⟨e, rfl, h1⟩)
      | get k => exact Or.inl ⟨_, h1, rfl, by intro r hr; cases hr⟩
      | op o k => exact Or.inl ⟨_, h1, rfl, by intro r hr; cases hr⟩
    · exact Or.inr (Or.inr h)
  induction h with
  | here => exact Or.inl ⟨p, .here, rfl⟩
  | @get k t _ ih =>
    rcases key ih with ⟨p', h1, h2, h3⟩ | ⟨e, h1, _⟩ | ⟨s1, a, h1, h2⟩
    · cases p' with
      | ret r => exact absurd rfl (h3 r)
      | op o k' => cases h2
      | get k' =>
        cases h2
        exact Or.inl ⟨_, h1.get, rfl⟩
    · cases h1
    · exact Or.inr ⟨s1, a, h1, h2.get⟩
  | @op o k t _ ih =>
    rcases key ih with ⟨p', h1, h2, h3⟩ | ⟨e, h1, _⟩ | ⟨s1, a, h1, h2⟩
    · cases p' with
      | ret r => exact absurd rfl (h3 r)
      | get k' => cases h2
      | op o' k' =>
        cases h2
        exact Or.inl ⟨_, h1.op, rfl⟩
    · cases h1
    · exact Or.inr ⟨s1, a, h1, h2.op⟩

/-- The moments within the first part. -/
theorem Mid.bind_inv {p : Prog α} {f : α → Prog β} {t m : FS} (h : Mid (Prog.bind p f) t m) (hr : ∀ a, p ≠ .ret (.ok a)) : Mid p t m := by
  cases p with
  | ret r =>
    cases r with
    | ok a => exact absurd rfl (hr a)
    | error e => cases h; exact .now
  | get k => cases h; exact .now
  | op o k =>
    cases h with
    | now => exact .now
    | part n => exact .part n

/-- The program `p` has come as far as if it had run alone from `u` on. -/
def Follows (B : Path → Prop) (p0 : Prog α) (u : FS) (p : Prog α) (s : FS) : Prop :=
  ∃ t m, Reach p0 u p t ∧ Mid p t m ∧ Agree B s m

theorem Follows.start {p : Prog α} {u s : FS} (h : Agree B s u) : Follows B p u p s := ⟨u, u, .here, .now, h⟩

/-- Others change nothing that matters. -/
theorem Follows.stay {p0 p : Prog α} {u s s' : FS} (h : Follows B p0 u p s) (ha : Agree B s' s) : Follows B p0 u p s' := by
  obtain ⟨t, m, h1, h2, h3⟩ := h
  exact ⟨t, m, h1, h2, ha.trans h3⟩

theorem Follows.wf {p0 p : Prog α} {u s : FS} (h : Follows B p0 u p s) (hu : u.WF) (hl : Local B p0) :
    ∃ t m, Reach p0 u p t ∧ Mid p t m ∧ Agree B s m ∧ t.WF ∧ m.WF := by
  obtain ⟨t, m, h1, h2, h3⟩ := h
  exact ⟨t, m, h1, h2, h3, hl.safe.visits_wf hu (h1.visits .here), hl.safe.visits_wf hu (h1.visits h2.visits)⟩

theorem Follows.step {p0 p p' : Prog α} {u s s' : FS} (h : Follows B p0 u p s) (hu : u.WF) (hs : s.WF) (hl : Local B p0)
    (hst : Concurrent.Step p s p' s') : Follows B p0 u p' s' := by
  obtain ⟨t, m, h1, h2, h3, hwt, hwm⟩ := h.wf hu hl
  have hlp := h1.local hl
  cases hst with
  | get =>
    cases h2
    cases hlp with
    | get hk _ =>
      rw [hk s t hs hwt h3]
      exact ⟨t, t, h1.get, .now, h3⟩
  | @op o k =>
    cases hlp with
    | op ho hB _ =>
      obtain ⟨e1, e2⟩ := exec_agree hs hwm hB h3
      cases h2 with
      | now =>
        rw [e1]
        exact ⟨_, _, h1.op, .now, e2⟩
      | @part q b _ _ n =>
        obtain ⟨e3, e4⟩ := exec_write_again (s := t) (p := q) (b := b) (b' := b.take n)
        rw [e1, e3]
        exact ⟨_, _, h1.op, .now, e2.trans (fun x _ => e4 x)⟩
  | @part q b k _ n =>
    cases hlp with
    | op ho hB _ =>
      have hB' : ∀ x, x <+: (FS.Op.write q (b.take n)).target → B x := hB
      obtain ⟨_, e2⟩ := exec_agree hs hwm hB' h3
      refine ⟨t, _, h1, .part n, e2.trans ?_⟩
      cases h2 with
      | now => exact .refl
      | part n' => exact fun x _ => exec_write_again.2 x

end

end Ocfl
