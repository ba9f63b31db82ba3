import Verif.Model.Prog
import Verif.Spec.FS
import Verif.Proofs.Paths
import Verif.Py.DictLemmas
import Mathlib.Data.List.Induction
import Mathlib.Tactic.ByContra

/-! # Lemmas about the file system -/

namespace Ocfl

open Spec

namespace FS

theorem look_nil (s : FS) : look s [] = some .dir := by simp [look]

theorem look_ne {s : FS} {p : Path} (h : p ≠ []) : look s p = Dict.get? s p := by simp [look, h]

theorem look_mem {s : FS} (h : s.WF) {p : Path} {n : Node} (hp : p ≠ []) :
    look s p = some n ↔ (p, n) ∈ s := by
  rw [look_ne hp, Dict.mem_iff_get? h.nk]

theorem look_set {s : FS} {p : Path} {n : Node} (hp : p ≠ []) (q : Path) :
    look (Dict.set s p n) q = if q = p then some n else look s q := by
  by_cases hq : q = []
  · subst hq
    rw [look_nil, look_nil, if_neg (Ne.symm hp)]
  · rw [look_ne hq, look_ne hq, Dict.get?_set]
    by_cases hqp : q = p
    · simp [hqp]
    · simp [hqp, Ne.symm hqp]

theorem look_erase {s : FS} (h : s.WF) {p : Path} (hp : p ≠ []) (q : Path) :
    look (Dict.erase s p) q = if q = p then none else look s q := by
  by_cases hq : q = []
  · subst hq
    rw [look_nil, look_nil, if_neg (Ne.symm hp)]
  · rw [look_ne hq, look_ne hq]
    by_cases hqp : q = p
    · rw [if_pos hqp, hqp, Dict.get?_erase_self h.nk]
    · rw [if_neg hqp, Dict.get?_erase_ne _ (Ne.symm hqp)]

theorem mem_keys_look {s : FS} {p : Path} (hp : p ≠ []) : p ∈ Dict.keys s ↔ look s p ≠ none := by
  rw [look_ne hp, Ne, Dict.get?_eq_none_iff, not_not]

theorem look_keys {s : FS} {p : Path} {n : Node} (hp : p ≠ []) (h : look s p = some n) : p ∈ Dict.keys s := by
  rw [mem_keys_look hp, h]; simp

theorem dropLast_ne {p : Path} (hp : p ≠ []) : p.dropLast ≠ p := by
  intro h
  have := congrArg List.length h
  rw [List.length_dropLast] at this
  have := List.length_pos_iff.mpr hp
  omega

/-- The parent of anything that is there is a directory. -/
theorem look_parent {s : FS} (h : s.WF) {p : Path} {n : Node} (hl : look s p = some n) :
    look s p.dropLast = some .dir := by
  by_cases hp : p = []
  · subst hp; exact look_nil s
  · exact h.parent p (look_keys hp hl)

theorem look_above {s : FS} (h : s.WF) {p : Path} (r : Path) : ∀ {n : Node}, r ≠ [] →
    look s (p ++ r) = some n → look s p = some .dir := by
  induction r using List.reverseRecOn with
  | nil => intro n hr; exact absurd rfl hr
  | append_singleton r w ih =>
    intro n _ hl
    have h1 := look_parent h hl
    rw [← List.append_assoc, List.dropLast_concat] at h1
    by_cases hr : r = []
    · subst hr; simpa using h1
    · exact ih hr h1

/-- Every proper prefix of a path that is there is a directory. -/
theorem look_prefix {s : FS} (h : s.WF) {p q : Path} {n : Node} (hpq : p <+: q) (hne : p ≠ q)
    (hl : look s q = some n) : look s p = some .dir := by
  obtain ⟨r, rfl⟩ := hpq
  apply look_above h r _ hl
  rintro rfl
  simp at hne

/-- Below something that is not a directory there is nothing. -/
theorem look_below_none {s : FS} (h : s.WF) {p q : Path} (hpq : p <+: q) (hne : p ≠ q)
    (hl : look s p ≠ some .dir) : look s q = none := by
  cases hq : look s q with
  | none => rfl
  | some n => exact absurd (look_prefix h hpq hne hq) hl

theorem look_names {s : FS} (h : s.WF) {p : Path} {n : Node} (hl : look s p = some n) :
    ∀ w ∈ p, SafeName w := by
  by_cases hp : p = []
  · subst hp; simp
  · exact h.names p (look_keys hp hl)

theorem WF_nil : WF ([] : FS) :=
  ⟨by simp [Dict.NK], by simp [Dict.keys], by simp [Dict.keys], by simp [Dict.keys]⟩

theorem WF_set {s : FS} (h : s.WF) {p : Path} {n : Node} (hp : p ≠ []) (hpar : look s p.dropLast = some .dir)
    (hnames : ∀ w ∈ p, SafeName w) (hkind : look s p = some .dir → n = .dir) : WF (Dict.set s p n) where
  nk := Dict.NK_set h.nk _ _
  noRoot := by
    rw [Dict.mem_keys_set]
    rintro (hc | hc)
    · exact hp hc.symm
    · exact h.noRoot hc
  parent := by
    intro q hq
    rw [look_set hp]
    rw [Dict.mem_keys_set] at hq
    by_cases hqp : q.dropLast = p
    · rw [if_pos hqp]
      rcases hq with rfl | hq
      · exact absurd hqp (dropLast_ne hp)
      · have h1 := h.parent q hq
        rw [hqp] at h1
        rw [hkind h1]
    · rw [if_neg hqp]
      rcases hq with rfl | hq
      · exact hpar
      · exact h.parent q hq
  names := by
    intro q hq
    rw [Dict.mem_keys_set] at hq
    rcases hq with rfl | hq
    · exact hnames
    · exact h.names q hq

theorem WF_erase {s : FS} (h : s.WF) {p : Path} {b : Bytes} (hl : look s p = some (.file b)) :
    WF (Dict.erase s p) := by
  have hp : p ≠ [] := by rintro rfl; rw [look_nil] at hl; cases hl
  exact {
    nk := Dict.NK_erase h.nk _
    noRoot := fun hc => h.noRoot ((Dict.mem_keys_erase h.nk).mp hc).2
    parent := by
      intro q hq
      rw [Dict.mem_keys_erase h.nk] at hq
      rw [look_erase h hp]
      by_cases hqp : q.dropLast = p
      · have h1 := h.parent q hq.2
        rw [hqp, hl] at h1
        cases h1
      · rw [if_neg hqp]
        exact h.parent q hq.2
    names := fun q hq => h.names q ((Dict.mem_keys_erase h.nk).mp hq).2 }

/-! ## Resolving names -/

theorem resolve_nil (base : Path) : resolve base [] = base := by
  simp [resolve, splitOn, normStep]

theorem resolve_join (base : Path) {ws : List Str} (h : ∀ w ∈ ws, SafeName w) :
    resolve base (joinWith '/' ws) = base ++ ws := by
  unfold resolve
  by_cases hne : ws = []
  · subst hne; simp [joinWith, splitOn, normStep]
  · rw [splitOn_joinWith hne (fun w hw => (h w hw).2.2.2), foldl_normStep h]

theorem resolve_slash_join (base : Path) {ws : List Str} (h : ∀ w ∈ ws, SafeName w) :
    resolve base ('/' :: joinWith '/' ws) = base ++ ws := by
  have : resolve base ('/' :: joinWith '/' ws) = resolve base (joinWith '/' ws) := by
    simp [resolve, splitOn, normStep]
  rw [this, resolve_join base h]

theorem resolve_name (base : Path) {w : Str} (h : SafeName w) : resolve base w = base ++ [w] := by
  have := resolve_join base (ws := [w]) (by simpa using h)
  simpa [joinWith] using this

/-! ## Directory listings -/

theorem path_split {k p : Path} (h : k ≠ []) (hp : k.dropLast = p) : p ++ [k.getLast?.getD []] = k := by
  subst hp
  rw [List.getLast?_eq_some_getLast h]
  exact List.dropLast_concat_getLast h

theorem mem_children {s : FS} (h : s.WF) {p : Path} {w : Str} {n : Node} :
    (w, n) ∈ children s p ↔ look s (p ++ [w]) = some n := by
  unfold children
  rw [List.mem_filterMap, look_mem h (by simp)]
  constructor
  · rintro ⟨⟨k, m⟩, hk, he⟩
    dsimp only at he
    split at he
    · rename_i hc
      cases he
      rw [path_split hc.1 hc.2]
      exact hk
    · cases he
  · intro hk
    refine ⟨(p ++ [w], n), hk, ?_⟩
    simp

theorem children_names_nodup {s : FS} (h : s.WF) (p : Path) : ((children s p).map Prod.fst).Nodup := by
  have hnk : (s.map Prod.fst).Nodup := h.nk
  have key : ∀ (l : FS), (l.map Prod.fst).Nodup →
      ((l.filterMap (fun (k, n) => if k ≠ [] ∧ k.dropLast = p then some (k.getLast?.getD [], n) else none)).map
        Prod.fst).Nodup := by
    intro l
    induction l with
    | nil => simp
    | cons x l ih =>
      intro hn
      obtain ⟨k, m⟩ := x
      rw [List.map_cons, List.nodup_cons] at hn
      rw [List.filterMap_cons]
      dsimp only
      by_cases hc : k ≠ [] ∧ k.dropLast = p
      · rw [if_pos hc]
        dsimp only
        rw [List.map_cons, List.nodup_cons]
        refine ⟨?_, ih hn.2⟩
        intro hm
        rw [List.mem_map] at hm
        obtain ⟨⟨w, n⟩, hm, hw⟩ := hm
        rw [List.mem_filterMap] at hm
        obtain ⟨⟨k', n'⟩, hk', he⟩ := hm
        dsimp only at he
        split at he
        · rename_i hc'
          cases he
          apply hn.1
          have e1 := path_split hc.1 hc.2
          have e2 := path_split hc'.1 hc'.2
          dsimp only at hw
          rw [hw] at e2
          rw [← e1, e2]
          exact List.mem_map.mpr ⟨(k', _), hk', rfl⟩
        · cases he
      · rw [if_neg hc]
        exact ih hn.2
  exact key s hnk

theorem children_safe {s : FS} (h : s.WF) {p : Path} {w : Str} {n : Node} (hm : (w, n) ∈ children s p) : SafeName w :=
  look_names h ((mem_children h).mp hm) w (by simp)

/-! ## Operations -/

theorem exec_mkdir_ok {s s' : FS} {p : Path} (h : exec (.mkdir p) s = (s', .ok ())) :
    p ≠ [] ∧ look s p = none ∧ look s p.dropLast = some .dir ∧ s' = Dict.set s p .dir := by
  unfold exec at h
  dsimp only at h
  cases hl : look s p with
  | some n => rw [hl] at h; simp at h
  | none =>
    rw [hl] at h
    dsimp only at h
    unfold noParent at h
    have hp : p ≠ [] := by rintro rfl; rw [look_nil] at hl; cases hl
    cases hd : look s p.dropLast with
    | none => rw [hd] at h; simp at h
    | some n =>
      cases n with
      | file b => rw [hd] at h; simp at h
      | dir =>
        rw [hd] at h
        simp only [Prod.mk.injEq, and_true] at h
        exact ⟨hp, rfl, rfl, h.symm⟩

theorem exec_mkdir {s : FS} {p : Path} (hl : look s p = none) (hd : look s p.dropLast = some .dir) :
    exec (.mkdir p) s = (Dict.set s p .dir, .ok ()) := by
  simp [exec, hl, noParent, hd]

theorem exec_write_ok {s s' : FS} {p : Path} {b : Bytes} (h : exec (.write p b) s = (s', .ok ())) :
    p ≠ [] ∧ look s p ≠ some .dir ∧ look s p.dropLast = some .dir ∧ s' = Dict.set s p (.file b) := by
  unfold exec at h
  dsimp only at h
  by_cases hl : look s p = some .dir
  · rw [hl] at h; simp at h
  · have hp : p ≠ [] := by rintro rfl; exact hl (look_nil s)
    have h' : (match noParent s p with
      | some e => (s, Except.error e)
      | none => (Dict.set s p (.file b), .ok ())) = (s', Except.ok ()) := by
      cases hx : look s p with
      | none => rw [hx] at h; exact h
      | some n =>
        cases n with
        | dir => exact absurd hx hl
        | file c => rw [hx] at h; exact h
    unfold noParent at h'
    cases hd : look s p.dropLast with
    | none => rw [hd] at h'; simp at h'
    | some n =>
      cases n with
      | file b => rw [hd] at h'; simp at h'
      | dir =>
        rw [hd] at h'
        simp only [Prod.mk.injEq, and_true] at h'
        exact ⟨hp, hl, rfl, h'.symm⟩

theorem exec_write {s : FS} {p : Path} {b : Bytes} (hl : look s p ≠ some .dir) (hd : look s p.dropLast = some .dir) :
    exec (.write p b) s = (Dict.set s p (.file b), .ok ()) := by
  unfold exec
  dsimp only
  cases hx : look s p with
  | none => simp [noParent, hd]
  | some n =>
    cases n with
    | dir => exact absurd hx hl
    | file c => simp [noParent, hd]

theorem exec_error {o : Op} {s s' : FS} {e : PyErr} (h : exec o s = (s', .error e)) : s' = s := by
  unfold exec at h
  cases o <;> dsimp only at h <;> split at h <;> (try split at h) <;> simp at h <;> exact h.1.symm

theorem exec_error' {o : Op} {s : FS} {e : PyErr} (h : (exec o s).2 = .error e) : (exec o s).1 = s := by
  exact exec_error (o := o) (s := s) (e := e) (by rw [← h])

end FS

/-! ## Running programs -/

namespace Prog

variable {α β : Type}

@[simp] theorem run_ret (r : Py α) (s : FS) : run (.ret r) s = (s, r) := rfl
@[simp] theorem run_get (k : FS → Prog α) (s : FS) : run (.get k) s = run (k s) s := rfl
@[simp] theorem run_look (f : FS → Py α) (s : FS) : run (look f) s = (s, f s) := rfl
@[simp] theorem run_perform (o : FS.Op) (s : FS) : run (perform o) s = FS.exec o s := rfl
@[simp] theorem run_raise (e : PyErr) (s : FS) : run (raise e : Prog α) s = (s, .error e) := rfl

theorem run_bind (p : Prog α) (f : α → Prog β) (s : FS) :
    run (bind p f) s = match run p s with
      | (s', .ok a) => run (f a) s'
      | (s', .error e) => (s', .error e) := by
  induction p generalizing s with
  | ret r => cases r <;> rfl
  | get k ih => exact ih s s
  | op o k ih => exact ih _ _

theorem run_handle (p : Prog α) (h : PyErr → Prog α) (s : FS) :
    run (handle p h) s = match run p s with
      | (s', .ok a) => (s', .ok a)
      | (s', .error e) => run (h e) s' := by
  induction p generalizing s with
  | ret r => cases r <;> rfl
  | get k ih => exact ih s s
  | op o k ih => exact ih _ _

theorem run_bind_ok {p : Prog α} {f : α → Prog β} {s s1 : FS} {a : α} (h : run p s = (s1, .ok a)) :
    run (bind p f) s = run (f a) s1 := by rw [run_bind, h]

theorem run_bind_error {p : Prog α} {f : α → Prog β} {s s1 : FS} {e : PyErr} (h : run p s = (s1, .error e)) :
    run (bind p f) s = (s1, .error e) := by rw [run_bind, h]

/-- A successful run of two programs in a row. -/
theorem run_bind_inv {p : Prog α} {f : α → Prog β} {s s2 : FS} {b : β} (h : run (bind p f) s = (s2, .ok b)) :
    ∃ s1 a, run p s = (s1, .ok a) ∧ run (f a) s1 = (s2, .ok b) := by
  rw [run_bind] at h
  cases hp : run p s with
  | mk s1 r =>
    rw [hp] at h
    cases r with
    | error e => simp at h
    | ok a => exact ⟨s1, a, rfl, h⟩

end Prog

/-! ## Creating directories -/

namespace FS

open Prog

/-- No file is in the way of the directory `p`. -/
def Clear (s : FS) (p : Path) : Prop := ∀ q, q <+: p → look s q = none ∨ look s q = some .dir

theorem prefix_concat {q p : Path} {w : Str} : q <+: p ++ [w] ↔ q = p ++ [w] ∨ q <+: p := List.prefix_concat_iff

theorem clear_concat {s : FS} {p : Path} {w : Str} :
    Clear s (p ++ [w]) ↔ Clear s p ∧ (look s (p ++ [w]) = none ∨ look s (p ++ [w]) = some .dir) := by
  unfold Clear
  constructor
  · intro h
    exact ⟨fun q hq => h q (prefix_concat.mpr (Or.inr hq)), h _ List.prefix_rfl⟩
  · rintro ⟨h1, h2⟩ q hq
    rcases prefix_concat.mp hq with rfl | hq
    · exact h2
    · exact h1 q hq

theorem clear_of_dir {s : FS} (h : s.WF) {p : Path} (hd : look s p = some .dir) : Clear s p := by
  intro q hq
  by_cases he : q = p
  · subst he; exact Or.inr hd
  · exact Or.inr (look_prefix h hq he hd)

theorem makedirsRev_cons (existOk : Bool) (w : Str) (rev : List Str) (s : FS) :
    run (makedirsRev existOk (w :: rev)) s =
      run (let last : Prog Unit := Prog.handle (Prog.perform (.mkdir (w :: rev).reverse)) (fun e =>
          Prog.look (fun s => if existOk && isdir s (w :: rev).reverse then .ok () else .error e))
        if exists_ s rev.reverse then last
        else Prog.bind
          (Prog.handle (makedirsRev existOk rev)
            (fun e => if e = .fileExists then .ret (.ok ()) else .ret (.error e)))
          (fun _ => last)) s := rfl

/-- The final step of `makedirs`. -/
theorem run_last (existOk : Bool) (p : Path) (s : FS) :
    run (Prog.handle (Prog.perform (.mkdir p)) (fun e =>
          Prog.look (fun s => if existOk && isdir s p then .ok () else .error e))) s =
      match exec (.mkdir p) s with
      | (s', .ok ()) => (s', .ok ())
      | (s', .error e) => (s', if existOk && isdir s' p then .ok () else .error e) := by
  rw [run_handle, run_perform]
  rcases exec (.mkdir p) s with ⟨s', r⟩
  cases r <;> rfl

/-- `makedirs` in a state without obstacles: afterwards exactly the directories on the way are
there in addition. -/
theorem run_makedirs_ok {s : FS} (h : s.WF) {p : Path} (eo : Bool) (hn : ∀ w ∈ p, SafeName w) (hc : Clear s p)
    (heo : eo = true ∨ look s p = none) :
    ∃ s', run (makedirs p eo) s = (s', .ok ()) ∧ s'.WF ∧
      ∀ q, look s' q = if q <+: p then some .dir else look s q := by
  induction p using List.reverseRecOn with
  | nil =>
    have heo : eo = true := by
      rcases heo with h1 | h1
      · exact h1
      · rw [look_nil] at h1; cases h1
    subst heo
    refine ⟨s, rfl, h, fun q => ?_⟩
    by_cases hq : q = []
    · subst hq; simp [look_nil]
    · simp [hq]
  | append_singleton p w ih =>
    rw [clear_concat] at hc
    have hn' : ∀ x ∈ p, SafeName x := fun x hx => hn x (by simp [hx])
    have hrev : (p ++ [w]).reverse = w :: p.reverse := by simp
    have hback : (w :: p.reverse).reverse = p ++ [w] := by simp
    unfold makedirs
    rw [hrev, makedirsRev_cons]
    dsimp only
    rw [hback, List.reverse_reverse]
    -- the state once the parent is there
    have fin : ∀ s1 : FS, s1.WF → look s1 p = some .dir → look s1 (p ++ [w]) = look s (p ++ [w]) →
        ∃ s', run (Prog.handle (Prog.perform (.mkdir (p ++ [w]))) (fun e =>
          Prog.look (fun s => if eo && isdir s (p ++ [w]) then .ok () else .error e))) s1 = (s', .ok ()) ∧ s'.WF ∧
          ∀ q, look s' q = if q = p ++ [w] then some .dir else look s1 q := by
      intro s1 h1 hp hx
      rw [run_last]
      rcases hc.2 with hx' | hx'
      · rw [hx'] at hx
        rw [exec_mkdir hx (by rw [List.dropLast_concat]; exact hp)]
        refine ⟨_, rfl, WF_set h1 (by simp) (by rw [List.dropLast_concat]; exact hp) hn (fun _ => rfl), ?_⟩
        exact look_set (by simp)
      · rw [hx'] at hx
        refine ⟨s1, ?_, h1, ?_⟩
        · have : exec (.mkdir (p ++ [w])) s1 = (s1, .error .fileExists) := by simp [exec, hx]
          rw [this]
          rcases heo with heo | heo
          · simp [isdir, hx, heo]
          · rw [heo] at hx'; cases hx'
        · intro q
          by_cases hq : q = p ++ [w]
          · rw [if_pos hq, hq, hx]
          · rw [if_neg hq]
    by_cases hex : exists_ s p = true
    · rw [if_pos hex]
      have hp : look s p = some .dir := by
        rcases hc.1 p List.prefix_rfl with h1 | h1
        · unfold exists_ at hex; rw [h1] at hex; cases hex
        · exact h1
      obtain ⟨s', e, hw, hl⟩ := fin s h hp rfl
      refine ⟨s', e, hw, fun q => ?_⟩
      rw [hl]
      by_cases hq : q = p ++ [w]
      · rw [if_pos hq, if_pos (prefix_concat.mpr (Or.inl hq))]
      · rw [if_neg hq]
        by_cases hqp : q <+: p
        · rw [if_pos (prefix_concat.mpr (Or.inr hqp))]
          rcases eq_or_ne q p with rfl | hne
          · exact hp
          · exact look_prefix h hqp hne hp
        · rw [if_neg (fun hc => (prefix_concat.mp hc).elim hq hqp)]
    · rw [if_neg hex]
      have hnone : look s p = none := by
        unfold exists_ at hex
        cases hx : look s p with
        | none => rfl
        | some n => rw [hx] at hex; simp at hex
      obtain ⟨s1, e1, hw1, hl1⟩ := ih hn' hc.1 (Or.inr hnone)
      have e1' : run (makedirsRev eo p.reverse) s = (s1, .ok ()) := e1
      have hp : look s1 p = some .dir := by rw [hl1, if_pos List.prefix_rfl]
      have hx : look s1 (p ++ [w]) = look s (p ++ [w]) := by
        rw [hl1, if_neg]
        intro hpre
        have := hpre.length_le
        rw [List.length_append, List.length_singleton] at this
        omega
      obtain ⟨s', e, hw, hl⟩ := fin s1 hw1 hp hx
      refine ⟨s', ?_, hw, fun q => ?_⟩
      · rw [run_bind_ok (a := ()) (s1 := s1)]
        · exact e
        · rw [run_handle, e1']
      · rw [hl]
        by_cases hq : q = p ++ [w]
        · rw [if_pos hq, if_pos (prefix_concat.mpr (Or.inl hq))]
        · rw [if_neg hq, hl1]
          by_cases hqp : q <+: p
          · rw [if_pos hqp, if_pos (prefix_concat.mpr (Or.inr hqp))]
          · rw [if_neg hqp, if_neg (fun hc => (prefix_concat.mp hc).elim hq hqp)]

/-- A file in the way makes `makedirs` fail, and then nothing has changed. -/
theorem run_makedirs_error {s : FS} (h : s.WF) {p : Path} (eo : Bool) (hc : ¬ Clear s p) :
    ∃ e, run (makedirs p eo) s = (s, .error e) := by
  induction p using List.reverseRecOn with
  | nil =>
    exfalso
    apply hc
    intro q hq
    rw [List.prefix_nil.mp hq]
    exact Or.inr (look_nil s)
  | append_singleton p w ih =>
    have hrev : (p ++ [w]).reverse = w :: p.reverse := by simp
    have hback : (w :: p.reverse).reverse = p ++ [w] := by simp
    unfold makedirs
    rw [hrev, makedirsRev_cons]
    dsimp only
    rw [hback, List.reverse_reverse]
    have hnd : look s (p ++ [w]) ≠ some .dir := fun hd => hc (clear_of_dir h hd)
    have hnp : look s (p ++ [w]) = none → look s p ≠ some .dir := by
      intro hx hd
      exact hc (clear_concat.mpr ⟨clear_of_dir h hd, Or.inl hx⟩)
    have fin : ∃ e, run (Prog.handle (Prog.perform (.mkdir (p ++ [w]))) (fun e =>
          Prog.look (fun s => if eo && isdir s (p ++ [w]) then .ok () else .error e))) s = (s, .error e) := by
      rw [run_last]
      rcases he : exec (.mkdir (p ++ [w])) s with ⟨s', r⟩
      cases r with
      | ok u =>
        exfalso
        have := exec_mkdir_ok he
        rw [List.dropLast_concat] at this
        exact hnp this.2.1 this.2.2.1
      | error e =>
        have := exec_error he
        subst this
        refine ⟨e, ?_⟩
        simp [isdir, hnd]
    by_cases hex : exists_ s p = true
    · rw [if_pos hex]; exact fin
    · rw [if_neg hex]
      have hnone : look s p = none := by
        unfold exists_ at hex
        cases hx : look s p with
        | none => rfl
        | some n => rw [hx] at hex; simp at hex
      have hx : look s (p ++ [w]) = none := by
        apply look_below_none h (p := p) (List.prefix_append _ _)
        · intro hc; have := congrArg List.length hc; simp at this
        · rw [hnone]; simp
      obtain ⟨e, he⟩ := ih (fun hcl => hc (clear_concat.mpr ⟨hcl, Or.inl hx⟩))
      have he' : run (makedirsRev eo p.reverse) s = (s, .error e) := he
      rw [run_bind, run_handle, he']
      dsimp only
      by_cases hfe : e = .fileExists
      · rw [if_pos hfe]; exact fin
      · rw [if_neg hfe]; exact ⟨e, rfl⟩

theorem run_makedirs_inv {s s' : FS} (h : s.WF) {p : Path} {eo : Bool}
    (hr : run (makedirs p eo) s = (s', .ok ())) : Clear s p := by
  by_contra hc
  obtain ⟨e, he⟩ := run_makedirs_error h eo hc
  rw [he] at hr
  simp at hr

/-- `makedir` of a path that is there fails. -/
theorem run_makedir_exists {s : FS} {p : Path} (hl : look s p ≠ none) :
    run (makedir p) s = (s, .error .fileExists) := by
  unfold makedir
  rw [run_get, if_pos]
  · rfl
  · unfold exists_; exact Option.isSome_iff_ne_none.mpr hl

theorem run_makedir_absent {s : FS} {p : Path} (hl : look s p = none) :
    run (makedir p) s = run (makedirs p true) s := by
  unfold makedir
  rw [run_get, if_neg]
  unfold exists_; rw [hl]; simp

end FS
end Ocfl
