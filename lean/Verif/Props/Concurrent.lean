import Verif.Model.Concurrent
import Verif.Proofs.Only
import Verif.Props.ExampleObject
import Verif.Model.Validator
import Mathlib.Logic.Function.Basic

/-!
# C65: several writers
-/

namespace Ocfl

open Spec FS Prog Concurrent

theorem writeNewVersion_with (E : Env) (o : Obj) (base src : Path) (nv : NV) :
    writeNewVersion E o base src nv = writeNewVersionWith makedir E o base src nv := rfl

/-- No operation makes a directory go away. -/
theorem exec_dir {s : FS} {q : Path} (h : look s q = some .dir) (o : Op) : look (exec o s).1 q = some .dir := by
  by_cases ht : o.target = q
  · subst ht
    cases o with
    | mkdir p =>
      have h : look s p = some .dir := h
      show look (exec (.mkdir p) s).1 p = _
      unfold exec
      dsimp only
      rw [h]
      exact h
    | write p b =>
      have h : look s p = some .dir := h
      show look (exec (.write p b) s).1 p = _
      unfold exec
      dsimp only
      rw [h]
      exact h
    | remove p =>
      have h : look s p = some .dir := h
      show look (exec (.remove p) s).1 p = _
      unfold exec
      dsimp only
      rw [h]
      exact h
  · rw [exec_frame ht]; exact h

/-! ## A writer before it has made its directory -/

variable {ι α : Type} [DecidableEq ι]

/-- What is left of a writer that has not made the directory: nothing but the removal of a file in `W`, the creation of the
directory and all that follows, `M`, or an exception. -/
inductive Early (W : Path → Prop) (M : Prog α) : Prog α → Prop
  | about : Early W M M
  | look {w : Path} : W w →
      Early W M (.get (fun s => if isdir s w then .ret (.error .valueError) else .op (.remove w) (fun r => Prog.bind (.ret r) (fun _ => M))))
  | remove {w : Path} : W w → Early W M (.op (.remove w) (fun r => Prog.bind (.ret r) (fun _ => M)))
  | lost (e : PyErr) : Early W M (.ret (.error e))

/-- The old sidecar of an update that changes the digest algorithm. -/
def OldSidecar (base : Path) (nv : NV) (w : Path) : Prop :=
  ∃ a, nv.oldDigestAlgorithm = some a ∧ nv.inv.digestAlgorithm ≠ some a ∧ w = resolve base (c!"inventory.json." ++ a)

/-- All that follows on the creation of the directory. -/
def afterMkdir (E : Env) (o : Obj) (base src : Path) (nv : NV) (head : Str) : Prog Inv :=
  Prog.bind (copyAll base src nv.filesToCopy) (fun _ =>
  Prog.bind (writeInventoryAndSidecar E o base (some nv.inv) head) (fun _ =>
  Prog.bind (writeInventoryAndSidecar E o base (some nv.inv) []) (fun _ => .ret (.ok nv.inv))))

theorem early_start (E : Env) (o : Obj) (base src : Path) (nv : NV) {head : Str} (hh : nv.inv.head = some head) :
    Early (OldSidecar base nv) (.op (.mkdir (resolve base head)) (fun r => Prog.bind (.ret r) (fun _ => afterMkdir E o base src nv head)))
      (writeNewVersionWith atomicMkdir E o base src nv) := by
  unfold writeNewVersionWith
  rw [hh]
  dsimp only
  unfold removeOldSidecar
  cases ha : nv.oldDigestAlgorithm with
  | none => exact .about
  | some a =>
    dsimp only
    split_ifs with hne
    · have e : ∀ (M : Prog Inv), Prog.bind (FS.rm (resolve base (inventoryFilename ++ c!"." ++ a))) (fun _ => M) =
          .get (fun s => if isdir s (resolve base (c!"inventory.json." ++ a)) then .ret (.error .valueError)
            else .op (.remove (resolve base (c!"inventory.json." ++ a))) (fun r => Prog.bind (.ret r) (fun _ => M))) := by
        intro M
        unfold FS.rm
        show Prog.get _ = Prog.get _
        congr 1
        funext s
        have : inventoryFilename ++ c!"." ++ a = c!"inventory.json." ++ a := rfl
        rw [this]
        dsimp only
        split_ifs <;> rfl
      have h := e (.op (.mkdir (resolve base head)) (fun r => Prog.bind (.ret r) (fun _ => afterMkdir E o base src nv head)))
      refine cast (congrArg _ h.symm) (Early.look ⟨a, ha, hne, rfl⟩)
    · exact .about

/-- The state of affairs: `won` is the writer that has made the directory `v`. -/
structure Race (W : ι → Path → Prop) (v : Path) (K : ι → Prog α) (won : Option ι) (P : ι → Prog α) (s : FS) : Prop where
  dir : won ≠ none → look s v = some .dir
  early : ∀ i, won ≠ some i → Early (W i) (.op (.mkdir v) (fun r => Prog.bind (.ret r) (fun _ => K i))) (P i)

/-- The event is the creation of the directory `v`. -/
def Event.Makes (v : Path) (e : Event ι) : Prop := e.op = .mkdir v ∧ e.outcome = .ok ()

/-- What happens in a race. -/
theorem race {W : ι → Path → Prop} {v : Path} {K : ι → Prog α} {P P' : ι → Prog α} {s s' : FS} {t : List (Event ι)}
    (h : Runs P s t P' s') : ∀ {won : Option ι}, Race W v K won P s →
    ∃ won', Race W v K won' P' s' ∧ (∀ i, won = some i → won' = some i) ∧
      (∀ e ∈ t, Event.Makes v e → won = none ∧ won' = some e.who) ∧
      (won' = won ∨ ∃ e ∈ t, Event.Makes v e) ∧
      ∀ i, won' ≠ some i → ∀ e ∈ t, e.who = i → (∃ w, W i w ∧ e.op = .remove w) ∨ (e.op = .mkdir v ∧ ∃ x, e.outcome = .error x) := by
  induction h with
  | here => exact fun {won} hr => ⟨won, hr, fun _ h => h, by simp, .inl rfl, by simp⟩
  | @get P P' s s' t k i hi _ ih =>
    intro won hr
    apply ih
    refine ⟨hr.dir, fun j hj => ?_⟩
    by_cases hji : j = i
    · subst hji
      rw [Function.update_self]
      have he := hr.early j hj
      rw [hi] at he
      cases he with
      | look hw =>
        dsimp only
        split_ifs
        · exact .lost _
        · exact .remove hw
    · rw [Function.update_of_ne hji]
      exact hr.early j hj
  | @op P P' s s' t o k i hi _ ih =>
    intro won hr
    by_cases hwon : won = some i
    · -- the step of the winner
      have hd := hr.dir (by rw [hwon]; simp)
      obtain ⟨won', h1, h2, h3, h4, h5⟩ := ih (won := won) ⟨fun _ => exec_dir hd o, fun j hj => by
        have hji : j ≠ i := by rintro rfl; exact hj hwon
        rw [Function.update_of_ne hji]
        exact hr.early j hj⟩
      refine ⟨won', h1, h2, ?_, ?_, ?_⟩
      · intro e he hm
        rcases List.mem_cons.mp he with rfl | he
        · exfalso
          obtain ⟨ho, hok⟩ := hm
          dsimp only at ho hok
          subst ho
          unfold exec at hok
          dsimp only at hok
          rw [hd] at hok
          cases hok
        · exact h3 e he hm
      · rcases h4 with h4 | ⟨e, he, hm⟩
        · exact .inl h4
        · exact .inr ⟨e, by simp [he], hm⟩
      · intro j hj e he hw
        rcases List.mem_cons.mp he with rfl | he
        · dsimp only at hw
          subst hw
          exact absurd (h2 i hwon) hj
        · exact h5 j hj e he hw
    · -- the step of another writer
      have he := hr.early i hwon
      rw [hi] at he
      cases he with
      | about =>
        cases hx : (exec (.mkdir v) s).2 with
        | error x =>
          have hs := exec_error' hx
          obtain ⟨won', h1, h2, h3, h4, h5⟩ := ih (won := won) ⟨fun h => exec_dir (hr.dir h) _, fun j hj => by
            by_cases hji : j = i
            · subst hji
              rw [Function.update_self, hx]
              exact .lost _
            · rw [Function.update_of_ne hji]
              exact hr.early j hj⟩
          refine ⟨won', h1, h2, ?_, ?_, ?_⟩
          · intro e he hm
            rcases List.mem_cons.mp he with rfl | he
            · exfalso
              have := hm.2
              dsimp only at this
              cases this
            · exact h3 e he hm
          · rcases h4 with h4 | ⟨e, he, hm⟩
            · exact .inl h4
            · exact .inr ⟨e, by simp [he], hm⟩
          · intro j hj e he hw
            rcases List.mem_cons.mp he with rfl | he
            · exact .inr ⟨rfl, x, rfl⟩
            · exact h5 j hj e he hw
        | ok u =>
          have hpair : exec (.mkdir v) s = ((exec (.mkdir v) s).1, .ok ()) := Prod.ext rfl hx
          have hnone : won = none := by
            by_contra hn
            have hd := hr.dir hn
            unfold exec at hx
            dsimp only at hx
            rw [hd] at hx
            cases hx
          have hmk := exec_mkdir_ok hpair
          have hdir : look (exec (.mkdir v) s).1 v = some .dir := by
            have hv : v ≠ [] := by
              rintro rfl
              unfold exec at hx
              dsimp only at hx
              rw [look_nil] at hx
              cases hx
            rw [hmk.2.2.2, look_set hv, if_pos rfl]
          obtain ⟨won', h1, h2, h3, h4, h5⟩ := ih (won := some i) ⟨fun _ => hdir, fun j hj => by
            have hji : j ≠ i := by rintro rfl; exact hj rfl
            rw [Function.update_of_ne hji]
            exact hr.early j (by rw [hnone]; simp)⟩
          refine ⟨won', h1, (fun j hj => by rw [hnone] at hj; cases hj), ?_, ?_, ?_⟩
          · intro e he hm
            rcases List.mem_cons.mp he with rfl | he
            · exact ⟨hnone, h2 i rfl⟩
            · exact absurd (h3 e he hm).1 (by simp)
          · exact .inr ⟨_, List.mem_cons_self, rfl, rfl⟩
          · intro j hj e he hw
            rcases List.mem_cons.mp he with rfl | he
            · dsimp only at hw
              subst hw
              exact absurd (h2 i rfl) hj
            · exact h5 j hj e he hw
      | @remove w hw =>
        obtain ⟨won', h1, h2, h3, h4, h5⟩ := ih (won := won) ⟨fun h => exec_dir (hr.dir h) _, fun j hj => by
          by_cases hji : j = i
          · subst hji
            rw [Function.update_self]
            cases (exec (.remove w) s).2 with
            | error x => exact .lost _
            | ok u => exact .about
          · rw [Function.update_of_ne hji]
            exact hr.early j hj⟩
        refine ⟨won', h1, h2, ?_, ?_, ?_⟩
        · intro e he hm
          rcases List.mem_cons.mp he with rfl | he
          · cases hm.1
          · exact h3 e he hm
        · rcases h4 with h4 | ⟨e, he, hm⟩
          · exact .inl h4
          · exact .inr ⟨e, by simp [he], hm⟩
        · intro j hj e he hj'
          rcases List.mem_cons.mp he with rfl | he
          · dsimp only at hj'
            subst hj'
            exact .inl ⟨w, hw, rfl⟩
          · exact h5 j hj e he hj'

/-- **C65**: any number of writers that want to write the same version of an object, with atomic creation of
directories. In every interleaving at most one of them makes the version directory. Of the others none completes, and all
that any of them has done is to try to make the directory and, if the digest algorithm changes, to remove the root sidecar of
the old one. `C65_violated` shows that directories must be made in one step. -/
theorem C65 {E : ι → Env} {o : ι → Obj} {base : Path} {src : ι → Path} {nv : ι → NV} {head : Str}
    (hh : ∀ i, (nv i).inv.head = some head) {s s' : FS} {t : List (Event ι)} {P : ι → Prog Inv}
    (h : Runs (fun i => writeNewVersionWith atomicMkdir (E i) (o i) base (src i) (nv i)) s t P s') :
    ∃ winner : Option ι,
      (∀ e ∈ t, e.op = .mkdir (resolve base head) → e.outcome = .ok () → winner = some e.who) ∧
      ∀ i, winner ≠ some i →
        (∀ r, P i = .ret r → ∃ x, r = .error x) ∧
        ∀ e ∈ t, e.who = i → (∃ a, (nv i).oldDigestAlgorithm = some a ∧ (nv i).inv.digestAlgorithm ≠ some a ∧
            e.op = .remove (resolve base (c!"inventory.json." ++ a))) ∨
          (e.op = .mkdir (resolve base head) ∧ ∃ x, e.outcome = .error x) := by
  obtain ⟨won', h1, _, h3, _, h5⟩ := race (W := fun i => OldSidecar base (nv i)) (v := resolve base head)
    (K := fun i => afterMkdir (E i) (o i) base (src i) (nv i) head) h (won := none)
    ⟨fun h => absurd rfl h, fun i _ => early_start (E i) (o i) base (src i) (nv i) (hh i)⟩
  refine ⟨won', fun e he hm hk => (h3 e he ⟨hm, hk⟩).2, fun i hi => ⟨fun r hp => ?_, fun e he hw => ?_⟩⟩
  · have := h1.early i hi
    rw [hp] at this
    cases this with
    | lost x => exact ⟨x, rfl⟩
  · rcases h5 i hi e he hw with ⟨w, ⟨a, ha, hne, rfl⟩, hop⟩ | hx
    · exact .inl ⟨a, ha, hne, hop⟩
    · exact .inr hx

/-- No two of them complete. -/
theorem C65_one {E : ι → Env} {o : ι → Obj} {base : Path} {src : ι → Path} {nv : ι → NV} {head : Str}
    (hh : ∀ i, (nv i).inv.head = some head) {s s' : FS} {t : List (Event ι)} {P : ι → Prog Inv}
    (h : Runs (fun i => writeNewVersionWith atomicMkdir (E i) (o i) base (src i) (nv i)) s t P s') {i j : ι} {a b : Inv}
    (hi : P i = .ret (.ok a)) (hj : P j = .ret (.ok b)) : i = j := by
  obtain ⟨winner, _, h2⟩ := C65 hh h
  have h1 : winner = some i := by
    by_contra hn
    obtain ⟨x, hx⟩ := (h2 i hn).1 _ hi
    cases hx
  have h2 : winner = some j := by
    by_contra hn
    obtain ⟨x, hx⟩ := (h2 j hn).1 _ hj
    cases hx
  rw [h1] at h2
  exact Option.some.inj h2

/-! ## Schedules -/

/-- A schedule is one of the ways the programs may run. -/
theorem runs_schedule (is : List ι) (c : (ι → Prog α) × FS) : ∃ t, Runs c.1 c.2 t (schedule is c).1 (schedule is c).2 := by
  induction is generalizing c with
  | nil => exact ⟨[], .here⟩
  | cons i is ih =>
    obtain ⟨t, h⟩ := ih (step i c)
    have e : schedule (i :: is) c = schedule is (step i c) := rfl
    rw [e]
    cases hp : c.1 i with
    | ret r =>
      have : step i c = c := by unfold step; rw [hp]
      rw [this] at h ⊢
      exact ⟨t, h⟩
    | get k =>
      have : step i c = (Function.update c.1 i (k c.2), c.2) := by unfold step; rw [hp]
      rw [this] at h ⊢
      exact ⟨t, .get i hp h⟩
    | op o k =>
      have : step i c = (Function.update c.1 i (k (exec o c.2).2), (exec o c.2).1) := by unfold step; rw [hp]
      rw [this] at h ⊢
      exact ⟨_, .op i hp h⟩

/-- The object of `demoChanged` and two source directories. -/
def raceFS : FS := Dict.set (Dict.set demoChanged [c!"w", c!"src2"] .dir) [c!"w", c!"src2", c!"c.txt"] (.file [7, 7])

theorem raceFS_wf : raceFS.WF where
  nk := by decide +kernel
  noRoot := by decide +kernel
  parent := by decide +kernel
  names := by decide +kernel

/-- Two updates of the object, `true` from the one and `false` from the other source directory. -/
def racer (b : Bool) : Prog (Option Inv) :=
  addVersionWithContent demoEnv demoObj c!"obj" (some (if b then c!"src" else c!"src2")) (some demoMeta) true

/-- Both find that there is no version directory, then the one runs to its end, then the other. -/
def raceEnd : (Bool → Prog (Option Inv)) × FS :=
  schedule ([true, true, false, false] ++ List.replicate 20 true ++ List.replicate 20 false) (racer, raceFS)

/-- Has the update been completed? -/
def completed {α : Type} (p : Prog α) : Bool :=
  match p with
  | .ret (.ok _) => true
  | _ => false

theorem completed_ok {α : Type} {p : Prog α} (h : completed p = true) : ∃ a, p = .ret (.ok a) := by
  unfold completed at h
  split at h
  · exact ⟨_, rfl⟩
  · cases h

/-- Is the verdict on the object as given? -/
def verdictIs (s : FS) (b : Bool) : Bool :=
  match Validator.validateObject demoEnv {} 0 s c!"obj" with
  | .ok (b', _) => b' == b
  | .error _ => false

theorem verdictIs_ok {s : FS} {b : Bool} (h : verdictIs s b = true) : ∃ es, Validator.validateObject demoEnv {} 0 s c!"obj" = .ok (b, es) := by
  unfold verdictIs at h
  split at h
  · rename_i b' es he
    exact ⟨es, by rw [he, eq_of_beq h]⟩
  · cases h

/-- **C65** fails for the file system that is used, where `makedir` first looks whether there is the directory and then
makes it, and does not mind if it has appeared meanwhile: two updates of one valid object both complete, both with a
new version `v2`, and the object they leave behind is invalid. -/
theorem C65_violated : ∃ (s s' : FS) (t : List (Event Bool)) (P : Bool → Prog (Option Inv)) (es es' : List Entry), s.WF ∧
    Runs (fun b => addVersionWithContent demoEnv demoObj c!"obj" (some (if b then c!"src" else c!"src2")) (some demoMeta) true) s t P s' ∧
    (∀ b, ∃ inv, P b = .ret (.ok inv)) ∧
    Validator.validateObject demoEnv {} 0 s c!"obj" = .ok (true, es) ∧ Validator.validateObject demoEnv {} 0 s' c!"obj" = .ok (false, es') := by
  obtain ⟨t, h⟩ := runs_schedule ([true, true, false, false] ++ List.replicate 20 true ++ List.replicate 20 false) (racer, raceFS)
  obtain ⟨es, he⟩ := verdictIs_ok (s := raceFS) (b := true) (by decide +kernel)
  obtain ⟨es', he'⟩ := verdictIs_ok (s := raceEnd.2) (b := false) (by decide +kernel)
  refine ⟨raceFS, raceEnd.2, t, raceEnd.1, es, es', raceFS_wf, h, fun b => ?_, he, he'⟩
  cases b
  · exact completed_ok (by decide +kernel)
  · exact completed_ok (by decide +kernel)

/-- Two updates with the directory made in one step, prepared from the same state; the second may change the digest
algorithm. Has the first one been completed, but not the second, and is the verdict on the object as given? -/
def atomicRace (alg : Str) (verdict : Bool) : Bool :=
  match prepareUpdate demoEnv demoObj c!"obj" (some c!"src") (some demoMeta) true raceFS,
      prepareUpdate demoEnv { demoObj with digestAlgorithm := alg } c!"obj" (some c!"src2") (some demoMeta) true raceFS with
  | .ok (some (base, src, nv)), .ok (some (_, src2, nv2)) =>
    let r := schedule (List.replicate 20 true ++ List.replicate 20 false) ((fun b => writeNewVersionWith atomicMkdir demoEnv
      (if b then demoObj else { demoObj with digestAlgorithm := alg }) base (if b then src else src2) (if b then nv else nv2)), raceFS)
    completed (r.1 true) && !completed (r.1 false) && verdictIs r.2 verdict && decide (nv.inv.head = some c!"v2") && decide (nv2.inv.head = some c!"v2")
  | _, _ => false

theorem atomicRace_spec {alg : Str} {verdict : Bool} (h : atomicRace alg verdict = true) :
    ∃ (base base2 src src2 : Path) (nv nv2 : NV) (t : List (Event Bool)) (P : Bool → Prog Inv) (s' : FS) (es : List Entry),
      prepareUpdate demoEnv demoObj c!"obj" (some c!"src") (some demoMeta) true raceFS = .ok (some (base, src, nv)) ∧
      prepareUpdate demoEnv { demoObj with digestAlgorithm := alg } c!"obj" (some c!"src2") (some demoMeta) true raceFS = .ok (some (base2, src2, nv2)) ∧
      nv.inv.head = some c!"v2" ∧ nv2.inv.head = some c!"v2" ∧
      Runs (fun b => writeNewVersionWith atomicMkdir demoEnv (if b then demoObj else { demoObj with digestAlgorithm := alg }) base
        (if b then src else src2) (if b then nv else nv2)) raceFS t P s' ∧
      (∃ inv, P true = .ret (.ok inv)) ∧ (∀ inv, P false ≠ .ret (.ok inv)) ∧
      Validator.validateObject demoEnv {} 0 s' c!"obj" = .ok (verdict, es) := by
  unfold atomicRace at h
  split at h
  · rename_i base src nv base2 src2 nv2 h1 h2
    simp only [Bool.and_eq_true, decide_eq_true_eq, Bool.not_eq_true'] at h
    obtain ⟨⟨⟨⟨h3, h4⟩, h5⟩, h6⟩, h7⟩ := h
    obtain ⟨t, hr⟩ := runs_schedule (List.replicate 20 true ++ List.replicate 20 false) ((fun b => writeNewVersionWith atomicMkdir demoEnv
      (if b then demoObj else { demoObj with digestAlgorithm := alg }) base (if b then src else src2) (if b then nv else nv2)), raceFS)
    obtain ⟨es, he⟩ := verdictIs_ok h5
    refine ⟨base, base2, src, src2, nv, nv2, t, _, _, es, h1, h2, h6, h7, hr, completed_ok h3, fun inv hp => ?_, he⟩
    rw [hp] at h4
    cases h4
  · cases h

/-- A race of the kind of `C65`: the first update is completed, the second is not, and the object is valid. -/
example : atomicRace c!"sha256" true = true := by decide +kernel

/-- Even if directories were made in one step, an update that changes the digest algorithm and comes too late removes the
root sidecar before it fails, and the object, completed by the other update, is left invalid. -/
theorem C65_loser : ∃ (base base2 src src2 : Path) (nv nv2 : NV) (t : List (Event Bool)) (P : Bool → Prog Inv) (s' : FS) (es : List Entry),
    prepareUpdate demoEnv demoObj c!"obj" (some c!"src") (some demoMeta) true raceFS = .ok (some (base, src, nv)) ∧
    prepareUpdate demoEnv { demoObj with digestAlgorithm := c!"sha512" } c!"obj" (some c!"src2") (some demoMeta) true raceFS =
      .ok (some (base2, src2, nv2)) ∧
    nv.inv.head = some c!"v2" ∧ nv2.inv.head = some c!"v2" ∧
    Runs (fun b => writeNewVersionWith atomicMkdir demoEnv (if b then demoObj else { demoObj with digestAlgorithm := c!"sha512" }) base
      (if b then src else src2) (if b then nv else nv2)) raceFS t P s' ∧
    (∃ inv, P true = .ret (.ok inv)) ∧ (∀ inv, P false ≠ .ret (.ok inv)) ∧
    Validator.validateObject demoEnv {} 0 s' c!"obj" = .ok (false, es) :=
  atomicRace_spec (by decide +kernel)

end Ocfl
