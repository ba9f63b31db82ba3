import Verif.Proofs.Jobs
import Verif.Props.Reading
import Verif.Props.Recipe
import Verif.Props.StoreObjects

/-!
# C93: work on different objects at the same time

Any number of calls that create, update or extract objects, each in a directory of its own, do not disturb one another: each
gives what it would have given alone.
-/

namespace Ocfl

open Spec FS Prog Ocfl.Inv Validator

theorem near_apart {p q x : Path} (h : NotNested p q) (hp : p <+: x) : ¬ Near q x := by
  rintro (hx | hx)
  · exact h.1 (hp.trans hx)
  · rcases List.prefix_or_prefix_of_prefix hp hx with h1 | h1
    · exact h.1 h1
    · exact h.2 h1

/-- **C93.** Calls that work at the same time, in steps in any order and with files that are written in parts, while other
processes do anything that is not in or above the directories of the calls. Wherever they have come to:

* A call that has given a result gives the same result if it is alone, and what is in the directory that it writes to is what
  is there when it is alone.
* A call that has raised an exception raises one if it is alone. -/
theorem C93 {E : Env} (hE : Libraries E) (hcwd : ∀ w ∈ E.cwd, SafeName w) {ι : Type} [DecidableEq ι] {jobs : ι → Job} {s : FS} (hw : s.WF)
    (hready : ∀ i, (jobs i).Ready E s) (hsep : Separate E jobs) {P : ∀ i, Prog (jobs i).Result} {s' : FS}
    (h : Concurrent.Many (fun t t' => ∀ i, Elsewhere [(jobs i).home E, (jobs i).source E] t t') (fun i => (jobs i).prog E) s P s') (i : ι) :
    (∀ r, P i = .ret (.ok r) → (run ((jobs i).prog E) s).2 = .ok r ∧
      ∀ x, (jobs i).home E <+: x → look s' x = look (run ((jobs i).prog E) s).1 x) ∧
    ∀ e, P i = .ret (.error e) → ∃ e', (run ((jobs i).prog E) s).2 = .error e' := by
  have hprog : (fun i => (jobs i).prog E) = fun i => .get ((jobs i).after E) := funext (fun i => (jobs i).prog_get E)
  rw [hprog] at h
  obtain ⟨_, hgo⟩ := many_going hw (fun i => (hready i).tame hE hcwd hw) (fun i j hij x hx hW => by
      obtain ⟨h1, h2⟩ := hsep i j hij
      rcases hx with hx | hx
      · exact near_apart h1 hW hx
      · exact near_apart h2 hW hx) (R := fun t t' => ∀ i, Elsewhere [(jobs i).home E, (jobs i).source E] t t')
      (fun t t' ht => ⟨(ht i).1, fun j x hx => by
        rcases hx with hx | hx
        · exact (ht j).2 _ (by simp) x hx
        · exact (ht j).2 _ (by simp) x hx⟩) h
  have hmain : ∀ r, P i = .ret r → ∃ t, t.WF ∧ Agree (Around ((jobs i).home E) ((jobs i).source E)) t s ∧
      (run ((jobs i).prog E) t).2 = r ∧ Agree (Around ((jobs i).home E) ((jobs i).source E)) s' (run ((jobs i).prog E) t).1 := by
    intro r hr
    have hg := hgo i
    rw [hr] at hg
    obtain ⟨t, e, h1, h2, h3, h4⟩ := hg.ended
    rw [← (jobs i).prog_get E] at h3
    rw [show r = (run ((jobs i).prog E) t).2 by rw [h3], ]
    exact ⟨t, h1, h2, rfl, by rw [h3]; exact h4⟩
  constructor
  · intro r hr
    obtain ⟨t, h1, h2, h3, h4⟩ := hmain _ hr
    obtain ⟨h5, h6⟩ := ((hready i).same hE hcwd hw h1 h2).1 r h3
    exact ⟨h5, fun x hx => (h4 x (Or.inl (Or.inr hx))).trans (h6 x (Or.inl (Or.inr hx)))⟩
  · intro e hr
    obtain ⟨t, h1, h2, h3, h4⟩ := hmain _ hr
    exact ((hready i).same hE hcwd hw h1 h2).2 e h3

/-- What C93 says of an update that has added a version: the object has it. -/
theorem update_after {E : Env} {o : Obj} {objdir srcdir : Str} {metadata : Option VBlock} {abort : Bool} {trees : List Tree} {s s' : FS}
    (history : History E (absComps E.cwd objdir) trees s) (algorithm : o.digestAlgorithm = c!"sha512" ∨ o.digestAlgorithm = c!"sha256")
    (block : GoodMeta metadata) (names : NamesAllowed o (FileBelow s (absComps E.cwd srcdir))) (hw : s'.WF) {inv : Inv}
    (done : (run ((Job.update o objdir srcdir metadata abort).prog E) s).2 = .ok (some inv))
    (same : ∀ x, (Job.update o objdir srcdir metadata abort).home E <+: x →
      look s' x = look (run ((Job.update o objdir srcdir metadata abort).prog E) s).1 x) :
    History E (absComps E.cwd objdir) (trees ++ [FileBelow s (absComps E.cwd srcdir)]) s' :=
  .elsewhere (.update history algorithm block rfl names (Prod.ext rfl done)) hw same

/-- What C93 says of a call that has created an object. -/
theorem create_after {E : Env} {o : Obj} {objdir srcdir : Str} {metadata : Option VBlock} {s s' : FS} (wf : s.WF) (settings : GoodSettings o)
    (block : GoodMeta metadata) (vacant : Vacant s (absComps E.cwd objdir)) (nonempty : ∃ r b, FileBelow s (absComps E.cwd srcdir) r b)
    (names : NamesAllowed o (FileBelow s (absComps E.cwd srcdir))) (hw : s'.WF) {inv : Inv}
    (done : (run ((Job.create o srcdir metadata objdir).prog E) s).2 = .ok inv)
    (same : ∀ x, (Job.create o srcdir metadata objdir).home E <+: x → look s' x = look (run ((Job.create o srcdir metadata objdir).prog E) s).1 x) :
    History E (absComps E.cwd objdir) [FileBelow s (absComps E.cwd srcdir)] s' :=
  .elsewhere (.create wf settings block rfl vacant nonempty names (Prod.ext rfl done)) hw same

/-! ## Three calls at the same time -/

/-- Two objects, and a source directory that has changed. -/
def crowdFS : FS := Dict.set (run (create demoEnv { demoObj with id := some c!"info:y" } c!"src" (some demoMeta) (some c!"obj2")) demoMade).1
  [c!"w", c!"src", c!"a.txt"] (.file [9])

/-- One object gets a version, another one is extracted, and a third one is created. -/
def crowdJobs : Fin 3 → Job
  | 0 => .update demoObj c!"obj" c!"src" (some demoMeta) true
  | 1 => .extract c!"obj2" c!"v1" c!"out"
  | 2 => .create { demoObj with id := some c!"info:z" } c!"src" (some demoMeta) c!"obj3"

theorem crowdFS_wf : crowdFS.WF := ⟨by decide +kernel, by decide +kernel, by decide +kernel, by decide +kernel⟩

/-- Where the three calls are. -/
structure Crowd where
  zero : Prog (Option Inv)
  one : Prog VMeta
  two : Prog Inv
  state : FS

def Crowd.programs (c : Crowd) : ∀ i, Prog (crowdJobs i).Result
  | 0 => c.zero
  | 1 => c.one
  | 2 => c.two

/-- One step of one of them. -/
def Crowd.move : Crowd → Fin 3 → Crowd
  | ⟨p, q, r, s⟩, 0 => match stepOf p s with | (p', s') => ⟨p', q, r, s'⟩
  | ⟨p, q, r, s⟩, 1 => match stepOf q s with | (q', s') => ⟨p, q', r, s'⟩
  | ⟨p, q, r, s⟩, 2 => match stepOf r s with | (r', s') => ⟨p, q, r', s'⟩

theorem Crowd.move_many {R : FS → FS → Prop} {P : ∀ i, Prog (crowdJobs i).Result} {s : FS} {c : Crowd}
    (h : Concurrent.Many R P s c.programs c.state) (m : Fin 3) : Concurrent.Many R P s (c.move m).programs (c.move m).state := by
  obtain ⟨p, q, r, t⟩ := c
  have key : ∀ (m : Fin 3) (x : Prog (crowdJobs m).Result) (t' : FS) (c' : Crowd), stepOf (Crowd.programs ⟨p, q, r, t⟩ m) t = (x, t') →
      c'.state = t' → c'.programs = Function.update (Crowd.programs ⟨p, q, r, t⟩) m x →
      Concurrent.Many R P s c'.programs c'.state := by
    intro m x t' c' h1 h2 h3
    rw [h2, h3]
    rcases stepOf_step (Crowd.programs ⟨p, q, r, t⟩ m) t with he | he
    · rw [h1] at he
      cases he
      rw [Function.update_eq_self]
      exact h
    · rw [h1] at he
      exact .step m h he
  match m with
  | 0 =>
    cases hs : stepOf p t with
    | mk x t' =>
      have : Crowd.move ⟨p, q, r, t⟩ 0 = ⟨x, q, r, t'⟩ := by unfold Crowd.move; dsimp only; rw [hs]
      rw [this]
      exact key 0 x t' _ hs rfl (funext fun i => match i with | 0 => rfl | 1 => rfl | 2 => rfl)
  | 1 =>
    cases hs : stepOf q t with
    | mk x t' =>
      have : Crowd.move ⟨p, q, r, t⟩ 1 = ⟨p, x, r, t'⟩ := by unfold Crowd.move; dsimp only; rw [hs]
      rw [this]
      exact key 1 x t' _ hs rfl (funext fun i => match i with | 0 => rfl | 1 => rfl | 2 => rfl)
  | 2 =>
    cases hs : stepOf r t with
    | mk x t' =>
      have : Crowd.move ⟨p, q, r, t⟩ 2 = ⟨p, q, x, t'⟩ := by unfold Crowd.move; dsimp only; rw [hs]
      rw [this]
      exact key 2 x t' _ hs rfl (funext fun i => match i with | 0 => rfl | 1 => rfl | 2 => rfl)

def crowdStart : Crowd :=
  ⟨addVersionWithContent demoEnv demoObj c!"obj" (some c!"src") (some demoMeta) true, extract demoEnv c!"obj2" c!"v1" c!"out",
    create demoEnv { demoObj with id := some c!"info:z" } c!"src" (some demoMeta) (some c!"obj3"), crowdFS⟩

/-- All three take turns. -/
def crowdMoves : List (Fin 3) := (List.replicate 31 [0, 1, 2]).flatten

def crowdEnd : Crowd := crowdMoves.foldl Crowd.move crowdStart

theorem crowd_many {R : FS → FS → Prop} :
    Concurrent.Many R (fun i => (crowdJobs i).prog demoEnv) crowdFS crowdEnd.programs crowdEnd.state := by
  have hs : (fun i => (crowdJobs i).prog demoEnv) = crowdStart.programs := funext fun i => match i with | 0 => rfl | 1 => rfl | 2 => rfl
  have key : ∀ (ms : List (Fin 3)) (c : Crowd), Concurrent.Many R crowdStart.programs crowdFS c.programs c.state →
      Concurrent.Many R crowdStart.programs crowdFS (ms.foldl Crowd.move c).programs (ms.foldl Crowd.move c).state := by
    intro ms
    induction ms with
    | nil => exact fun c h => h
    | cons m ms ih => exact fun c h => ih _ (Crowd.move_many h m)
  rw [hs]
  exact key crowdMoves crowdStart .here

theorem demoMade_wf' : demoMade.WF := ⟨by decide +kernel, by decide +kernel, by decide +kernel, by decide +kernel⟩

theorem crowdSettings {i : Str} (hi : i ≠ []) : GoodSettings { demoObj with id := some i } :=
  ⟨by simpa using hi, demoObj_good.2, demoObj_good.3, demoObj_good.4, demoObj_good.5⟩

theorem crowd_history1 : History demoEnv (absComps demoEnv.cwd c!"obj") [FileBelow demoFS (absComps demoEnv.cwd c!"src")] crowdFS :=
  .elsewhere demo_history1 crowdFS_wf (same_below (by decide +kernel))

theorem crowd_history2 : History demoEnv (absComps demoEnv.cwd c!"obj2") [FileBelow demoMade (absComps demoEnv.cwd c!"src")] crowdFS := by
  obtain ⟨inv, hr⟩ := succeeded_ok (r := run (create demoEnv { demoObj with id := some c!"info:y" } c!"src" (some demoMeta) (some c!"obj2")) demoMade) (by decide +kernel)
  exact .elsewhere (.create demoMade_wf' (crowdSettings (by decide)) demoMeta_good rfl (vacant_of demoMade_wf' (by decide +kernel))
    ⟨[c!"a.txt"], [1, 2, 3], by decide, by decide +kernel⟩ (fun h => by cases h) hr) crowdFS_wf (same_below (by decide +kernel))

theorem crowd_noCollision : NoCollision demoEnv.raw (InTrees [FileBelow demoFS (absComps demoEnv.cwd c!"src"), FileBelow demoMade (absComps demoEnv.cwd c!"src"),
    FileBelow crowdFS (absComps demoEnv.cwd c!"src")]) := by
  refine noCollision_of (l := [[1, 2, 3], [4], [9]]) ?_ (by decide +kernel)
  intro t ht r b h
  have hsub : ∀ b ∈ filesBelow demoFS (absComps demoEnv.cwd c!"src") ++ (filesBelow demoMade (absComps demoEnv.cwd c!"src") ++
      filesBelow crowdFS (absComps demoEnv.cwd c!"src")), b ∈ [[1, 2, 3], [4], ([9] : Bytes)] := by decide +kernel
  simp only [List.mem_cons, List.not_mem_nil, or_false] at ht
  rcases ht with rfl | rfl | rfl
  · exact hsub b (List.mem_append_left _ (mem_filesBelow h))
  · exact hsub b (List.mem_append_right _ (List.mem_append_left _ (mem_filesBelow h)))
  · exact hsub b (List.mem_append_right _ (List.mem_append_right _ (mem_filesBelow h)))

theorem crowd_ready : ∀ i, (crowdJobs i).Ready demoEnv crowdFS
  | 0 => .update crowd_history1 (Or.inr rfl) demoMeta_good (fun h => by cases h)
      (NoCollision.mono crowd_noCollision (fun _ ⟨t, ht, h⟩ => ⟨t, by simp at ht ⊢; tauto, h⟩)) (by decide) (fun h => by cases h)
  | 1 => .extract crowd_history2
      (NoCollision.mono crowd_noCollision (fun _ ⟨t, ht, h⟩ => ⟨t, by simp at ht ⊢; tauto, h⟩)) (by decide) (by decide +kernel)
      (vacant_of crowdFS_wf (by decide +kernel)) (by decide +kernel)
  | 2 => .create (crowdSettings (by decide)) demoMeta_good (by decide +kernel) (vacant_of crowdFS_wf (by decide +kernel))

theorem crowd_separate : Separate demoEnv crowdJobs := by
  unfold Separate NotNested
  decide +kernel

theorem crowd_done : ∃ (inv : Inv) (md : VMeta) (inv' : Inv), crowdEnd.zero = .ret (.ok (some inv)) ∧ crowdEnd.one = .ret (.ok md) ∧
    crowdEnd.two = .ret (.ok inv') := by
  have h : (endedWith Option.isSome crowdEnd.zero && endedWith (fun _ => true) crowdEnd.one && endedWith (fun _ => true) crowdEnd.two) = true := by
    decide +kernel
  simp only [Bool.and_eq_true] at h
  obtain ⟨⟨h0, h1⟩, h2⟩ := h
  obtain ⟨r0, h0, g0⟩ := endedWith_true h0
  obtain ⟨r1, h1, -⟩ := endedWith_true h1
  obtain ⟨r2, h2, -⟩ := endedWith_true h2
  obtain ⟨inv, rfl⟩ := Option.isSome_iff_exists.mp g0
  exact ⟨inv, r1, r2, h0, h1, h2⟩

theorem crowdEnd_wf : crowdEnd.state.WF := ⟨by decide +kernel, by decide +kernel, by decide +kernel, by decide +kernel⟩

/-- What there is when the first and the third call have ended well. -/
theorem crowd_after {P : ∀ i, Prog (crowdJobs i).Result} {s' : FS} (hwf : s'.WF)
    (hm : Concurrent.Many (fun t t' => ∀ i, Elsewhere [(crowdJobs i).home demoEnv, (crowdJobs i).source demoEnv] t t')
      (fun i => (crowdJobs i).prog demoEnv) crowdFS P s') {inv inv' : Inv} (h0 : P 0 = .ret (.ok (some inv))) (h2 : P 2 = .ret (.ok inv')) :
    History demoEnv (absComps demoEnv.cwd c!"obj")
      ([FileBelow demoFS (absComps demoEnv.cwd c!"src")] ++ [FileBelow crowdFS (absComps demoEnv.cwd c!"src")]) s' ∧
    History demoEnv (absComps demoEnv.cwd c!"obj3") [FileBelow crowdFS (absComps demoEnv.cwd c!"src")] s' := by
  have hC := C93 demoLibraries demoEnv_cwd crowdFS_wf crowd_ready crowd_separate hm
  obtain ⟨a0, b0⟩ := (hC 0).1 _ h0
  obtain ⟨a2, b2⟩ := (hC 2).1 _ h2
  exact ⟨update_after crowd_history1 (Or.inr rfl) demoMeta_good (fun h => by cases h) hwf a0 b0,
    create_after crowdFS_wf (crowdSettings (by decide)) demoMeta_good (vacant_of crowdFS_wf (by decide +kernel))
      ⟨[c!"a.txt"], [9], by decide, by decide +kernel⟩ (fun h => by cases h) hwf a2 b2⟩

/-- The three calls take turns and all end well: the first object has a new version, the second one is extracted, and the third one is
there. -/
example : History demoEnv (absComps demoEnv.cwd c!"obj")
      ([FileBelow demoFS (absComps demoEnv.cwd c!"src")] ++ [FileBelow crowdFS (absComps demoEnv.cwd c!"src")]) crowdEnd.state ∧
    History demoEnv (absComps demoEnv.cwd c!"obj3") [FileBelow crowdFS (absComps demoEnv.cwd c!"src")] crowdEnd.state := by
  obtain ⟨inv, md, inv', h0, -, h2⟩ := crowd_done
  exact crowd_after crowdEnd_wf crowd_many h0 h2

end Ocfl
