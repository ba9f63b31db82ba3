import Verif.Proofs.Reader
import Verif.Proofs.PyJsonPrefix
import Verif.Props.Concurrent

/-!
# C82: reading an object while it is updated
-/

namespace Ocfl

open Spec FS Prog Ocfl.Inv

/-- **C82**: an extraction runs at the same time as an update of the same object, and other processes work
elsewhere. Whatever the order of the steps:

* If the extraction succeeds, the files in the destination are exactly those of the version asked for, as it was
  or will be made; `head` is the version that was the last, or the new one.
* If it fails then it has written nothing, and if there was such a version before, it failed to read an inventory that
  was only in part written.
* If the update succeeds, then the object has the new version, whatever the extraction did.

The library must not accept a first part of the text of an object as a document, as `json` does not: `pyJson_noPrefix`. -/
theorem C82_partial {E : Env} (hE : Libraries E) (hpre : E.lib.NoPrefix) (hcwd : ∀ w ∈ E.cwd, SafeName w)
    {objdir srcdir dstdir version : Str} {trees : List Tree} {s : FS}
    (h : History E (absComps E.cwd objdir) trees s) {o : Obj} (halg : o.digestAlgorithm = c!"sha512" ∨ o.digestAlgorithm = c!"sha256")
    {metadata : Option VBlock} (hmeta : GoodMeta metadata) {abort : Bool} (hnames : NamesAllowed o (FileBelow s (absComps E.cwd srcdir)))
    (hno : NoCollision E.raw (InTrees (trees ++ [FileBelow s (absComps E.cwd srcdir)]))) (hlen : trees.length + 1 ≤ 99999)
    (hp : look s (dstParent E dstdir) = some .dir) (hvac : Vacant s (absComps E.cwd dstdir))
    (hout : ¬ absComps E.cwd objdir <+: absComps E.cwd dstdir ∧ ¬ absComps E.cwd dstdir <+: absComps E.cwd objdir)
    (hsrc : ¬ absComps E.cwd srcdir <+: absComps E.cwd dstdir ∧ ¬ absComps E.cwd dstdir <+: absComps E.cwd srcdir)
    {p : Prog VMeta} {q : Prog (Option Inv)} {s' : FS}
    (ht : Concurrent.Together (Elsewhere [absComps E.cwd objdir, absComps E.cwd srcdir, absComps E.cwd dstdir])
      (extract E objdir version dstdir) (addVersionWithContent E o objdir (some srcdir) metadata abort) s p q s') :
    (∀ md, p = .ret (.ok md) → ∃ k t, (trees ++ [FileBelow s (absComps E.cwd srcdir)])[k]? = some t ∧
      (version = styleName none (k + 1) ∨ version = c!"head" ∧ (k + 1 = trees.length ∨ k = trees.length)) ∧
      ∀ r b, FileBelow s' (absComps E.cwd dstdir) r b ↔ t r b) ∧
    (∀ e, p = .ret (.error e) → (∀ x, absComps E.cwd dstdir <+: x → look s' x = look s x) ∧
      (version = c!"head" ∨ (∃ k < trees.length, version = styleName none (k + 1)) → e = .jsonDecodeError ∨ e = .unicodeError)) ∧
    (∀ inv, q = .ret (.ok (some inv)) → History E (absComps E.cwd objdir) (trees ++ [FileBelow s (absComps E.cwd srcdir)]) s') ∧
    (q = .ret (.ok none) → History E (absComps E.cwd objdir) trees s') := by
  obtain ⟨dv, recs, hs⟩ := history_sound hE.json hE.hash hE.word hcwd h (NoCollision.mono hno (fun _ hb => InTrees.append hb)) (by omega)
  have hu : Updating E o objdir srcdir metadata trees s dv recs := ⟨hE.json, hE.hash, halg, hmeta, hnames, hs, hno, hlen⟩
  have hb := together_both hu hcwd hpre ⟨hp, hvac, hout.1, hout.2, hsrc.1, hsrc.2⟩ ht
  have hin : ∀ x, absComps E.cwd objdir <+: x → Around (absComps E.cwd objdir) (absComps E.cwd srcdir) x := fun x hx => Or.inl (Or.inr hx)
  refine ⟨?_, ?_, ?_, ?_⟩
  · rintro md rfl
    obtain ⟨t, ⟨k, hk, ha⟩, hf⟩ := hb.extracted
    refine ⟨k, t, hk, ?_, hf⟩
    rcases ha with (ha | ⟨h1, h2⟩) | (ha | ⟨h1, h2⟩)
    · exact Or.inl ha
    · exact Or.inr ⟨h1, Or.inl h2⟩
    · exact Or.inl ha
    · exact Or.inr ⟨h1, Or.inr (by omega)⟩
  · rintro e rfl
    obtain ⟨hm, hc⟩ := hb.failed
    refine ⟨hc, fun hv => hm ?_⟩
    rcases hv with hv | ⟨k, hk, hv⟩
    · have hpos : 1 ≤ trees.length := by
        obtain ⟨_, _, _, _, _, hpos⟩ := hs.last
        exact hpos
      exact ⟨trees.length - 1, by omega, Or.inr ⟨hv, by omega⟩⟩
    · exact ⟨k, hk, Or.inl hv⟩
  · rintro inv rfl
    obtain ⟨s1, e, hw1, ha1, hrun, hag⟩ := hb.upd.ended
    have htree := sameTree ha1
    have h1 : History E (absComps E.cwd objdir) trees s1 := .elsewhere h hw1 (fun x hx => ha1 x (hin x hx))
    have h2 := History.update h1 halg hmeta rfl (by rw [htree]; exact hnames) hrun
    rw [htree] at h2
    exact .elsewhere h2 hb.wf (fun x hx => hag x (hin x hx))
  · rintro rfl
    obtain ⟨s1, e, hw1, ha1, hrun, hag⟩ := hb.upd.ended
    have he : e = s1 := by
      unfold addVersionWithContent at hrun
      obtain ⟨s2, r, h1, h2⟩ := run_bind_inv hrun
      rw [run_look] at h1
      obtain ⟨rfl, _⟩ := Prod.mk.inj h1
      cases r with
      | none => exact (Prod.mk.inj h2).1.symm
      | some r =>
        obtain ⟨_, _, h3⟩ := run_bind_inv h2
        cases h3.2
    subst he
    exact .elsewhere h hb.wf (fun x hx => (hag x (hin x hx)).trans (ha1 x (hin x hx)))

/-! ## Moments -/

/-- What happens next: a step of the extraction or of the update, or a first part of what one of them writes. -/
inductive Move
  | left
  | right
  | leftPart (n : Nat)
  | rightPart (n : Nat)

/-- One step of a program. -/
def stepOf {α : Type} : Prog α → FS → Prog α × FS
  | .ret r, s => (.ret r, s)
  | .get k, s => (k s, s)
  | .op o k, s => (k (FS.exec o s).2, (FS.exec o s).1)

/-- A first part of what a program writes. -/
def partOf {α : Type} (n : Nat) : Prog α → FS → FS
  | .op (.write p b) _, s => (FS.exec (.write p (b.take n)) s).1
  | _, s => s

def playMove {α β : Type} (c : Prog α × Prog β × FS) : Move → Prog α × Prog β × FS
  | .left => ((stepOf c.1 c.2.2).1, c.2.1, (stepOf c.1 c.2.2).2)
  | .right => (c.1, (stepOf c.2.1 c.2.2).1, (stepOf c.2.1 c.2.2).2)
  | .leftPart n => (c.1, c.2.1, partOf n c.1 c.2.2)
  | .rightPart n => (c.1, c.2.1, partOf n c.2.1 c.2.2)

def play {α β : Type} (ms : List Move) (p : Prog α) (q : Prog β) (s : FS) : Prog α × Prog β × FS := ms.foldl playMove (p, q, s)

theorem stepOf_step {α : Type} (p : Prog α) (s : FS) :
    stepOf p s = (p, s) ∨ Concurrent.Step p s (stepOf p s).1 (stepOf p s).2 := by
  cases p with
  | ret r => exact Or.inl rfl
  | get k => exact Or.inr .get
  | op o k => exact Or.inr .op

theorem partOf_step {α : Type} (n : Nat) (p : Prog α) (s : FS) : partOf n p s = s ∨ Concurrent.Step p s p (partOf n p s) := by
  cases p with
  | ret r => exact Or.inl rfl
  | get k => exact Or.inl rfl
  | op o k => cases o with
    | write q b => exact Or.inr (.part n)
    | mkdir q => exact Or.inl rfl
    | remove q => exact Or.inl rfl

theorem together_play {α β : Type} {R : FS → FS → Prop} {p : Prog α} {q : Prog β} {s : FS} (ms : List Move) :
    Concurrent.Together R p q s (play ms p q s).1 (play ms p q s).2.1 (play ms p q s).2.2 := by
  unfold play
  have key : ∀ (ms : List Move) (c : Prog α × Prog β × FS), Concurrent.Together R p q s c.1 c.2.1 c.2.2 →
      Concurrent.Together R p q s (ms.foldl playMove c).1 (ms.foldl playMove c).2.1 (ms.foldl playMove c).2.2 := by
    intro ms
    induction ms with
    | nil => exact fun c h => h
    | cons m ms ih =>
      intro c h
      refine ih (playMove c m) ?_
      obtain ⟨p1, q1, s1⟩ := c
      cases m with
      | left =>
        rcases stepOf_step p1 s1 with he | he
        · unfold playMove; dsimp only; rw [he]; exact h
        · exact .left h he
      | right =>
        rcases stepOf_step q1 s1 with he | he
        · unfold playMove; dsimp only; rw [he]; exact h
        · exact .right h he
      | leftPart n =>
        rcases partOf_step n p1 s1 with he | he
        · unfold playMove; dsimp only; rw [he]; exact h
        · exact .left h he
      | rightPart n =>
        rcases partOf_step n q1 s1 with he | he
        · unfold playMove; dsimp only; rw [he]; exact h
        · exact .right h he
  exact key ms _ .here

/-- What a program that has ended raised. -/
def raisedBy {α : Type} : Prog α → Option PyErr
  | .ret (.error e) => some e
  | _ => none

theorem raisedBy_some {α : Type} {p : Prog α} {e : PyErr} (h : raisedBy p = some e) : p = .ret (.error e) := by
  cases p with
  | ret r => cases r with
    | error e' => cases h; rfl
    | ok a => cases h
  | get k => cases h
  | op o k => cases h

/-- Has the program ended without an exception, and with such a result? -/
def endedWith {α : Type} (good : α → Bool) : Prog α → Bool
  | .ret (.ok a) => good a
  | _ => false

theorem endedWith_true {α : Type} {good : α → Bool} {p : Prog α} (h : endedWith good p = true) : ∃ a, p = .ret (.ok a) ∧ good a = true := by
  cases p with
  | ret r => cases r with
    | error e => cases h
    | ok a => exact ⟨a, rfl, h⟩
  | get k => cases h
  | op o k => cases h

/-- The extraction of version 1. -/
def demoExtract : Prog VMeta := extract demoEnv c!"obj" c!"v1" c!"out"

/-- The update first, up to where it replaces the inventory of the object, then the extraction. -/
def unluckyMoves : List Move := List.replicate 14 .right ++ [.rightPart 5] ++ List.replicate 20 .left

/-- The steps of both, mixed. -/
def mixedMoves : List Move :=
  List.replicate 3 .right ++ List.replicate 3 .left ++ List.replicate 4 .right ++ List.replicate 3 .left ++
    List.replicate 10 .right ++ List.replicate 14 .left

theorem demo_history2 : History demoEnv (absComps demoEnv.cwd c!"obj") [FileBelow demoFS (absComps demoEnv.cwd c!"src")] demoChanged :=
  .elsewhere demo_history1 demoChanged_wf demo_apart

/-- **C82 is false** of the code without the exception for inventories that are only in part written: version 1 of
the object is there before the update, during and after it, no directory is shared but the object, and the extraction raises. -/
theorem C82_violated : ∃ (E : Env) (objdir srcdir dstdir : Str) (o : Obj) (trees : List Tree) (s s' : FS) (metadata : Option VBlock)
    (q : Prog (Option Inv)) (e : PyErr),
    Libraries E ∧ E.lib.NoPrefix ∧ History E (absComps E.cwd objdir) trees s ∧ 0 < trees.length ∧
    Vacant s (absComps E.cwd dstdir) ∧
    Concurrent.Together (Elsewhere [absComps E.cwd objdir, absComps E.cwd srcdir, absComps E.cwd dstdir])
      (extract E objdir c!"v1" dstdir) (addVersionWithContent E o objdir (some srcdir) metadata true) s (.ret (.error e)) q s' := by
  have hr : raisedBy (play unluckyMoves demoExtract demoUpdate demoChanged).1 = some .jsonDecodeError := by decide +kernel
  have ht := together_play (R := Elsewhere [absComps demoEnv.cwd c!"obj", absComps demoEnv.cwd c!"src", absComps demoEnv.cwd c!"out"])
    (p := demoExtract) (q := demoUpdate) (s := demoChanged) unluckyMoves
  rw [raisedBy_some hr] at ht
  exact ⟨demoEnv, c!"obj", c!"src", c!"out", demoObj, _, demoChanged, _, some demoMeta, _, _, demoLibraries, pyJson_noPrefix,
    demo_history2, by decide, vacant_of demoChanged_wf (by decide +kernel), ht⟩

/-- The steps of an extraction and of an update, mixed: both end well, the extracted files are those of version 1 and
the object has two versions. -/
example : ∃ s', (∀ r b, FileBelow s' (absComps demoEnv.cwd c!"out") r b ↔ FileBelow demoFS (absComps demoEnv.cwd c!"src") r b) ∧
    History demoEnv (absComps demoEnv.cwd c!"obj")
      ([FileBelow demoFS (absComps demoEnv.cwd c!"src")] ++ [FileBelow demoChanged (absComps demoEnv.cwd c!"src")]) s' := by
  obtain ⟨md, h1, -⟩ := endedWith_true (good := fun _ => true) (p := (play mixedMoves demoExtract demoUpdate demoChanged).1) (by decide +kernel)
  obtain ⟨r, h2, hr⟩ := endedWith_true (good := Option.isSome) (p := (play mixedMoves demoExtract demoUpdate demoChanged).2.1) (by decide +kernel)
  have ht := together_play (R := Elsewhere [absComps demoEnv.cwd c!"obj", absComps demoEnv.cwd c!"src", absComps demoEnv.cwd c!"out"])
    (p := demoExtract) (q := demoUpdate) (s := demoChanged) mixedMoves
  rw [h1, h2] at ht
  obtain ⟨a, -, c, -⟩ := C82_partial (objdir := c!"obj") (srcdir := c!"src") (dstdir := c!"out") demoLibraries pyJson_noPrefix demoEnv_cwd demo_history2 (o := demoObj) (Or.inr rfl) demoMeta_good
    (fun h => by cases h) demo_noCollision (by decide) (by decide +kernel) (vacant_of demoChanged_wf (by decide +kernel))
    (by decide +kernel) (by decide +kernel) ht
  obtain ⟨k, t, hk, hv, hf⟩ := a md rfl
  obtain ⟨inv, rfl⟩ := Option.isSome_iff_exists.mp hr
  refine ⟨_, ?_, c inv rfl⟩
  rcases hv with hv | ⟨hv, -⟩
  · have := styleName_inj (w := none) (m := 1) (n := k + 1) hv
    obtain rfl : k = 0 := by omega
    cases hk
    exact hf
  · exact absurd hv (by decide)

end Ocfl
