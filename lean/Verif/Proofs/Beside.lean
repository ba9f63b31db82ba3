import Verif.Proofs.LocalObject
import Verif.Proofs.WriteDone

/-!
# An update beside other work

What an update of an object made by the library does, and what it leaves alone, while others work outside the
object directory and the source directory.
-/

namespace Ocfl

open Spec FS Prog Ocfl.Inv

/-- What is above or below the object directory or the source directory. -/
def Around (base src x : Path) : Prop := Near base x ∨ Near src x

/-- An update after its first look. -/
def updAfter (E : Env) (o : Obj) (objdir : Str) (srcdir : Option Str) (metadata : Option VBlock) (abort : Bool) (s : FS) : Prog (Option Inv) :=
  Prog.bind (.ret (prepareUpdate E o objdir srcdir metadata abort s)) (fun r =>
    match r with
    | none => .ret (.ok none)
    | some (base, src, nv) => Prog.bind (writeNewVersion E o base src nv) (fun inv => .ret (.ok (some inv))))

theorem update_get (E : Env) (o : Obj) (objdir : Str) (srcdir : Option Str) (metadata : Option VBlock) (abort : Bool) :
    addVersionWithContent E o objdir srcdir metadata abort = .get (updAfter E o objdir srcdir metadata abort) := rfl

/-- The last part of an update: the root inventory. -/
def updRest (E : Env) (o : Obj) (base : Path) (inv : Inv) : Prog (Option Inv) :=
  Prog.bind (writeInventoryAndSidecar E o base (some inv) []) (fun _ => .ret (.ok (some inv)))

/-- Files that are queued are in the source directory. -/
theorem Sound.update_sources {E : Env} (hlib : E.lib.Lawful) (hhash : HashLib E.raw) {o : Obj}
    (halg : o.digestAlgorithm = c!"sha512" ∨ o.digestAlgorithm = c!"sha256") {srcdir objdir : Str} {metadata : Option VBlock}
    (hmeta : GoodMeta metadata) {s : FS} {base : Path} {dv : Str} {trees : List Tree} {recs : List Rec}
    (h : Sound E s base dv trees recs) (hno : NoCollision E.raw (InTrees trees)) (hlim : trees.length + 1 ≤ 99999)
    (hbase : absComps E.cwd objdir = base) {base' src : Path} {nv0 nv : NV}
    {inv0 : Inv} {alg : Str} {m : DigestMap} {vs : Dict Str VBlock} {style : Option Nat} {n : Nat} {inv1 : Inv}
    (hst : Started E o objdir srcdir (some o.digestAlgorithm) o.fixity metadata false s base' src nv0 inv0 alg m vs style n inv1)
    (hadd : addFromSrcdir E s src nv0 = .ok nv) :
    ∀ e ∈ nv.filesToCopy, ∃ r, FS.resolve src e.1 = src ++ r := by
  obtain ⟨rl, hlast, hdl, hroot, _, _⟩ := h.last
  have hbb : base' = base := hst.base_eq.trans hbase
  subst hbb
  have hinv0 : inv0 = rl.inv.sorted := by
    have := hst.parse
    rw [parse_written hlib hdl.parsed hroot.1] at this
    cases this
    rfl
  subst hinv0
  have hds := hdl.sorted
  have ealg : alg = rl.alg := by
    have := hst.parsed.good.algorithm
    rw [hds.parsed.good.algorithm] at this
    cases this
    rfl
  subst ealg
  obtain ⟨m1, vs1, hd1, _⟩ := hds.recode hhash hno halg hst.change
  have g := ground_next hd1.parsed (sv := c!"1.1") (by decide) hmeta hlim hst.next
  obtain ⟨srcs, hsource, hadded⟩ := addFromSrcdir_ok h.wf hst.src_dir g.building ⟨_, g.manifest⟩ g.queue hadd
  intro e he
  obtain ⟨r, b, hf, hj⟩ := (hsource.files e.1).mp (hadded.queueDone e he)
  refine ⟨r, ?_⟩
  rw [hj]
  refine resolve_join _ (fun w hw => ?_)
  have := look_names h.wf hf.2
  exact this w (by simp [hw])

theorem deep_ne {base : Path} {w v : Str} {q : List Str} (hq : q ≠ []) : base ++ w :: q ≠ base ++ [v] := by
  intro h
  have := List.append_cancel_left h
  rw [List.cons.injEq] at this
  exact hq this.2

/-- Writing the root inventory changes nothing deep in the object directory and nothing outside it. -/
theorem updRest_visits {E : Env} {o : Obj} {base : Path} {inv : Inv} {s s' : FS} (h : Visits (updRest E o base inv) s s') :
    (∀ w q, q ≠ [] → look s' (base ++ w :: q) = look s (base ++ w :: q)) ∧
    ∀ x, x ≠ base ++ [inventoryFilename] → x ≠ base ++ [sidecarName o.digestAlgorithm] → look s x ≠ none → look s' x = look s x := by
  have ho : Only (StaysRoot base o.digestAlgorithm) (updRest E o base inv) := .bind only_writeInvRoot (fun _ => .ret)
  refine ⟨fun w q hq => ho.visits_frame ?_ h, fun x h1 h2 hx => ho.visits_spares (fun op hop => hop.spares h1 h2) hx h⟩
  rintro op (ht | ht | ⟨y, hy, rfl⟩) he
  · exact deep_ne hq (he.symm.trans ht)
  · exact deep_ne hq (he.symm.trans ht)
  · have h1 := hy.length_le
    have h2 := congrArg List.length (show y = base ++ w :: q from he)
    simp only [List.length_append, List.length_cons] at h2
    omega

/-- What an update of an object made by the library is after its first look. -/
theorem Sound.update_shape {E : Env} (hlib : E.lib.Lawful) (hhash : HashLib E.raw) {o : Obj}
    (halg : o.digestAlgorithm = c!"sha512" ∨ o.digestAlgorithm = c!"sha256") {srcdir objdir : Str} {metadata : Option VBlock}
    (hmeta : GoodMeta metadata) {abort : Bool} {s : FS} {dv : Str} {trees : List Tree} {recs : List Rec}
    (h : Sound E s (absComps E.cwd objdir) dv trees recs) (hno : NoCollision E.raw (InTrees trees)) (hlim : trees.length + 1 ≤ 99999) :
    (∃ r, updAfter E o objdir (some srcdir) metadata abort s = .ret r ∧ ∀ inv, r ≠ .ok (some inv)) ∨
    ∃ (put : Prog Unit) (inv : Inv), updAfter E o objdir (some srcdir) metadata abort s = Prog.bind put (fun _ => updRest E o (absComps E.cwd objdir) inv) ∧
      Local (Around (absComps E.cwd objdir) (absComps E.cwd srcdir)) put ∧
      (∀ s', Visits put s s' → look s' (absComps E.cwd objdir ++ [inventoryFilename]) = look s (absComps E.cwd objdir ++ [inventoryFilename])) ∧
      ∀ s', run put s = (s', .ok ()) → s'.WF ∧ look s' (absComps E.cwd objdir ++ [inventoryFilename]) ≠ some .dir ∧
        look s' (absComps E.cwd objdir ++ [sidecarName o.digestAlgorithm]) ≠ some .dir := by
  cases hprep : prepareUpdate E o objdir (some srcdir) metadata abort s with
  | error e =>
    left
    refine ⟨.error e, ?_, fun _ => by simp⟩
    unfold updAfter
    rw [hprep]
    rfl
  | ok r =>
  cases r with
  | none =>
    left
    refine ⟨.ok none, ?_, fun _ => by simp⟩
    unfold updAfter
    rw [hprep]
    rfl
  | some r =>
  right
  obtain ⟨base', src, nv⟩ := r
  obtain ⟨sd, hsd, nv0, inv0, alg, m, vs, style, n, inv1, hs, hadd⟩ := prepareUpdate_started hlib hprep
  cases hsd
  have hbb := hs.base_eq
  subst hbb
  have hw := h.wf
  have hsource := h.update_sources hlib hhash halg hmeta hno hlim rfl hs hadd
  obtain ⟨h1, h2, h3, h4, h5⟩ := hs.confined
  have hc := hs.confined_source hhash hw hadd
  have hh := styleName_safe style (n + 1)
  have hv := styleName_head style (n + 1)
  have ho : ∀ old, nv.oldDigestAlgorithm = some old → '/' ∉ old := by
    intro old ho
    rw [hc.old, h3] at ho
    cases ho
    exact h4
  have hsr := hs.src_eq
  subst hsr
  have hneI : inventoryFilename ≠ styleName style (n + 1) := by
    intro he
    rw [← he] at hv
    revert hv
    decide
  have hneS : sidecarName o.digestAlgorithm ≠ styleName style (n + 1) := by
    intro he
    rw [← he] at hv
    cases hv
  have hI : ∀ s', Visits (putVersion E o (absComps E.cwd objdir) (absComps E.cwd srcdir) nv (styleName style (n + 1))) s s' →
      look s' (absComps E.cwd objdir ++ [inventoryFilename]) = look s (absComps E.cwd objdir ++ [inventoryFilename]) := fun s' hv4 =>
    putVersion_root hh hv hc.queue ho hv4 hneI (Or.inr (by
      intro old _ he
      exact inventory_ne_sidecar (dir := absComps E.cwd objdir) (by rw [he])))
  have hS : ∀ s', Visits (putVersion E o (absComps E.cwd objdir) (absComps E.cwd srcdir) nv (styleName style (n + 1))) s s' →
      look s' (absComps E.cwd objdir ++ [sidecarName o.digestAlgorithm]) = look s (absComps E.cwd objdir ++ [sidecarName o.digestAlgorithm]) := by
    intro s' hv4
    refine putVersion_root hh hv hc.queue ho hv4 hneS ?_
    by_cases he : o.digestAlgorithm = alg
    · left
      rw [hc.algorithm, hc.old, h3, h5, he]
      rfl
    · right
      intro old ho' he'
      rw [hc.old, h3] at ho'
      cases ho'
      exact he (List.append_cancel_left he')
  refine ⟨putVersion E o (absComps E.cwd objdir) (absComps E.cwd srcdir) nv (styleName style (n + 1)), nv.inv, ?_, ?_, hI, ?_⟩
  · unfold updAfter
    rw [hprep]
    show Prog.bind (writeNewVersion E o (absComps E.cwd objdir) (absComps E.cwd srcdir) nv) (fun inv => .ret (.ok (some inv))) = _
    rw [writeNewVersion_eq hc.head_eq, Prog.bind_assoc]
    congr 1
    funext _
    rw [Prog.bind_assoc]
    rfl
  · refine local_putVersion (look_names hw hs.base_dir) hh (fun x hx => Or.inl hx) (fun e he x hx => ?_) hc.queue ho
    obtain ⟨r, hr⟩ := hsource e he
    rw [hr] at hx
    exact Or.inr (near_of_prefix hx)
  · intro s' hr
    have hv4 := visits_run (putVersion E o (absComps E.cwd objdir) (absComps E.cwd srcdir) nv (styleName style (n + 1))) s
    rw [hr] at hv4
    refine ⟨(putVersion_complete hw hs.base_dir hh hc.queue ho hr).1, ?_, ?_⟩
    · rw [hI _ hv4]
      exact h.root_notDir (algs := []) (Or.inl rfl)
    · rw [hS _ hv4]
      exact h.root_notDir (algs := [o.digestAlgorithm]) (Or.inr ⟨_, by simp, rfl⟩)

/-- A step of a program changes only what the program depends on. -/
theorem local_step {α : Type} {B : Path → Prop} {p p' : Prog α} {s s' : FS} (hl : Local B p) (hw : s.WF) (h : Concurrent.Step p s p' s') :
    s'.WF ∧ Local B p' ∧ ∀ x, ¬ B x → look s' x = look s x := by
  cases h with
  | get => cases hl with | get _ hk => exact ⟨hw, hk _, fun _ _ => rfl⟩
  | op => cases hl with | op hs hB hk => exact ⟨exec_wf hw hs, hk _, fun x hx => exec_frame (fun he => hx (he ▸ hB _ List.prefix_rfl))⟩
  | @part q b k _ n =>
    cases hl with
    | op hs hB hk =>
      have hs' : SafeTarget (.write q (b.take n)) := hs
      exact ⟨exec_wf hw hs', .op hs hB hk, fun x hx => exec_frame (fun he => hx (he ▸ hB _ List.prefix_rfl))⟩

/-! ## The update -/

/-- An update of an object made by the library. -/
structure Updating (E : Env) (o : Obj) (objdir srcdir : Str) (metadata : Option VBlock) (trees : List Tree) (s0 : FS) (dv : Str)
    (recs : List Rec) : Prop where
  lib : E.lib.Lawful
  hash : HashLib E.raw
  alg : o.digestAlgorithm = c!"sha512" ∨ o.digestAlgorithm = c!"sha256"
  block : GoodMeta metadata
  names : NamesAllowed o (FileBelow s0 (absComps E.cwd srcdir))
  sound : Sound E s0 (absComps E.cwd objdir) dv trees recs
  apart : NoCollision E.raw (InTrees (trees ++ [FileBelow s0 (absComps E.cwd srcdir)]))
  few : trees.length + 1 ≤ 99999

section
variable {E : Env} {o : Obj} {objdir srcdir : Str} {metadata : Option VBlock} {abort : Bool} {trees : List Tree} {s0 : FS} {dv : Str} {recs : List Rec}

/-- The update has come as far as if it were alone. -/
def UpdInv (E : Env) (o : Obj) (objdir srcdir : Str) (metadata : Option VBlock) (abort : Bool) (s0 : FS) (q : Prog (Option Inv)) (s : FS) : Prop :=
  q = addVersionWithContent E o objdir (some srcdir) metadata abort ∧
      Agree (Around (absComps E.cwd objdir) (absComps E.cwd srcdir)) s s0 ∨
  ∃ s1, s1.WF ∧ Agree (Around (absComps E.cwd objdir) (absComps E.cwd srcdir)) s1 s0 ∧
    Follows (Around (absComps E.cwd objdir) (absComps E.cwd srcdir)) (updAfter E o objdir (some srcdir) metadata abort s1) s1 q s

/-- The version directory is complete and the root inventory is being written. -/
def UpdPast (E : Env) (o : Obj) (objdir srcdir : Str) (σ : FS) (q : Prog (Option Inv)) (s : FS) : Prop :=
  σ.WF ∧ look σ (absComps E.cwd objdir ++ [inventoryFilename]) ≠ some .dir ∧
    look σ (absComps E.cwd objdir ++ [sidecarName o.digestAlgorithm]) ≠ some .dir ∧
    ∃ inv, Follows (Around (absComps E.cwd objdir) (absComps E.cwd srcdir)) (updRest E o (absComps E.cwd objdir) inv) σ q s

theorem Updating.apart' (h : Updating E o objdir srcdir metadata trees s0 dv recs) : NoCollision E.raw (InTrees trees) :=
  NoCollision.mono h.apart (fun _ hb => InTrees.append hb)

theorem Updating.at (h : Updating E o objdir srcdir metadata trees s0 dv recs) {s1 : FS} (hw : s1.WF)
    (ha : Agree (Around (absComps E.cwd objdir) (absComps E.cwd srcdir)) s1 s0) : Sound E s1 (absComps E.cwd objdir) dv trees recs :=
  h.sound.outside hw (fun q hq => ha q (Or.inl (Or.inr hq)))

theorem Updating.safe (h : Updating E o objdir srcdir metadata trees s0 dv recs) : ∀ w ∈ absComps E.cwd objdir, SafeName w :=
  look_names h.sound.wf h.sound.isDir

theorem sameTree {s1 : FS} {src base : Path} (ha : Agree (Around base src) s1 s0) : FileBelow s1 src = FileBelow s0 src := by
  funext r b
  unfold FileBelow
  rw [ha (src ++ r) (Or.inr (Or.inr (List.prefix_append _ _)))]

theorem Updating.rest_local (h : Updating E o objdir srcdir metadata trees s0 dv recs) (inv : Inv) :
    Local (Around (absComps E.cwd objdir) (absComps E.cwd srcdir)) (updRest E o (absComps E.cwd objdir) inv) :=
  .bind (local_writeInv h.safe (fun _ hx => Or.inl hx) .root) (fun _ => .ret)

theorem Updating.after_local (h : Updating E o objdir srcdir metadata trees s0 dv recs) {s1 : FS} (hw : s1.WF)
    (ha : Agree (Around (absComps E.cwd objdir) (absComps E.cwd srcdir)) s1 s0) :
    Local (Around (absComps E.cwd objdir) (absComps E.cwd srcdir)) (updAfter E o objdir (some srcdir) metadata abort s1) := by
  rcases (h.at hw ha).update_shape (srcdir := srcdir) (abort := abort) h.lib h.hash h.alg h.block h.apart' h.few with
    ⟨r, hr, _⟩ | ⟨put, inv, he, hl, _⟩
  · rw [hr]; exact .ret
  · rw [he]; exact .bind hl (fun _ => h.rest_local inv)

theorem UpdInv.step (h : Updating E o objdir srcdir metadata trees s0 dv recs) {q q' : Prog (Option Inv)} {s s' : FS} (hs : s.WF)
    (hi : UpdInv E o objdir srcdir metadata abort s0 q s) (hst : Concurrent.Step q s q' s') :
    UpdInv E o objdir srcdir metadata abort s0 q' s' ∧ s'.WF ∧
      ∀ x, ¬ Around (absComps E.cwd objdir) (absComps E.cwd srcdir) x → look s' x = look s x := by
  rcases hi with ⟨rfl, ha⟩ | ⟨s1, hw1, ha1, hf⟩
  · rw [update_get] at hst
    cases hst
    exact ⟨Or.inr ⟨s, hs, ha, .start .refl⟩, hs, fun _ _ => rfl⟩
  · have hl := h.after_local (abort := abort) hw1 ha1
    obtain ⟨t, m, hr, _, _⟩ := id hf
    obtain ⟨k1, _, k3⟩ := local_step (hr.local hl) hs hst
    exact ⟨Or.inr ⟨s1, hw1, ha1, hf.step hw1 hs hl hst⟩, k1, k3⟩

theorem UpdInv.stay {q : Prog (Option Inv)} {s s' : FS} (hi : UpdInv E o objdir srcdir metadata abort s0 q s)
    (ha : Agree (Around (absComps E.cwd objdir) (absComps E.cwd srcdir)) s' s) : UpdInv E o objdir srcdir metadata abort s0 q s' := by
  rcases hi with ⟨rfl, ha0⟩ | ⟨s1, hw1, ha1, hf⟩
  · exact Or.inl ⟨rfl, ha.trans ha0⟩
  · exact Or.inr ⟨s1, hw1, ha1, hf.stay ha⟩

theorem UpdPast.step (h : Updating E o objdir srcdir metadata trees s0 dv recs) {q q' : Prog (Option Inv)} {s s' σ : FS} (hs : s.WF)
    (hp : UpdPast E o objdir srcdir σ q s) (hst : Concurrent.Step q s q' s') : UpdPast E o objdir srcdir σ q' s' := by
  obtain ⟨h1, h2, h3, inv, hf⟩ := hp
  exact ⟨h1, h2, h3, inv, hf.step h1 hs (h.rest_local inv) hst⟩

theorem UpdPast.stay {q : Prog (Option Inv)} {s s' σ : FS} (hp : UpdPast E o objdir srcdir σ q s)
    (ha : Agree (Around (absComps E.cwd objdir) (absComps E.cwd srcdir)) s' s) : UpdPast E o objdir srcdir σ q s' := by
  obtain ⟨h1, h2, h3, inv, hf⟩ := hp
  exact ⟨h1, h2, h3, inv, hf.stay ha⟩

/-- What is there for good: directories, and what is deep in the object directory. -/
def Lasting (base : Path) (σ : FS) (x : Path) : Prop := look σ x = some .dir ∨ look σ x ≠ none ∧ ∃ w q, q ≠ [] ∧ x = base ++ w :: q

theorem UpdPast.deep {q : Prog (Option Inv)} {s σ : FS} (hp : UpdPast E o objdir srcdir σ q s) {w : Str} {r : List Str} (hr : r ≠ []) :
    look s (absComps E.cwd objdir ++ w :: r) = look σ (absComps E.cwd objdir ++ w :: r) := by
  obtain ⟨h1, h2, h3, inv, t, m, k1, k2, k3⟩ := hp
  rw [k3 _ (Or.inl (Or.inr (List.prefix_append _ _)))]
  exact (updRest_visits (k1.visits k2.visits)).1 w r hr

theorem UpdPast.lasting {q : Prog (Option Inv)} {s σ : FS} (hp : UpdPast E o objdir srcdir σ q s) {x : Path}
    (hx : Around (absComps E.cwd objdir) (absComps E.cwd srcdir) x) (hl : Lasting (absComps E.cwd objdir) σ x) : look s x = look σ x := by
  rcases hl with hd | ⟨_, w, r, hr, rfl⟩
  · obtain ⟨h1, h2, h3, inv, t, m, k1, k2, k3⟩ := hp
    rw [k3 _ hx]
    refine (updRest_visits (k1.visits k2.visits)).2 x ?_ ?_ (by rw [hd]; simp)
    · rintro rfl; exact h2 hd
    · rintro rfl; exact h3 hd
  · exact hp.deep hr

theorem UpdInv.moment (h : Updating E o objdir srcdir metadata trees s0 dv recs) {q : Prog (Option Inv)} {s : FS} (hs : s.WF)
    (hi : UpdInv E o objdir srcdir metadata abort s0 q s) :
    ∃ s1 m, s1.WF ∧ m.WF ∧ Agree (Around (absComps E.cwd objdir) (absComps E.cwd srcdir)) s1 s0 ∧
      Visits (addVersionWithContent E o objdir (some srcdir) metadata abort) s1 m ∧
      Agree (Around (absComps E.cwd objdir) (absComps E.cwd srcdir)) s m ∧
      (look m (absComps E.cwd objdir ++ [inventoryFilename]) = look s1 (absComps E.cwd objdir ++ [inventoryFilename]) ∨
        ∃ σ, UpdPast E o objdir srcdir σ q s) := by
  rcases hi with ⟨rfl, ha⟩ | ⟨s1, hw1, ha1, hf⟩
  · exact ⟨s, s, hs, hs, ha, .here, .refl, Or.inl rfl⟩
  · obtain ⟨t, m, k1, k2, k3, k4, k5⟩ := hf.wf hw1 (h.after_local hw1 ha1)
    refine ⟨s1, m, hw1, k5, ha1, ?_, k3, ?_⟩
    · rw [update_get]
      exact .get (k1.visits k2.visits)
    rcases (h.at hw1 ha1).update_shape (srcdir := srcdir) (abort := abort) h.lib h.hash h.alg h.block h.apart' h.few with
      ⟨r, hr, _⟩ | ⟨put, inv, he, hl, hroot, hdone⟩
    · left
      rw [hr] at k1
      have := k1.visits k2.visits
      rw [visits_ret this]
    · rw [he] at k1
      rcases k1.bind_inv with ⟨p', hp', rfl⟩ | ⟨σ, a, hrun, hreach⟩
      · by_cases hret : ∃ a, p' = .ret (.ok a)
        · obtain ⟨a, rfl⟩ := hret
          obtain ⟨d1, d2, d3⟩ := hdone t (hp'.ended)
          exact Or.inr ⟨t, d1, d2, d3, inv, t, m, .here, k2, k3⟩
        · left
          exact hroot m (hp'.visits (k2.bind_inv (fun a ha => hret ⟨a, ha⟩)).visits)
      · obtain ⟨d1, d2, d3⟩ := hdone σ hrun
        exact Or.inr ⟨σ, d1, d2, d3, inv, t, m, hreach, k2, k3⟩

theorem UpdInv.lasting (h : Updating E o objdir srcdir metadata trees s0 dv recs) {q : Prog (Option Inv)} {s : FS} (hs : s.WF)
    (hi : UpdInv E o objdir srcdir metadata abort s0 q s) {x : Path}
    (hx : Around (absComps E.cwd objdir) (absComps E.cwd srcdir) x) (hl : Lasting (absComps E.cwd objdir) s0 x) : look s x = look s0 x := by
  obtain ⟨s1, m, hw1, hwm, ha1, hv, ha, _⟩ := hi.moment h hs
  have h1 := h.at hw1 ha1
  rw [ha x hx, ← ha1 x hx]
  rcases C24_update h.lib h.hash hw1 hv with he | ⟨_, alg, head, _, _, _, hadds, _⟩
  · rw [he]
  rcases hl with hd | ⟨hne, w, r, hr, rfl⟩
  · rw [← ha1 x hx] at hd
    exact hadds.kept x (fun hq => h1.root_notDir hq hd) (by rw [hd]; simp)
  · rw [← ha1 _ hx] at hne
    exact hadds.kept _ (rootInventory_short hr) hne

end

end Ocfl
