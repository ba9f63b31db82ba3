import Verif.Spec.Jobs
import Verif.Proofs.Many
import Verif.Proofs.Reader
import Verif.Proofs.Recipe
import Verif.Props.Lax
import Verif.Props.Interrupted

/-!
# Calls that work in directories of their own
-/

namespace Ocfl

open Spec FS Prog Ocfl.Inv Validator

/-! ## What is read -/

theorem fswOpen_agree {cwd : Path} {d : Str} {s t : FS} (h : look s (absComps cwd d) = look t (absComps cwd d)) : fswOpen cwd d s = fswOpen cwd d t := by
  unfold fswOpen
  dsimp only
  rw [isdir_agree h]

theorem openObj_agree {E : Env} {d : Str} {s t : FS} (h : look s (absComps E.cwd d) = look t (absComps E.cwd d)) : openObj E d s = openObj E d t := by
  unfold openObj
  rw [fswOpen_agree h]

theorem parseInventory_agree {E : Env} {base : Path} {s t : FS} (h : ∀ x, Near base x → look s x = look t x) :
    parseInventory E base s = parseInventory E base t := by
  have e : FS.resolve base inventoryFilename = base ++ [inventoryFilename] :=
    resolve_join (ws := [inventoryFilename]) base (by intro w hw; rw [List.mem_singleton.mp hw]; exact ⟨by decide, by decide, by decide, by decide⟩)
  unfold parseInventory readText
  rw [e, read_agree (fun x hx => h x (near_of_prefix hx))]

theorem addFromSrcdir_agree {E : Env} {src : Path} {s t : FS} (hs : s.WF) (ht : t.WF) (hd : look s src = some .dir)
    (h : ∀ x, src <+: x → look t x = look s x) (nv : NV) : addFromSrcdir E s src nv = addFromSrcdir E t src nv := by
  refine addFromSrcdir_congr hs ht hd (by rw [h _ List.prefix_rfl]; exact hd) (fun r b => ?_) nv
  unfold FileBelow
  rw [h _ (List.prefix_append _ _)]

theorem prepareFirst_agree {E : Env} {o : Obj} {srcdir : Str} {metadata : Option VBlock} {s t : FS} (hs : s.WF) (ht : t.WF)
    (h : ∀ x, absComps E.cwd srcdir <+: x → look t x = look s x) : prepareFirst E o srcdir metadata t = prepareFirst E o srcdir metadata s := by
  unfold prepareFirst
  rw [fswOpen_agree (h _ List.prefix_rfl)]
  cases o.id with
  | none => rfl
  | some i =>
  dsimp only
  cases hsrc : fswOpen E.cwd srcdir s with
  | error e => rfl
  | ok src =>
  obtain ⟨rfl, hdir⟩ := fswOpen_ok hsrc
  dsimp only
  cases NV.firstVersion i o.specVersion (some o.digestAlgorithm) (some o.contentDirectory) metadata o.dedupe (o.fixity.getD []) o.norm with
  | error e => rfl
  | ok nv =>
    dsimp only
    rw [addFromSrcdir_agree hs ht hdir h nv]

theorem extractSetup_agree {E : Env} {objdir version : Str} {s t : FS} (h : ∀ x, Near (absComps E.cwd objdir) x → look t x = look s x) :
    extractSetup E objdir version t = extractSetup E objdir version s := by
  unfold extractSetup
  rw [openObj_agree (h _ (Or.inl List.prefix_rfl))]
  cases hb : openObj E objdir s with
  | error e => rfl
  | ok base =>
    obtain ⟨rfl, _⟩ := openObj_ok hb
    dsimp only
    rw [parseInventory_agree h]

/-- Validation of an object that is the same in both file systems. -/
theorem accepted_agree {E : Env} (hE : Libraries E) {lax : Bool} {objdir : Str} {s t : FS} (hs : s.WF) (ht : t.WF)
    (h : ∀ x, absComps E.cwd objdir <+: x → look t x = look s x)
    (hlax : lax = true → ValidObject E false s (absComps E.cwd objdir))
    (hv : ∃ es, validateObject E { checkDigests := false, lax := lax } 0 s objdir = .ok (true, es)) :
    ∃ es, validateObject E { checkDigests := false, lax := lax } 0 t objdir = .ok (true, es) := by
  have hsame : ∀ q, look t (absComps E.cwd objdir ++ q) = look s (absComps E.cwd objdir ++ q) := fun q => h _ (List.prefix_append _ _)
  have hdir : look s (absComps E.cwd objdir) = some .dir := by
    obtain ⟨es, hv⟩ := hv
    unfold validateObject at hv
    cases ho : fswOpen E.cwd objdir s with
    | ok base => obtain ⟨rfl, hd⟩ := fswOpen_ok ho; exact hd
    | error e =>
      rw [ho] at hv
      cases e <;> cases hv
  have hdir' : look t (absComps E.cwd objdir) = some .dir := by rw [h _ List.prefix_rfl]; exact hdir
  cases lax with
  | false =>
    rw [C73 hE rfl hs] at hv
    exact (C73 hE rfl ht).mpr ⟨hdir', ValidObject.same hsame hv.2⟩
  | true =>
    obtain ⟨es, hst⟩ := (C73 hE (cfg := { checkDigests := false }) rfl ht).mpr ⟨hdir', ValidObject.same hsame (hlax rfl)⟩
    obtain ⟨es', h1, _⟩ := (same_validateObject hE.json (cfg := { checkDigests := false }) (n := 0) (s := t) (path := objdir) (Or.inr ⟨es, hst⟩)).1 _ _ hst
    exact ⟨es', h1⟩

/-- The content files of an object made by the library. -/
theorem Sound.content {E : Env} (hlib : E.lib.Lawful) {s : FS} {base : Path} {dv : Str} {trees : List Tree} {recs : List Rec}
    (h : Sound E s base dv trees recs) {inv : Inv} (hp : parseInventory E base s = .ok inv) {c : Str} (hc : c ∈ listed inv.manifestD) :
    ∃ ws b, (∀ w ∈ ws, SafeName w) ∧ c = joinWith '/' ws ∧ look s (base ++ ws) = some (.file b) := by
  obtain ⟨rl, _, hdl, hstored, _, _⟩ := h.last
  rw [parse_written hlib hdl.parsed hstored.1] at hp
  cases hp
  have hds := hdl.sorted
  obtain ⟨d, hl⟩ := mem_listed.mp hc
  have hm : rl.inv.sorted.manifestD = rl.inv.sorted.manifest.getD [] := rfl
  rw [hds.parsed.good.manifest] at hm
  rw [hm] at hl
  obtain ⟨v, ws, b, _, _, k3, k4, k5, k6, _⟩ := hds.segs hl
  rw [k5] at k6
  exact ⟨_, b, k3, by rw [k4]; exact (joinWith_eq_pathOf _).symm, k6⟩

/-- What an update is going to do is the same. -/
theorem prepareUpdate_half {E : Env} (hE : Libraries E) {o : Obj} {objdir srcdir : Str} {metadata : Option VBlock} {abort : Bool} {s t : FS}
    {dv : Str} {trees : List Tree} {recs : List Rec} (h : Sound E s (absComps E.cwd objdir) dv trees recs) (ht : t.WF)
    (ha : Agree (Around (absComps E.cwd objdir) (absComps E.cwd srcdir)) t s)
    (hlax : o.lax = true → ValidObject E false s (absComps E.cwd objdir)) {r : Option (Path × Path × NV)}
    (hr : prepareUpdate E o objdir (some srcdir) metadata abort s = .ok r) : prepareUpdate E o objdir (some srcdir) metadata abort t = .ok r := by
  have hobj : ∀ x, Near (absComps E.cwd objdir) x → look t x = look s x := fun x hx => ha x (Or.inl hx)
  have hsrc : ∀ x, absComps E.cwd srcdir <+: x → look t x = look s x := fun x hx => ha x (Or.inr (Or.inr hx))
  have hstart : ∀ r, startNewVersion E o objdir (some srcdir) (some o.digestAlgorithm) o.fixity metadata false s = .ok r →
      startNewVersion E o objdir (some srcdir) (some o.digestAlgorithm) o.fixity metadata false t = .ok r ∧ r.2.1 = absComps E.cwd srcdir ∧
        look s (absComps E.cwd srcdir) = some .dir := by
    intro r hr
    unfold startNewVersion at hr ⊢
    cases hi : startInventory E o objdir (some o.digestAlgorithm) o.fixity s with
    | error e => rw [hi] at hr; cases hr
    | ok q =>
    rw [hi] at hr
    obtain ⟨base, oldAlg, inv⟩ := q
    have hi' : startInventory E o objdir (some o.digestAlgorithm) o.fixity t = .ok (base, oldAlg, inv) := by
      unfold startInventory at hi ⊢
      rw [openObj_agree (hobj _ (Or.inl List.prefix_rfl))]
      cases hb : openObj E objdir s with
      | error e => rw [hb] at hi; cases hi
      | ok base0 =>
      rw [hb] at hi
      obtain ⟨rfl, _⟩ := openObj_ok hb
      dsimp only at hi ⊢
      cases hv : validateObject E { checkDigests := false, lax := o.lax } 0 s objdir with
      | error e => rw [hv] at hi; cases hi
      | ok vr =>
      obtain ⟨b, es⟩ := vr
      rw [hv] at hi
      cases b with
      | false => cases hi
      | true =>
      obtain ⟨es', hv'⟩ := accepted_agree hE h.wf ht (fun x hx => hobj x (Or.inr hx)) hlax ⟨es, hv⟩
      rw [hv']
      dsimp only at hi ⊢
      rw [parseInventory_agree hobj]
      cases hp : parseInventory E (absComps E.cwd objdir) s with
      | error e => rw [hp] at hi; cases hi
      | ok inv0 =>
      rw [hp] at hi
      dsimp only at hi ⊢
      rw [← changeDigest_congr (s := s) (base := absComps E.cwd objdir)]
      · exact hi
      · intro f hf
        rw [changeFixity_eq] at hf
        obtain ⟨ws, b, k1, rfl, k3⟩ := h.content hE.json hp hf
        rw [resolve_join _ k1]
        exact ⟨b, k3, by rw [hobj _ (Or.inr (List.prefix_append _ _))]; exact k3⟩
    rw [hi']
    dsimp only at hr ⊢
    rw [fswOpen_agree (hsrc _ List.prefix_rfl)]
    cases hf : fswOpen E.cwd srcdir s with
    | error e => rw [hf] at hr; cases hr
    | ok src =>
    rw [hf] at hr
    obtain ⟨rfl, hdir⟩ := fswOpen_ok hf
    dsimp only at hr ⊢
    refine ⟨hr, ?_, hdir⟩
    split at hr
    · cases hr
    · cases hr; rfl
  unfold prepareUpdate at hr ⊢
  cases hn : startNewVersion E o objdir (some srcdir) (some o.digestAlgorithm) o.fixity metadata false s with
  | error e => rw [hn] at hr; cases hr
  | ok q =>
  rw [hn] at hr
  obtain ⟨base, src, nv⟩ := q
  obtain ⟨h1, h2, h3⟩ := hstart _ hn
  have h2 : src = absComps E.cwd srcdir := h2
  subst h2
  rw [h1]
  dsimp only at hr ⊢
  rw [← addFromSrcdir_agree h.wf ht h3 hsrc nv]
  exact hr

/-! ## Creating an object -/

theorem create_parent {E : Env} {objdir : Str} {s : FS} (hp : look s (absComps E.cwd (osPathSplit objdir).1) = some .dir)
    (hvac : Vacant s (absComps E.cwd objdir)) : absComps E.cwd (osPathSplit objdir).1 <+: absComps E.cwd objdir ∧
      ∀ x, x <+: absComps E.cwd objdir → x ≠ absComps E.cwd objdir → x <+: absComps E.cwd (osPathSplit objdir).1 := by
  obtain ⟨h1, h2⟩ := absComps_split E.cwd objdir
  rw [resolve_no_slash h2] at h1
  have hshort : ∀ x, x <+: absComps E.cwd objdir → absComps E.cwd objdir = absComps E.cwd (osPathSplit objdir).1 →
      x <+: absComps E.cwd (osPathSplit objdir).1 := fun x hx he => he ▸ hx
  rcases normStep_cases (absComps E.cwd (osPathSplit objdir).1) (osPathSplit objdir).2 with e | e | e
  · rw [e] at h1
    exact ⟨by rw [h1]; exact List.prefix_rfl, fun x hx _ => hshort x hx h1.symm⟩
  · rw [e] at h1
    have hx := List.dropLast_prefix (absComps E.cwd (osPathSplit objdir).1)
    rw [h1] at hx
    obtain ⟨r, hr⟩ := hx
    by_cases hn : r = []
    · rw [hn, List.append_nil] at hr
      exact ⟨by rw [hr]; exact List.prefix_rfl, fun x hx _ => hshort x hx hr⟩
    · have := hvac.2 r hn
      rw [hr, hp] at this
      cases this
  · rw [e] at h1
    refine ⟨by rw [← h1]; exact List.prefix_append _ _, fun x hx hne => ?_⟩
    rw [← h1] at hx hne
    rcases List.prefix_concat_iff.mp hx with he | he
    · exact absurd he hne
    · exact he

theorem local_openObjCreate {E : Env} {B : Path → Prop} {objdir : Str} (hs : ∀ w ∈ absComps E.cwd objdir, SafeName w)
    (hp : absComps E.cwd (osPathSplit objdir).1 <+: absComps E.cwd objdir) (hB : ∀ x, Near (absComps E.cwd objdir) x → B x) :
    Local B (openObjCreate E objdir) := by
  unfold openObjCreate fswOpenCreate
  dsimp only
  refine .handle (.look_bind ?_ ?_) (fun _ => .ret)
  · intro s s' _ _ ha
    exact fswOpen_agree (ha _ (hB _ (Or.inl hp)))
  · intro s b hb
    obtain ⟨rfl, _⟩ := fswOpen_ok hb
    rw [(absComps_split E.cwd objdir).1]
    refine .get (fun s s' _ _ ha => ?_) (fun s => .ite (fun _ => .ret) (fun _ => .bind (local_makedir hs (fun x hx => hB x (Or.inl hx))) (fun _ => .ret)))
    rw [exists_agree (ha _ (hB _ (Or.inl List.prefix_rfl)))]

theorem local_declaration {E : Env} (hword : WordClass E.isWord) {B : Path → Prop} {o : Obj} (ho : GoodSettings o) {base : Path}
    (hs : ∀ w ∈ base, SafeName w) (hB : ∀ x, Near base x → B x) : Local B (writeDeclaration E o base) := by
  unfold writeDeclaration namasteWrite namasteFilename
  rw [tvalue_declaration hword ho.specVersion, osPathJoin_nil]
  have e : natStr 0 ++ c!"=" ++ (c!"ocfl_object_" ++ o.specVersion) = declarationName o.specVersion := rfl
  rw [e, resolve_name _ (declaration_safe ho.specVersion)]
  exact .perform (safe_append hs (by simpa using declaration_safe ho.specVersion)) (fun x hx => hB x (near_of_prefix hx))

/-- What a call does after its first look. -/
def Spec.Job.after (E : Env) : (j : Job) → FS → Prog j.Result
  | .create o srcdir metadata objdir => fun s => Prog.bind (.ret (prepareFirst E o srcdir metadata s)) (fun r =>
      Prog.bind (writeFirst E o r.1 r.2 objdir) (fun _ => .ret (.ok r.2.inv)))
  | .update o objdir srcdir metadata abort => updAfter E o objdir (some srcdir) metadata abort
  | .extract objdir version dstdir => fun s => Prog.bind (.ret (extractSetup E objdir version s)) (fun r =>
      Prog.bind (extractDst E dstdir) (fun dst =>
      Prog.bind (extractState r.1 dst r.2.1.manifestD (r.2.1.stateOf r.2.2)) (fun _ =>
      Prog.ofPy (versionMetadata r.2.1 r.2.2))))

theorem Spec.Job.prog_get (E : Env) (j : Job) : j.prog E = .get (j.after E) := by
  cases j <;> rfl

/-- All values that a program may give are the same. -/
inductive Prog.Yields {α : Type} (a : α) : Prog α → Prop
  | error {e : PyErr} : Yields a (.ret (.error e))
  | ok : Yields a (.ret (.ok a))
  | get {k : FS → Prog α} : (∀ s, Yields a (k s)) → Yields a (.get k)
  | op {o : FS.Op} {k : Py Unit → Prog α} : (∀ r, Yields a (k r)) → Yields a (.op o k)

theorem Prog.Yields.bind_eq {α β : Type} {a : α} {p : Prog α} (h : Yields a p) {g : α → Prog β} : Prog.bind p g = Prog.bind p (fun _ => g a) := by
  induction h with
  | error => rfl
  | ok => rfl
  | get _ ih => exact congrArg Prog.get (funext ih)
  | @op o k _ ih => exact congrArg (Prog.op o) (funext ih)

theorem Prog.Yields.after {α β : Type} {a : α} (p : Prog β) {g : β → Prog α} (h : ∀ b, Yields a (g b)) : Yields a (Prog.bind p g) := by
  induction p with
  | ret r => cases r with
    | ok b => exact h b
    | error e => exact .error
  | get k ih => exact .get ih
  | op o k ih => exact .op ih

theorem Prog.Yields.handled {α : Type} {a : α} {p : Prog α} {f : PyErr → Prog α} (h : Yields a p) (hf : ∀ e, Yields a (f e)) :
    Yields a (Prog.handle p f) := by
  induction h with
  | error => exact hf _
  | ok => exact .ok
  | get _ ih => exact .get ih
  | op _ ih => exact .op ih

theorem openObjCreate_yields {E : Env} {objdir : Str} : Prog.Yields (absComps E.cwd objdir) (openObjCreate E objdir) := by
  unfold openObjCreate fswOpenCreate
  dsimp only
  refine .handled (.get (fun s => ?_)) (fun _ => .error)
  dsimp only
  cases hb : fswOpen E.cwd (osPathSplit objdir).1 s with
  | error e => exact .error
  | ok b =>
    obtain ⟨rfl, _⟩ := fswOpen_ok hb
    refine .get (fun s => ?_)
    rw [(absComps_split E.cwd objdir).1]
    split
    · exact .ok
    · exact .after _ (fun _ => .ok)

theorem inDst_stays {base D : Path} {o : FS.Op} (hD : base <+: D) (h : Stays base D o) : InDst base o := by
  rcases h with h | ⟨q, h1, h2⟩
  · exact Or.inl (hD.trans h)
  · exact Or.inr ⟨q, h1, h2⟩

theorem inDst_staysRoot {base : Path} {alg : Str} {o : FS.Op} (h : StaysRoot base alg o) : InDst base o := by
  rcases h with h | h | ⟨q, h1, h2⟩
  · exact Or.inl (h ▸ List.prefix_append _ _)
  · exact Or.inl (h ▸ List.prefix_append _ _)
  · exact Or.inr ⟨q, h1, h2⟩

/-- Writing a new object. -/
theorem writeFirst_local {E : Env} (hE : Libraries E) (hcwd : ∀ w ∈ E.cwd, SafeName w) {o : Obj} (ho : GoodSettings o) {srcdir objdir : Str}
    {metadata : Option VBlock} (hmeta : GoodMeta metadata) {s : FS} (hw : s.WF)
    (hp : absComps E.cwd (osPathSplit objdir).1 <+: absComps E.cwd objdir) {src : Path} {nv : NV}
    (hprep : prepareFirst E o srcdir metadata s = .ok (src, nv)) :
    Local (Around (absComps E.cwd objdir) (absComps E.cwd srcdir)) (writeFirst E o src nv objdir) ∧
    Only (InDst (absComps E.cwd objdir)) (writeFirst E o src nv objdir) := by
  have hbs : ∀ w ∈ absComps E.cwd objdir, SafeName w := absComps_safe hcwd objdir
  have hsrc : src = absComps E.cwd srcdir := by
    unfold prepareFirst at hprep
    split at hprep
    · cases hprep
    split at hprep
    · cases hprep
    rename_i src' hsrc
    obtain ⟨rfl, _⟩ := fswOpen_ok hsrc
    split at hprep
    · cases hprep
    split at hprep
    · cases hprep
    cases hprep
    rfl
  subst hsrc
  obtain ⟨nv0, srcs, hff⟩ := prepareFirst_ok hw ho hmeta hprep
  have hcd : nv0.inv.contentDirectoryToUse ≠ [] := by rw [hff.contentDirectory]; exact ho.contentDirectory.1
  have hq : QueueReady (styleName none 1) nv.filesToCopy :=
    hff.ground.queueReady hff.added hff.source.names (hexNames_srcEnv hE.hash s _) hcd
  have hone : styleName none 1 = c!"v1" := rfl
  rw [hone] at hq
  have hh : SafeName c!"v1" := by decide
  have hB : ∀ x, Near (absComps E.cwd objdir) x → Around (absComps E.cwd objdir) (absComps E.cwd srcdir) x := fun x hx => Or.inl hx
  unfold writeFirst
  rw [openObjCreate_yields.bind_eq]
  have hsn : ∀ e ∈ nv.filesToCopy, ∀ x, x <+: FS.resolve (absComps E.cwd srcdir) e.1 → Around (absComps E.cwd objdir) (absComps E.cwd srcdir) x := by
    intro e he x hx
    obtain ⟨r, b, hf, hj⟩ := (hff.source.files e.1).mp (hff.added.queueDone e he)
    rw [hj, resolve_join _ ((treeOK_below hw _).names r b hf).2] at hx
    exact Or.inr (near_of_prefix hx)
  constructor
  · exact .bind (local_openObjCreate hbs hp hB) (fun _ => .bind (local_writeInv hbs hB (.version hh)) (fun _ => .bind (local_declaration hE.word ho hbs hB) (fun _ =>
      .bind (local_writeInv hbs hB .root) (fun _ => .forEach (fun e he => local_copyIntoObject hbs hh hB (hsn e he) (hq.inside e he))))))
  · exact .bind (only_openObjCreate.mono (fun op hop => Or.inr hop)) (fun _ =>
      .bind ((only_writeInvVersion hh).mono (fun op => inDst_stays (List.prefix_append _ _))) (fun _ =>
      .bind (only_declaration hE.word ho (Or.inl (List.prefix_append _ _))) (fun _ =>
      .bind (only_writeInvRoot.mono (fun op => inDst_staysRoot)) (fun _ =>
      (only_copyAll hh hq.inside).mono (fun op => inDst_stays (List.prefix_append _ _))))))

theorem agree_symm {B : Path → Prop} {s t : FS} (h : Agree B s t) : Agree B t s := fun x hx => (h x hx).symm

/-- A call depends on its directories only, and changes only what is in the directory that it writes to. -/
theorem Spec.Job.Ready.tame {E : Env} (hE : Libraries E) (hcwd : ∀ w ∈ E.cwd, SafeName w) {s : FS} (hw : s.WF) {j : Job} (h : j.Ready E s) :
    Tame (Around (j.home E) (j.source E)) (fun x => j.home E <+: x) s (j.after E) := by
  cases h with
  | @create o srcdir metadata objdir settings block parent vacant =>
    obtain ⟨hp, habove⟩ := create_parent parent vacant
    constructor
    · intro t ht ha
      show Local _ (Prog.bind (.ret (prepareFirst E o srcdir metadata t)) (fun r =>
        Prog.bind (writeFirst E o r.1 r.2 objdir) (fun _ => .ret (.ok r.2.inv))))
      cases hpr : prepareFirst E o srcdir metadata t with
      | error e => exact .ret
      | ok r =>
        obtain ⟨src, nv⟩ := r
        show Local _ (Prog.bind (writeFirst E o src nv objdir) (fun _ => .ret (.ok nv.inv)))
        exact .bind (writeFirst_local hE hcwd settings block ht hp hpr).1 (fun _ => .ret)
    · intro t m ht ha hv x hx
      replace hv : Visits (Prog.bind (.ret (prepareFirst E o srcdir metadata t)) (fun r =>
        Prog.bind (writeFirst E o r.1 r.2 objdir) (fun _ => .ret (.ok r.2.inv)))) t m := hv
      cases hpr : prepareFirst E o srcdir metadata t with
      | error e =>
        rw [hpr] at hv
        rw [visits_ret hv]
      | ok r =>
        obtain ⟨src, nv⟩ := r
        rw [hpr] at hv
        have ho : Only (InDst (absComps E.cwd objdir)) (Prog.bind (writeFirst E o src nv objdir) (fun _ => .ret (.ok nv.inv))) :=
          .bind (writeFirst_local hE hcwd settings block ht hp hpr).2 (fun _ => .ret)
        refine frame_inside ho (fun y hy hne => ?_) hv hx
        rw [ha y (Or.inl (Or.inl hy))]
        by_cases he : y = absComps E.cwd (osPathSplit objdir).1
        · rw [he, parent]; simp
        · rw [look_prefix hw (habove y hy hne) he parent]; simp
  | @update o objdir srcdir metadata abort trees history algorithm block names apart few lax =>
    obtain ⟨dv, recs, hs⟩ := history_sound hE.json hE.hash hE.word hcwd history (NoCollision.mono apart (fun _ hb => InTrees.append hb)) (by omega)
    have hu : Updating E o objdir srcdir metadata trees s dv recs := ⟨hE.json, hE.hash, algorithm, block, names, hs, apart, few⟩
    constructor
    · exact fun t ht ha => hu.after_local ht ha
    · intro t m ht ha hv x hx
      have hx : ¬ absComps E.cwd objdir <+: x := hx
      rcases C24_update hE.json hE.hash ht (show Visits (addVersionWithContent E o objdir (some srcdir) metadata abort) t m from .get hv) with
        he | ⟨_, alg, head, _, _, _, hadds, _⟩
      · rw [he]
      · have hnr : ∀ algs, ¬ RootInventory (absComps E.cwd objdir) algs x := fun algs hr => hx (rootInventory_inside hr)
        cases hl : look t x with
        | some n => rw [hadds.kept x (hnr _) (by rw [hl]; simp), hl]
        | none =>
          by_contra hne
          exact hx ((List.prefix_append _ _).trans (hadds.added x (hnr _) hl hne))
  | @extract objdir version dstdir trees history apart few parent vacant out =>
    obtain ⟨dv, recs, hs⟩ := history_sound hE.json hE.hash hE.word hcwd history apart few
    have hnear : ∀ {t : FS}, Agree (Around (absComps E.cwd dstdir) (absComps E.cwd objdir)) t s →
        ∀ x, Near (absComps E.cwd objdir) x → look t x = look s x := fun ha x hx => ha x (Or.inr hx)
    have hpn := dstParent_near parent vacant
    have hds := absComps_safe hcwd dstdir
    obtain ⟨rl, hlast, hdl, hroot, _, _⟩ := hs.last
    have hread := hdl.read hE.json hcwd hw (version := version) (σ := s) hs.isDir hdl hroot.1 apart out parent vacant
    constructor
    · intro t ht ha
      show Local _ (Prog.bind (.ret (extractSetup E objdir version t)) (fun r =>
        Prog.bind (extractDst E dstdir) (fun dst =>
        Prog.bind (extractState r.1 dst r.2.1.manifestD (r.2.1.stateOf r.2.2)) (fun _ =>
        Prog.ofPy (versionMetadata r.2.1 r.2.2)))))
      rw [extractSetup_agree (hnear ha)]
      rcases hread with ⟨he, _⟩ | ⟨k, tr, inv, v, se, md, _, _, hset, _, _, hpaths, hitems⟩
      · rw [he]; exact .ret
      · rw [hset]
        refine local_extractDst_bind hds hpn (fun x hx => Or.inl hx) (.bind (local_extractState hds (fun x hx => Or.inl hx) hpaths ?_) (fun _ => ?_))
        · intro c p hi x hx
          obtain ⟨w, r, b, _, hr, _⟩ := hitems c p hi
          rw [hr] at hx
          exact Or.inr (near_of_prefix hx)
        · exact .ret
    · intro t m ht ha hv x hx
      replace hv : Visits (Prog.bind (.ret (extractSetup E objdir version t)) (fun r =>
        Prog.bind (extractDst E dstdir) (fun dst =>
        Prog.bind (extractState r.1 dst r.2.1.manifestD (r.2.1.stateOf r.2.2)) (fun _ =>
        Prog.ofPy (versionMetadata r.2.1 r.2.2))))) t m := hv
      rw [extractSetup_agree (hnear ha)] at hv
      rcases hread with ⟨he, _⟩ | ⟨k, tr, inv, v, se, md, _, _, hset, _, _, hpaths, hitems⟩
      · rw [he] at hv
        rw [visits_ret hv]
      · rw [hset] at hv
        have ho : Only (InDst (absComps E.cwd dstdir)) (Prog.bind (extractDst E dstdir) (fun dst =>
            Prog.bind (extractState (absComps E.cwd objdir) dst inv.manifestD (inv.stateOf v)) (fun _ =>
            Prog.ofPy (versionMetadata inv v)))) := inDst_extractDst_bind (.bind (inDst_extractState hpaths) (fun _ => .ret))
        refine frame_inside ho (fun y hy hne => ?_) hv hx
        rw [ha y (Or.inl (Or.inl hy))]
        by_cases hd : look s (absComps E.cwd dstdir) = some .dir
        · rw [look_prefix hw hy hne hd]; simp
        · have hlast := dst_above hw parent hd
          have hxd : y <+: (absComps E.cwd dstdir).dropLast := by
            obtain ⟨r, hr⟩ := hy
            have hrne : r ≠ [] := by
              rintro rfl
              exact hne (by rw [← hr]; simp)
            rw [← hr, List.dropLast_append_of_ne_nil hrne]
            exact List.prefix_append _ _
          rw [hlast] at hxd
          by_cases he : y = dstParent E dstdir
          · rw [he, show look s (dstParent E dstdir) = some .dir from parent]; simp
          · rw [look_prefix hw hxd he parent]; simp

/-- A call does the same if its directories are the same. -/
theorem Spec.Job.Ready.same {E : Env} (hE : Libraries E) (hcwd : ∀ w ∈ E.cwd, SafeName w) {s : FS} (hw : s.WF) {j : Job} (h : j.Ready E s) {t : FS}
    (ht : t.WF) (ha : Agree (Around (j.home E) (j.source E)) t s) :
    (∀ a, (run (j.prog E) t).2 = .ok a → (run (j.prog E) s).2 = .ok a ∧ Agree (Around (j.home E) (j.source E)) (run (j.prog E) t).1 (run (j.prog E) s).1) ∧
    ∀ e, (run (j.prog E) t).2 = .error e → ∃ e', (run (j.prog E) s).2 = .error e' := by
  have htame := h.tame hE hcwd hw
  have hsame : j.after E t = j.after E s →
      (run (j.prog E) t).2 = (run (j.prog E) s).2 ∧ Agree (Around (j.home E) (j.source E)) (run (j.prog E) t).1 (run (j.prog E) s).1 := by
    intro he
    rw [j.prog_get E, run_get, run_get, he]
    exact (htame.loc s hw .refl).run_agree ht hw ha
  have hdone : (run (j.prog E) t).2 = (run (j.prog E) s).2 ∧ Agree (Around (j.home E) (j.source E)) (run (j.prog E) t).1 (run (j.prog E) s).1 →
      (∀ a, (run (j.prog E) t).2 = .ok a → (run (j.prog E) s).2 = .ok a ∧ Agree (Around (j.home E) (j.source E)) (run (j.prog E) t).1 (run (j.prog E) s).1) ∧
      ∀ e, (run (j.prog E) t).2 = .error e → ∃ e', (run (j.prog E) s).2 = .error e' :=
    fun hx => ⟨fun a h1 => ⟨hx.1 ▸ h1, hx.2⟩, fun e h1 => ⟨e, hx.1 ▸ h1⟩⟩
  cases h with
  | @create o srcdir metadata objdir settings block parent vacant =>
    refine hdone (hsame ?_)
    show Prog.bind (.ret (prepareFirst E o srcdir metadata t)) _ = Prog.bind (.ret (prepareFirst E o srcdir metadata s)) _
    rw [prepareFirst_agree hw ht (fun x hx => ha x (Or.inr (Or.inr hx)))]
  | @update o objdir srcdir metadata abort trees history algorithm block names apart few lax =>
    obtain ⟨dv, recs, hs⟩ := history_sound hE.json hE.hash hE.word hcwd history (NoCollision.mono apart (fun _ hb => InTrees.append hb)) (by omega)
    have hst : Sound E t (absComps E.cwd objdir) dv trees recs := hs.outside ht (fun q hq => ha q (Or.inl (Or.inr hq)))
    have hlax : o.lax = true → ValidObject E false s (absComps E.cwd objdir) := fun hl => ((C73 hE rfl hw).mp (lax hl)).2
    have hlax' : o.lax = true → ValidObject E false t (absComps E.cwd objdir) :=
      fun hl => ValidObject.same (fun q => ha _ (Or.inl (Or.inr (List.prefix_append _ _)))) (hlax hl)
    cases hps : prepareUpdate E o objdir (some srcdir) metadata abort s with
    | ok r =>
      refine hdone (hsame ?_)
      have hpt := prepareUpdate_half hE hs ht ha hlax hps
      show Prog.bind (.ret (prepareUpdate E o objdir (some srcdir) metadata abort t)) _ = Prog.bind (.ret (prepareUpdate E o objdir (some srcdir) metadata abort s)) _
      rw [hpt, hps]
    | error e =>
      have hes : run ((Job.update o objdir srcdir metadata abort).prog E) s = (s, .error e) :=
        run_bind_error (by rw [run_look, hps])
      cases hpt : prepareUpdate E o objdir (some srcdir) metadata abort t with
      | ok r =>
        rw [prepareUpdate_half hE hst hw (agree_symm ha) hlax' hpt] at hps
        cases hps
      | error e' =>
        have het : run ((Job.update o objdir srcdir metadata abort).prog E) t = (t, .error e') :=
          run_bind_error (by rw [run_look, hpt])
        rw [hes, het]
        exact ⟨fun a h => (by cases h), fun _ _ => ⟨e, rfl⟩⟩
  | @extract objdir version dstdir trees history apart few parent vacant out =>
    refine hdone (hsame ?_)
    show Prog.bind (.ret (extractSetup E objdir version t)) _ = Prog.bind (.ret (extractSetup E objdir version s)) _
    rw [extractSetup_agree (fun x hx => ha x (Or.inr hx))]

end Ocfl
