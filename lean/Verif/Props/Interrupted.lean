import Verif.Props.ValidExtract
import Verif.Proofs.Reader
import Verif.Props.Crash
import Verif.Proofs.CopyMoment
import Verif.Props.StorageAdd

/-!
# C88: what passes validation is complete
-/

namespace Ocfl

open Spec FS Prog Ocfl.Inv Validator

/-- An object that passes validation with digests and has the root inventory of another object has the content of that object,
if there are no collisions. -/
theorem Describes.valid_copy {E : Env} (hE : Libraries E) {s s' : FS} {base base' : Path} {trees : List Tree} {inv : Inv} {alg : Str}
    {m : DigestMap} {vs : Dict Str VBlock} (hd : Describes E s base trees inv alg m vs)
    (hstored : look s' (base' ++ [inventoryFilename]) = some (.file (utf8 (inventoryText E inv))))
    (hv : ValidObject E true s' base')
    (hno : NoCollision E.raw (fun b => InTrees trees b ∨ ∃ r, FileBelow s' base' r b)) :
    Describes E s' base' trees inv alg m vs := by
  have hg := hd.parsed.good
  obtain ⟨spec, cd, states', style, n, hr, _⟩ :=
    ValidObject.view hE.json hv (stored_written hE.json hg hstored) hg.writtenView hg.writtenAlg
  have key : ∀ ws b d, (∀ w ∈ ws, SafeName w) → ws ≠ [] → Lists m d (pathOf ws) → fileDigest E.raw alg b = some d → InTrees trees b →
      look s' (base' ++ ws) = some (.file b) := by
    intro ws b d hws hne hl hdg hin
    obtain ⟨b', d', hl', hdg', hsame⟩ := hr.digests rfl d ws (lists_sorted.mpr hl) hws
    have e : d' = d := by
      rw [sameDigest_iff, fileDigest_normal hE.hash hdg, fileDigest_normal hE.hash hdg'] at hsame
      exact hsame
    rw [e] at hdg'
    have hbb := noCollision_digest hno hg.algName (Or.inl hin) (Or.inr ⟨ws, hne, hl'⟩) (hdg.trans hdg'.symm)
    rw [hbb]
    exact hl'
  refine ⟨hd.parsed, hd.contentDirectory, ?_, hd.states, ?_, hd.ok⟩
  · intro d c hl
    obtain ⟨v, ws, b, h1, h2, h3, h4, h5, h6, h7⟩ := hd.content d c hl
    obtain ⟨v', ws', _, _, _, k3, k4, _⟩ := hd.segs hl
    refine ⟨v, ws, b, h1, h2, h3, h4, key _ b d ?_ (by simp) (h4 ▸ hl) h6 h7, h6, h7⟩
    intro w hw
    rcases List.mem_cons.mp hw with rfl | hw
    · obtain ⟨i, _, _, rfl⟩ := (hg.names.2.2.2 _).mp h1
      exact styleName_safe _ _
    · rcases List.mem_cons.mp hw with rfl | hw
      · exact hd.cdSafe
      · exact (h3 w hw).1
  · intro fx a fm hfx hm d c hl
    obtain ⟨segs, b, h1, h2, h3, h4, h5⟩ := hd.fixity fx a fm hfx hm d c hl
    refine ⟨segs, b, h1, h2, h3, ?_, h5⟩
    obtain ⟨_, hq⟩ := hg.fixity fx hfx
    obtain ⟨d', hd'⟩ := mem_listed.mp ((hq a fm hm).2.2.2.2 c (mem_listed.mpr ⟨d, hl⟩))
    obtain ⟨v, ws, b', k1, _, k3, k4, k5, k6, k7, k8⟩ := hd.segs hd'
    have he := pathOf_inj h1 (by simp) (fun w hw => (h2 w hw).2.2.2) (fun w hw => (k3 w hw).2.2.2) (h3.symm.trans k4)
    rw [k5, ← he, h4] at k6
    cases k6
    exact key segs b d' h2 h1 (h3 ▸ hd') k7 k8

/-- A part of the text of an inventory that is the inventory of a valid object is all of it. -/
theorem valid_whole {E : Env} (hlib : E.lib.Lawful) (hpre : E.lib.NoPrefix) {check : Bool} {base : Path} {s : FS} {inv : Inv} {n : Nat} (hk : inv.Keys)
    (hl : look s (base ++ [inventoryFilename]) = some (.file ((utf8 (inventoryText E inv)).take n))) (hv : ValidObject E check s base) :
    look s (base ++ [inventoryFilename]) = some (.file (utf8 (inventoryText E inv))) := by
  obtain ⟨spec, j, alg, cd, m, vs, states, style, k, hr⟩ := hv
  obtain ⟨b, t, h1, h2, h3⟩ := hr.inventory
  have h1 : look s (base ++ [inventoryFilename]) = some (.file b) := h1
  rw [hl] at h1
  cases h1
  obtain ⟨d, he⟩ : ∃ d, inv.toJson.sortKeys = .obj d := ⟨_, by rw [Inv.toJson_eq]; exact Json.sortKeys_obj _⟩
  have hw := (Inv.writable_toJson hk).sortKeys
  rw [he] at hw
  have ht : inventoryText E inv = E.lib.dumps (.obj d) := by
    unfold inventoryText JsonLib.dumpsSorted
    rw [he]
  rw [hl]
  rw [ht] at h2 ⊢
  rw [hpre d n t hw h2 (by rw [h3]; simp)]

/-- Every version of an object can be extracted from what passes validation and has its root inventory, or a part of it. -/
theorem Sound.valid_copy {E : Env} (hE : Libraries E) (hpre : E.lib.NoPrefix) (hcwd : ∀ w ∈ E.cwd, SafeName w) {base : Path} {dv : Str}
    {trees : List Tree} {recs : List Rec} {s0 : FS} (hs : Sound E s0 base dv trees recs)
    {cfg : Config} (hlax : cfg.lax = false) (hcheck : cfg.checkDigests = true) {s : FS} (hw : s.WF) {objdir : Str} {es : List Entry}
    (hvalid : validateObject E cfg 0 s objdir = .ok (true, es)) {text : Bytes} {n : Nat}
    (htext : look s0 (base ++ [c!"inventory.json"]) = some (.file text))
    (hpart : look s (absComps E.cwd objdir ++ [c!"inventory.json"]) = some (.file (text.take n)))
    (hno : NoCollision E.raw (fun b => InTrees trees b ∨ ∃ r, FileBelow s (absComps E.cwd objdir) r b))
    {dstdir version : Str} {k : Nat} {t : Tree} (hk : trees[k]? = some t)
    (hversion : version = styleName none (k + 1) ∨ (version = c!"head" ∧ k + 1 = trees.length))
    (hout : ¬ absComps E.cwd objdir <+: absComps E.cwd dstdir)
    (hp : look s (dstParent E dstdir) = some .dir) (hvac : Vacant s (absComps E.cwd dstdir)) :
    text.take n = text ∧ ∃ s' md, run (Ocfl.extract E objdir version dstdir) s = (s', .ok md) ∧
      (∀ r b, FileBelow s' (absComps E.cwd dstdir) r b ↔ t r b) ∧
      ∀ q, ¬ absComps E.cwd dstdir <+: q → look s' q = look s q := by
  obtain ⟨hdir, hvo⟩ := (C73 hE hlax hw).mp ⟨es, hvalid⟩
  rw [hcheck] at hvo
  obtain ⟨rl, hlast, hd, hst, _, _⟩ := hs.last
  have ht : text = utf8 (inventoryText E rl.inv) := by
    have h1 : look s0 (base ++ [inventoryFilename]) = some (.file text) := htext
    rw [hst.1] at h1
    cases h1
    rfl
  subst ht
  have hwhole := valid_whole hE.json hpre hd.parsed.good.keys hpart hvo
  have hpart : look s (absComps E.cwd objdir ++ [inventoryFilename]) = _ := hpart
  refine ⟨?_, Describes.extract hE.json hcwd hw hdir (hd.valid_copy hE hwhole hvo hno) hwhole
    (NoCollision.mono hno (fun b hb => Or.inl hb)) hk hversion hout hp hvac⟩
  rw [hpart] at hwhole
  injection hwhole with e
  injection e

/-- **C88**: what passes validation with digests and begins to have the root inventory of an object that was made with the library has
all of it, and all versions of the object can be extracted from it. In particular an interrupted copy that passes validation is
complete. It is assumed that the files there do not collide with those that were put into the object. -/
theorem C88_partial {E : Env} (hE : Libraries E) (hpre : E.lib.NoPrefix) (hcwd : ∀ w ∈ E.cwd, SafeName w) {base : Path}
    {trees : List Tree} {s0 : FS} (h : History E base trees s0) (hlen : trees.length ≤ 99999)
    {cfg : Config} (hlax : cfg.lax = false) (hcheck : cfg.checkDigests = true) {s : FS} (hw : s.WF) {objdir : Str} {es : List Entry}
    (hvalid : validateObject E cfg 0 s objdir = .ok (true, es)) {text : Bytes} {n : Nat}
    (htext : look s0 (base ++ [c!"inventory.json"]) = some (.file text))
    (hpart : look s (absComps E.cwd objdir ++ [c!"inventory.json"]) = some (.file (text.take n)))
    (hno : NoCollision E.raw (fun b => InTrees trees b ∨ ∃ r, FileBelow s (absComps E.cwd objdir) r b))
    {dstdir version : Str} {k : Nat} {t : Tree} (hk : trees[k]? = some t)
    (hversion : version = styleName none (k + 1) ∨ (version = c!"head" ∧ k + 1 = trees.length))
    (hout : ¬ absComps E.cwd objdir <+: absComps E.cwd dstdir)
    (hp : look s (dstParent E dstdir) = some .dir) (hvac : Vacant s (absComps E.cwd dstdir)) :
    text.take n = text ∧ ∃ s' md, run (Ocfl.extract E objdir version dstdir) s = (s', .ok md) ∧
      (∀ r b, FileBelow s' (absComps E.cwd dstdir) r b ↔ t r b) ∧
      ∀ q, ¬ absComps E.cwd dstdir <+: q → look s' q = look s q := by
  obtain ⟨dv, recs, hs⟩ := history_sound hE.json hE.hash hE.word hcwd h (NoCollision.mono hno (fun b hb => Or.inl hb)) hlen
  exact hs.valid_copy hE hpre hcwd hlax hcheck hw hvalid htext hpart hno hk hversion hout hp hvac

/-! ## Interrupted calls of `create` -/

/-- If all operations on an entry write one text, then the entry is as before or has a first part of the text. -/
theorem Prog.Only.visits_part {α : Type} {P : FS.Op → Prop} {p : Prog α} {s s' : FS} {q : Path} {x : Bytes} (hp : Only P p)
    (h : ∀ o, P o → o.target ≠ q ∨ o = .write q x) (hv : Visits p s s') :
    FS.look s' q = FS.look s q ∨ ∃ n, FS.look s' q = some (.file (x.take n)) := by
  have whole : x = x.take x.length := List.take_length.symm
  induction hv with
  | here => exact Or.inl rfl
  | get _ ih => cases hp with | get hk => exact ih (hk _)
  | mid hm =>
    cases hp with
    | op ho _ =>
      rcases h _ ho with hne | rfl
      · exact Or.inl (midway_frame hne hm)
      · cases hm with
        | before => exact Or.inl rfl
        | after => exact (look_exec_write q x _).imp id (fun e => ⟨x.length, by rw [← whole]; exact e⟩)
        | partly n e =>
          cases e
          exact (look_exec_write q (x.take n) _).imp id (fun e => ⟨n, e⟩)
  | next _ ih =>
    cases hp with
    | op ho hk =>
      rcases ih (hk _) with h1 | h1
      · rw [h1]
        rcases h _ ho with hne | rfl
        · exact Or.inl (exec_frame hne)
        · exact (look_exec_write q x _).imp id (fun e => ⟨x.length, by rw [← whole]; exact e⟩)
      · exact Or.inr h1

theorem only_openObjCreate {E : Env} {dir : Str} :
    Only (fun o => ∃ q, q <+: absComps E.cwd dir ∧ o = .mkdir q) (openObjCreate E dir) := by
  unfold openObjCreate fswOpenCreate
  dsimp only
  refine .handle (.look_bind ?_) (fun _ => .raise)
  intro s b hb
  have : b = absComps E.cwd (osPathSplit dir).1 := by
    unfold fswOpen at hb
    dsimp only at hb
    split at hb
    · cases hb
      rfl
    · cases hb
  subst this
  rw [(absComps_split E.cwd dir).1]
  refine .get (fun s => .ite (fun _ => .ret) (fun _ => .bind ((only_makedir _).mono ?_) (fun _ => .ret)))
  rintro o ⟨q, _, hq, rfl⟩
  exact ⟨q, hq, rfl⟩

/-- The declaration is written by one operation. -/
theorem only_declaration {E : Env} (hword : WordClass E.isWord) {o : Obj} (ho : GoodSettings o) {base : Path} {P : FS.Op → Prop}
    (hP : P (.write (base ++ [declarationName o.specVersion]) (utf8 (c!"ocfl_object_" ++ o.specVersion ++ c!"\n")))) :
    Only P (writeDeclaration E o base) := by
  unfold writeDeclaration namasteWrite namasteFilename
  rw [tvalue_declaration hword ho.specVersion, osPathJoin_nil]
  have e : natStr 0 ++ c!"=" ++ (c!"ocfl_object_" ++ o.specVersion) = declarationName o.specVersion := rfl
  rw [e, resolve_name _ (declaration_safe ho.specVersion)]
  exact .perform hP

/-- The root inventory and its sidecar are written. -/
theorem only_rootInventory {E : Env} {o : Obj} {base : Path} {inv : Inv} :
    Only (fun op => (∃ q, q <+: base ∧ op = .mkdir q) ∨ op = .write (base ++ [inventoryFilename]) (utf8 (inventoryText E inv)) ∨
      ∃ a t, op = .write (base ++ [sidecarName a]) t) (writeInventoryAndSidecar E o base (some inv) []) := by
  unfold writeInventoryAndSidecar
  rw [resolve_nil, osPathJoin_nil, osPathJoin_nil, resolve_name _ (w := inventoryFilename) (by decide)]
  refine .get (fun s => .bind (.ite (fun _ => (only_makedir _).mono ?_) (fun _ => .ret)) (fun _ => .bind (.perform (Or.inr (Or.inl rfl))) (fun _ => .look_bind ?_)))
  · rintro o ⟨q, _, hq, rfl⟩
    exact Or.inl ⟨q, hq, rfl⟩
  · intro s' d hd
    obtain ⟨b, _, hfd⟩ := digestAt_ok.mp hd
    have hsafe := sidecar_safe (fileDigest_noSlash hfd)
    have e : inventoryFilename ++ c!"." ++ o.digestAlgorithm = sidecarName o.digestAlgorithm := rfl
    rw [e, resolve_name _ hsafe]
    exact .perform (Or.inr (Or.inr ⟨_, _, rfl⟩))

theorem sidecarName_ne (a : Str) : sidecarName a ≠ inventoryFilename := by
  intro he
  have := congrArg List.length he
  simp [sidecarName, inventoryFilename] at this

/-- At every moment of `create`, the root inventory is not there or holds a first part of the inventory. -/
theorem create_moment {E : Env} (hhash : HashLib E.raw) (hword : WordClass E.isWord) (hcwd : ∀ w ∈ E.cwd, SafeName w) {o : Obj}
    (ho : GoodSettings o) {srcdir objdir : Str} {metadata : Option VBlock} (hmeta : GoodMeta metadata) {s s' : FS} (hw : s.WF)
    (hvac : Vacant s (absComps E.cwd objdir)) {src : Path} {nv : NV} (hprep : prepareFirst E o srcdir metadata s = .ok (src, nv))
    (hvis : Visits (create E o srcdir metadata (some objdir)) s s') :
    s'.WF ∧ (look s' (absComps E.cwd objdir ++ [inventoryFilename]) = none ∨
      ∃ n, look s' (absComps E.cwd objdir ++ [inventoryFilename]) = some (.file ((utf8 (inventoryText E nv.inv)).take n))) := by
  have hnone : look s (absComps E.cwd objdir ++ [inventoryFilename]) = none := hvac.2 _ (by simp)
  have hbs : ∀ w ∈ absComps E.cwd objdir, SafeName w := absComps_safe hcwd objdir
  unfold create at hvis
  rcases visits_bind hvis with hvis | ⟨s1, r, hr, hvis⟩
  · rw [visits_look hvis]
    exact ⟨hw, Or.inl hnone⟩
  rw [run_look] at hr
  obtain ⟨rfl, hr1⟩ := Prod.mk.inj hr
  rw [hprep] at hr1
  cases hr1
  dsimp only at hvis
  obtain ⟨nv0, srcs, hff⟩ := prepareFirst_ok hw ho hmeta hprep
  have hcd : nv0.inv.contentDirectoryToUse ≠ [] := by rw [hff.contentDirectory]; exact ho.contentDirectory.1
  have hx := hexNames_srcEnv hhash s src
  have hq : QueueReady (styleName none 1) nv.filesToCopy := hff.ground.queueReady hff.added hff.source.names hx hcd
  have hone : styleName none 1 = c!"v1" := rfl
  rw [hone] at hq
  have hh : SafeName c!"v1" := by decide
  have hne : ∀ w, w ≠ inventoryFilename → absComps E.cwd objdir ++ [w] ≠ absComps E.cwd objdir ++ [inventoryFilename] := by
    intro w hw he
    exact hw (List.cons.inj (List.append_cancel_left he)).1
  have hup : ∀ q, q <+: absComps E.cwd objdir → q ≠ absComps E.cwd objdir ++ [inventoryFilename] := by
    rintro q hq rfl
    have := hq.length_le
    rw [List.length_append, List.length_singleton] at this
    omega
  have hstays : ∀ op, Stays (absComps E.cwd objdir) (absComps E.cwd objdir ++ [c!"v1"]) op →
      op.target ≠ absComps E.cwd objdir ++ [inventoryFilename] := by
    rintro op (⟨r, hr⟩ | ⟨q, hq, rfl⟩)
    · intro he
      rw [← hr, List.append_assoc] at he
      have := (List.cons.inj (List.append_cancel_left he)).1
      exact absurd this (by decide)
    · exact hup q hq
  -- opening the directory
  have open_safe : Only SafeTarget (openObjCreate E objdir) := only_openObjCreate.mono (by
    rintro op ⟨q, hq, rfl⟩ w hw
    exact hbs w (hq.subset hw))
  have open_frame : ∀ op : FS.Op, (∃ q, q <+: absComps E.cwd objdir ∧ op = .mkdir q) → op.target ≠ absComps E.cwd objdir ++ [inventoryFilename] := by
    rintro op ⟨q, hq, rfl⟩
    exact hup q hq
  replace hvis : Visits (writeFirst E o src nv objdir) s s' := by
    rcases visits_bind hvis with hvis | ⟨s2, _, hr2, hvis⟩
    · exact hvis
    · have := visits_run (writeFirst E o src nv objdir) s
      rw [hr2] at this
      rw [visits_ret hvis]
      exact this
  unfold writeFirst at hvis
  rcases visits_bind hvis with hvis | ⟨s1, base, hr, hvis⟩
  · exact ⟨open_safe.visits_wf hw hvis, Or.inl (by rw [only_openObjCreate.visits_frame open_frame hvis]; exact hnone)⟩
  obtain ⟨rfl, hw1, _, _, hl1⟩ := run_openObjCreate hcwd hw hr
  have hnone1 : look s1 (absComps E.cwd objdir ++ [inventoryFilename]) = none := by
    rw [hl1, if_neg, hnone]
    rintro ⟨he, _⟩
    exact hup _ List.prefix_rfl he.symm
  have rest_safe : Only SafeTarget (Prog.bind (writeInventoryAndSidecar E o (absComps E.cwd objdir) (some nv.inv) c!"v1") (fun _ =>
      Prog.bind (writeDeclaration E o (absComps E.cwd objdir)) (fun _ =>
      Prog.bind (writeInventoryAndSidecar E o (absComps E.cwd objdir) (some nv.inv) []) (fun _ =>
      copyAll (absComps E.cwd objdir) src nv.filesToCopy)))) := by
    refine .bind (safe_writeInv hbs (.version hh)) (fun _ => .bind (only_declaration hword ho ?_) (fun _ => .bind (safe_writeInv hbs .root) (fun _ =>
      .forEach (fun e he => safe_copyIntoObject hbs hh (hq.inside e he)))))
    exact safe_append hbs (by simpa using declaration_safe ho.specVersion)
  refine ⟨rest_safe.visits_wf hw1 hvis, ?_⟩
  have rest : Only (fun op => op.target ≠ absComps E.cwd objdir ++ [inventoryFilename] ∨
      op = .write (absComps E.cwd objdir ++ [inventoryFilename]) (utf8 (inventoryText E nv.inv)))
      (Prog.bind (writeInventoryAndSidecar E o (absComps E.cwd objdir) (some nv.inv) c!"v1") (fun _ =>
      Prog.bind (writeDeclaration E o (absComps E.cwd objdir)) (fun _ =>
      Prog.bind (writeInventoryAndSidecar E o (absComps E.cwd objdir) (some nv.inv) []) (fun _ =>
      copyAll (absComps E.cwd objdir) src nv.filesToCopy)))) := by
    refine .bind ((only_writeInvVersion hh).mono (fun op hop => Or.inl (hstays op hop))) (fun _ => .bind (only_declaration hword ho (Or.inl ?_)) (fun _ =>
      .bind ?_ (fun _ => (only_copyAll hh hq.inside).mono (fun op hop => Or.inl (hstays op hop)))))
    · exact (declaration_ne (w := inventoryFilename) rfl (by decide)).symm
    · refine only_rootInventory.mono ?_
      rintro op (h | rfl | ⟨a, t, rfl⟩)
      · obtain ⟨q, hq, rfl⟩ := h
        exact Or.inl (hup q hq)
      · exact Or.inr rfl
      · exact Or.inl (hne _ (sidecarName_ne a))
  rcases rest.visits_part (fun op hop => hop) hvis with h | h
  · exact Or.inl (h.trans hnone1)
  · exact Or.inr h

/-- **C88** for `create`: if the call would succeed, but is interrupted at any moment, also in the middle of writing a file, and
what is there passes validation with digests, then version 1 can be extracted and is the source directory. -/
theorem C88_create {E : Env} (hE : Libraries E) (hpre : E.lib.NoPrefix) (hcwd : ∀ w ∈ E.cwd, SafeName w) {o : Obj}
    (ho : GoodSettings o) {srcdir objdir : Str} {metadata : Option VBlock} (hmeta : GoodMeta metadata) {s : FS} (hw : s.WF)
    (hvac : Vacant s (absComps E.cwd objdir)) (hfile : ∃ r b, FileBelow s (absComps E.cwd srcdir) r b)
    (hnames : NamesAllowed o (FileBelow s (absComps E.cwd srcdir))) {sf : FS} {inv : Inv}
    (hr : run (create E o srcdir metadata (some objdir)) s = (sf, .ok inv)) {s' : FS}
    (hvis : Visits (create E o srcdir metadata (some objdir)) s s')
    {cfg : Config} (hlax : cfg.lax = false) (hcheck : cfg.checkDigests = true) {es : List Entry}
    (hvalid : validateObject E cfg 0 s' objdir = .ok (true, es))
    (hno : NoCollision E.raw (fun b => (∃ r, FileBelow s (absComps E.cwd srcdir) r b) ∨ ∃ r, FileBelow s' (absComps E.cwd objdir) r b))
    {dstdir : Str} (hout : ¬ absComps E.cwd objdir <+: absComps E.cwd dstdir)
    (hp : look s' (dstParent E dstdir) = some .dir) (hdst : Vacant s' (absComps E.cwd dstdir)) :
    ∃ s1 md, run (extract E objdir c!"v1" dstdir) s' = (s1, .ok md) ∧
      (∀ r b, FileBelow s1 (absComps E.cwd dstdir) r b ↔ FileBelow s (absComps E.cwd srcdir) r b) ∧
      ∀ q, ¬ absComps E.cwd dstdir <+: q → look s1 q = look s' q := by
  obtain ⟨r, hri, _, hs⟩ := sound_create hE.hash hE.word hcwd ho hmeta hw hvac hfile hnames hr
  obtain ⟨src, nv, hprep, hnv, _, _⟩ := create_inv hr
  obtain ⟨hw', hm⟩ := create_moment hE.hash hE.word hcwd ho hmeta hw hvac hprep hvis
  have hroot := (hs.root r rfl).1
  rw [hri, hnv] at hroot
  rcases hm with hm | ⟨n, hm⟩
  · obtain ⟨_, hvo⟩ := (C73 hE hlax hw').mp ⟨es, hvalid⟩
    obtain ⟨_, _, _, _, _, _, _, _, _, hrl⟩ := hvo
    obtain ⟨b, _, hb, _⟩ := hrl.inventory
    have hm : look s' (absComps E.cwd objdir ++ [c!"inventory.json"]) = none := hm
    rw [hm] at hb
    cases hb
  · exact (hs.valid_copy hE hpre hcwd hlax hcheck hw' hvalid hroot hm
      (NoCollision.mono hno (fun b hb => hb.imp (fun ⟨t, ht, r, hr⟩ => by cases List.mem_singleton.mp ht; exact ⟨r, hr⟩) id))
      (k := 0) rfl (Or.inl rfl) hout hp hdst).2

/-! ## Interrupted updates -/

/-- **C88** for an update: if it is interrupted at any moment, and what is there passes validation, also without digests, then
either nothing is to be seen of the new version and all versions before it can be extracted, or all versions with the new one
can be. -/
theorem C88_update {E : Env} (hE : Libraries E) (hpre : E.lib.NoPrefix) (hcwd : ∀ w ∈ E.cwd, SafeName w)
    {objdir srcdir : Str} {trees : List Tree} {s : FS}
    (h : History E (absComps E.cwd objdir) trees s) {o : Obj} (halg : o.digestAlgorithm = c!"sha512" ∨ o.digestAlgorithm = c!"sha256")
    {metadata : Option VBlock} (hmeta : GoodMeta metadata) {abort : Bool} (hnames : NamesAllowed o (FileBelow s (absComps E.cwd srcdir)))
    (hno : NoCollision E.raw (InTrees (trees ++ [FileBelow s (absComps E.cwd srcdir)]))) (hlen : trees.length + 1 ≤ 99999)
    {s' : FS} (hvis : Visits (addVersionWithContent E o objdir (some srcdir) metadata abort) s s')
    {cfg : Config} (hlax : cfg.lax = false) {es : List Entry} (hvalid : validateObject E cfg 0 s' objdir = .ok (true, es))
    {dstdir : Str} (hout : ¬ absComps E.cwd objdir <+: absComps E.cwd dstdir)
    (hp : look s (dstParent E dstdir) = some .dir) (hvac : Vacant s (absComps E.cwd dstdir)) :
    (look s' (absComps E.cwd objdir ++ [styleName none (trees.length + 1)]) = none ∧
      ∀ k t, trees[k]? = some t → ∃ s1 md, run (extract E objdir (styleName none (k + 1)) dstdir) s' = (s1, .ok md) ∧
        ∀ r b, FileBelow s1 (absComps E.cwd dstdir) r b ↔ t r b) ∨
    ∀ k t, (trees ++ [FileBelow s (absComps E.cwd srcdir)])[k]? = some t →
      ∃ s1 md, run (extract E objdir (styleName none (k + 1)) dstdir) s' = (s1, .ok md) ∧
        ∀ r b, FileBelow s1 (absComps E.cwd dstdir) r b ↔ t r b := by
  have hno' := NoCollision.mono hno (fun b hb => InTrees.append hb)
  obtain ⟨dv, recs, hs⟩ := history_sound hE.json hE.hash hE.word hcwd h hno' (by omega)
  have hw' := update_wf hE.json hE.hash hs.wf hvis
  obtain ⟨hdir, hvo⟩ := (C73 hE hlax hw').mp ⟨es, hvalid⟩
  obtain ⟨c1, c2⟩ := C24_history hE.json hE.hash hE.word hcwd h halg hmeta hnames hno hlen hvis hout hp hvac
  by_cases hroot : look s' (absComps E.cwd objdir ++ [c!"inventory.json"]) = look s (absComps E.cwd objdir ++ [c!"inventory.json"])
  · refine Or.inl ⟨?_, c1 hroot⟩
    obtain ⟨rl, hlast, hd, hst, _, _⟩ := hs.last
    have hg := hd.parsed.good
    have hst' : look s' (absComps E.cwd objdir ++ [inventoryFilename]) = some (.file (utf8 (inventoryText E rl.inv))) :=
      (show look s' (absComps E.cwd objdir ++ [inventoryFilename]) = _ from hroot).trans hst.1
    obtain ⟨spec, cd, states', style, n, hr, _⟩ :=
      ValidObject.view hE.json hvo (stored_written hE.json hg hst') hg.writtenView hg.writtenAlg
    have hfirst : (styleName none (trees.length + 1)).head? = some 'v' := styleName_head _ _
    cases hl : look s' (absComps E.cwd objdir ++ [styleName none (trees.length + 1)]) with
    | none => rfl
    | some x =>
      exfalso
      cases x with
      | file b =>
        rcases hr.files _ b hl with e | e | e <;> · rw [e] at hfirst; cases hfirst
      | dir =>
        rcases hr.dirs _ hl with e | e | e
        · have e : styleName none (trees.length + 1) ∈ Dict.keys rl.vs := by
            obtain ⟨⟨v, b⟩, hvb, hv⟩ := List.mem_map.mp e
            obtain ⟨⟨v', b'⟩, hm, he⟩ := List.mem_map.mp ((Dict.sorted_perm _).mem_iff.mp hvb)
            cases he
            rw [← hv]
            exact Dict.mem_keys_of_mem hm
          obtain ⟨i, _, hi, he⟩ := (hg.names.2.2.2 _).mp e
          have := styleName_inj he
          omega
        · rw [e] at hfirst; cases hfirst
        · rw [e] at hfirst; cases hfirst
  · right
    refine c2 hroot ?_
    rcases update_finishes hE.json hE.hash halg hs hvis with he | ⟨e, inv, head, alg, n, text, hrun, ha1, ha2, hin, ht1, ht2, ht3⟩
    · exact absurd he hroot
    obtain ⟨r, _, _, hs'⟩ := hs.update hE.json hE.hash halg hmeta hno' hlen rfl hnames hrun
    have h3 := hs'.versions trees.length r (by rw [← hs.length]; simp)
    have h4 := h3.stored.1
    have h5 := (hs'.root r (by simp)).1
    rw [ht1] at h5
    injection h5 with h5
    injection h5 with h5
    rw [h5] at ht3
    have hwhole := valid_whole hE.json hpre h3.describes.parsed.good.keys ht3 hvo
    rw [List.append_assoc] at h4
    have h6 : look s' (absComps E.cwd objdir ++ ([styleName none (trees.length + 1)] ++ [inventoryFilename])) =
        look e (absComps E.cwd objdir ++ ([styleName none (trees.length + 1)] ++ [inventoryFilename])) := by
      have hshort : ¬ RootInventory (absComps E.cwd objdir) [alg, o.digestAlgorithm]
          (absComps E.cwd objdir ++ ([styleName none (trees.length + 1)] ++ [inventoryFilename])) := rootInventory_short (by simp)
      by_cases hl0 : look s (absComps E.cwd objdir ++ ([styleName none (trees.length + 1)] ++ [inventoryFilename])) = none
      · exact hin _ (ha2.added _ hshort hl0 (by rw [h4]; simp))
      · rw [ha1.kept _ hshort hl0, ha2.kept _ hshort hl0]
    exact hwhole.trans (h6.trans h4).symm

/-! ## Interrupted additions to a storage root -/

theorem visits_handle {α : Type} {p : Prog α} {f : PyErr → Prog α} {s s' : FS} (h : Visits (Prog.handle p f) s s') :
    Visits p s s' ∨ ∃ s1 e, run p s = (s1, .error e) ∧ Visits (f e) s1 s' := by
  induction p generalizing s with
  | ret r =>
    cases r with
    | ok a => left; exact h
    | error e => exact Or.inr ⟨s, e, rfl, h⟩
  | get k ih =>
    cases h with
    | here => exact Or.inl .here
    | get h =>
      rcases ih _ h with h | ⟨s1, e, h1, h2⟩
      · exact Or.inl (.get h)
      · exact Or.inr ⟨s1, e, h1, h2⟩
  | op o k ih =>
    cases h with
    | here => exact Or.inl .here
    | mid h => exact Or.inl (.mid h)
    | next h =>
      rcases ih _ h with h | ⟨s1, e, h1, h2⟩
      · exact Or.inl (.next h)
      · exact Or.inr ⟨s1, e, h1, h2⟩

open Store in
/-- **C88** for `add`: if an object is being added to a storage root and the copy is interrupted at any moment, and what is at its
place passes validation with digests, then all versions of the object can be extracted from there. -/
theorem C88_add {E : Env} (hE : Libraries E) (hpre : E.lib.NoPrefix) (hcwd : ∀ w ∈ E.cwd, SafeName w)
    {reg : Dict Str LayoutObj} {enc : Str → Str} {r : StorageRoot} {objdir : Str} {s : FS} (hbelow : PathsBelow E reg enc r s)
    {trees : List Tree} (h : History E (absComps E.cwd objdir) trees s) (hlen : trees.length ≤ 99999) {sf : FS} {i path : Str}
    (hr : run (add E reg enc r objdir) s = (sf, .ok (i, path))) {s' : FS} (hvis : Visits (add E reg enc r objdir) s s')
    {copy : Str} (hcopy : absComps E.cwd copy = FS.resolve (absComps E.cwd r.root) path)
    {cfg : Config} (hlax : cfg.lax = false) (hcheck : cfg.checkDigests = true) {es : List Entry}
    (hvalid : validateObject E cfg 0 s' copy = .ok (true, es))
    (hno : NoCollision E.raw (fun b => InTrees trees b ∨ ∃ r, FileBelow s' (absComps E.cwd copy) r b))
    {dstdir version : Str} {k : Nat} {t : Tree} (hk : trees[k]? = some t)
    (hversion : version = styleName none (k + 1) ∨ (version = c!"head" ∧ k + 1 = trees.length))
    (hout : ¬ absComps E.cwd copy <+: absComps E.cwd dstdir)
    (hp : look s' (dstParent E dstdir) = some .dir) (hvac : Vacant s' (absComps E.cwd dstdir)) :
    ∃ s1 md, run (extract E copy version dstdir) s' = (s1, .ok md) ∧
      (∀ r b, FileBelow s1 (absComps E.cwd dstdir) r b ↔ t r b) ∧
      ∀ q, ¬ absComps E.cwd dstdir <+: q → look s1 q = look s' q := by
  obtain ⟨dv, recs, hs⟩ := history_sound hE.json hE.hash hE.word hcwd h (NoCollision.mono hno (fun b hb => Or.inl hb)) hlen
  have hw := hs.wf
  obtain ⟨r0, l, ws, j, _, _, _, hws, _, _, _, _, _, hct⟩ := add_copied hE.json hw hbelow hr
  have hres : FS.resolve (absComps E.cwd r.root) path = absComps E.cwd r.root ++ ws := by
    rw [hws.2.2, resolve_join _ hws.2.1]
  rw [hres] at hcopy
  have hmoment : Copying s (absComps E.cwd objdir) (absComps E.cwd r.root ++ ws) s' := by
    have h0 : Copying s (absComps E.cwd objdir) (absComps E.cwd r.root ++ ws) s := by
      refine ⟨hw, fun _ _ hq => hq, fun q b hq => ?_⟩
      by_cases hq0 : q = []
      · rw [hq0, List.append_nil, hct.absent] at hq
        cases hq
      · have := FS.look_above hw q hq0 hq
        rw [hct.absent] at this
        cases this
    rcases add_cases E reg enc r objdir s with ⟨e, he⟩ | ⟨base, r', src, inv, i', path', h1, h2, h3, h4, h5, h6, h7, h8⟩
    · rw [hr] at he; cases (Prod.mk.inj he).2
    obtain ⟨rfl, hb⟩ := openRoot_ok h1
    obtain ⟨rfl, hsd⟩ := openObj_ok h3
    have hpath : path' = path := by
      rcases h8 with ⟨s1, _, ha⟩ | ⟨s1, e, _, ha⟩ <;> rw [hr] at ha <;> cases (Prod.mk.inj ha).2
      rfl
    subst hpath
    unfold add at hvis
    cases hvis with
    | here => exact h0
    | get hv =>
      dsimp only at hv
      rw [h1] at hv
      dsimp only at hv
      rw [h2] at hv
      dsimp only at hv
      rw [h3] at hv
      dsimp only at hv
      rw [h4] at hv
      dsimp only at hv
      rw [h5] at hv
      dsimp only at hv
      rw [show objectPath E reg enc s r' i' = ((objectPath E reg enc s r' i').1, .ok path') from Prod.ext rfl h6] at hv
      dsimp only at hv
      rw [if_neg (by unfold exists_; rw [h7]; simp)] at hv
      have hcopying : ∀ {t}, Visits (fswCopydir (absComps E.cwd objdir) c!"/" (absComps E.cwd r.root) path') s t →
          Copying s (absComps E.cwd objdir) (absComps E.cwd r.root ++ ws) t := fun {t} hv1 =>
        copydir_moment hw hws.2.1 hsd hb hct.absent (hws.2.2 ▸ hv1)
      have hhandle : ∀ {t}, Visits (Prog.handle (fswCopydir (absComps E.cwd objdir) c!"/" (absComps E.cwd r.root) path')
          (fun _ => .ret (.error .storageRootException))) s t → Copying s (absComps E.cwd objdir) (absComps E.cwd r.root ++ ws) t := by
        intro t hv1
        rcases visits_handle hv1 with hv1 | ⟨s1, e, hr1, hv1⟩
        · exact hcopying hv1
        · rw [visits_ret hv1]
          have := hcopying (visits_run _ s)
          rw [hr1] at this
          exact this
      rcases visits_bind hv with hv | ⟨s1, _, hr1, hv⟩
      · exact hhandle hv
      · rw [visits_ret hv]
        have := hhandle (visits_run _ s)
        rw [hr1] at this
        exact this
  have hw' := hmoment.wf
  obtain ⟨_, hvo⟩ := (C73 hE hlax hw').mp ⟨es, hvalid⟩
  obtain ⟨_, _, _, _, _, _, _, _, _, hrl⟩ := hvo
  obtain ⟨b, _, hb, _⟩ := hrl.inventory
  obtain ⟨b0, n, hb0, hbn⟩ := hmoment.parts [c!"inventory.json"] b (by rw [← hcopy]; exact hb)
  subst hbn
  exact (hs.valid_copy hE hpre hcwd hlax hcheck hw' hvalid hb0 hb hno hk hversion hout hp hvac).2

end Ocfl
