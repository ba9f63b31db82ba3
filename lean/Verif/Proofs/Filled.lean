import Verif.Proofs.Thrifty
import Verif.Props.History
import Verif.Props.Thrifty

/-!
# Manifests without digests that have no files
-/

namespace Ocfl

open Spec FS Prog Ocfl.Inv

/-- Every digest has a file. -/
def Filled (m : DigestMap) : Prop := ∀ e ∈ m, e.2 ≠ []

theorem Filled.sorted {m : DigestMap} (h : Filled m) : Filled (Dict.sorted m) :=
  fun e he => h e ((Dict.sorted_perm m).mem_iff.mp he)

theorem filled_add {E : Env} {s : FS} {src : Path} {nv0 nv : NV} {head : Str} (hb : Building nv0 head) (hm : ∃ m, nv0.inv.manifest = some m)
    (hq : nv0.filesToCopy = []) (h : addFromSrcdir E s src nv0 = .ok nv) (hf : Filled nv0.inv.manifestD) : Filled nv.inv.manifestD := by
  obtain ⟨ps, hps⟩ := addFromSrcdir_addAll h
  have := NV.addAll_ok hb hm hq hps
  exact fun e he h0 => hf e (this.manifestNonempty e he h0) h0

theorem filled_first {E : Env} {o : Obj} (ho : GoodSettings o) {id : Str} (hid : o.id = some id) {metadata : Option VBlock}
    (hmeta : GoodMeta metadata) {s : FS} {src : Path} {nv0 nv : NV}
    (hfirst : NV.firstVersion id o.specVersion (some o.digestAlgorithm) (some o.contentDirectory) metadata o.dedupe (o.fixity.getD []) o.norm = .ok nv0)
    (hadd : addFromSrcdir E s src nv0 = .ok nv) : Filled nv.inv.manifestD := by
  obtain ⟨g, _, _, _, _, hd0, _, _⟩ := ground_first (by rintro rfl; exact ho.id hid) ho.specVersion ho.algorithm
    ⟨ho.contentDirectory.2.2.2, ho.contentDirectory.2.1, ho.contentDirectory.2.2.1⟩ (by
      cases hf : o.fixity with
      | none => simp
      | some l => exact ho.fixity l hf) hmeta hfirst
  have hm0 : nv0.inv.manifestD = [] := by unfold Inv.manifestD; rw [g.manifest]; rfl
  exact filled_add g.building ⟨_, g.manifest⟩ g.queue hadd (by rw [hm0]; intro e he; cases he)

theorem Prepared.filled {E : Env} {o : Obj} {metadata : Nat → VBlock} {s : FS} {src : Path} {l : List Inv} (h : Prepared E o metadata s src l)
    (ho : GoodSettings o) (hmeta : ∀ k < l.length, GoodMeta (some (metadata (k + 1))))
    (hgood : ∀ k inv, l[k]? = some inv → ∃ alg m vs, Parsed inv alg m vs none (k + 1)) (hlim : l.length ≤ 99999) :
    ∀ inv, l.getLast? = some inv → Filled inv.manifestD := by
  induction h with
  | nil => intro inv hi; cases hi
  | @snoc l nv0 nv before start isDir add ih =>
    rw [List.length_append, List.length_singleton] at hmeta hlim
    have hold : ∀ (k : Nat) (inv : Inv), l[k]? = some inv → (l ++ [nv.inv])[k]? = some inv := by
      intro k inv hk
      rw [List.getElem?_append_left (List.getElem?_eq_some_iff.mp hk).1]
      exact hk
    intro inv hi
    rw [List.getLast?_concat] at hi
    cases hi
    unfold buildStart at start
    rcases List.eq_nil_or_concat l with rfl | ⟨l', inv0, rfl⟩
    · rw [if_pos (show unpaddedName (([] : List Inv).length + 1) = c!"v1" by decide)] at start
      split at start
      · cases start
      rename_i id hid
      exact filled_first ho hid (hmeta 0 (by simp)) start add
    · rw [List.concat_eq_append] at *
      have hne : unpaddedName ((l' ++ [inv0]).length + 1) ≠ c!"v1" := by
        intro he
        have := styleName_inj (show styleName none _ = styleName none 1 from he)
        simp at this
      rw [if_neg hne, List.getLast?_concat] at start
      obtain ⟨alg, m, vs, hp⟩ := hgood l'.length inv0 (hold _ _ (by simp))
      have hm' := hmeta (l' ++ [inv0]).length (by omega)
      have g := ground_next hp (sv := c!"1.1") (by decide) hm' (by
        rw [List.length_append, List.length_singleton] at hlim
        exact hlim) start
      refine filled_add g.building ⟨_, g.manifest⟩ g.queue add ?_
      have e1 : nv0.inv.manifestD = m := by unfold Inv.manifestD; rw [g.manifest]; rfl
      have e2 : inv0.manifestD = m := by unfold Inv.manifestD; rw [hp.good.manifest]; rfl
      rw [e1, ← e2]
      exact ih (fun k hk => hmeta k (by omega)) (fun k inv hk => hgood k inv (hold k inv hk)) (by omega) inv0 (by simp)

theorem filled_create {E : Env} {o : Obj} (ho : GoodSettings o) {srcdir objdir : Str} {metadata : Option VBlock}
    (hmeta : GoodMeta metadata) {s s' : FS} {inv : Inv} (hr : run (create E o srcdir metadata (some objdir)) s = (s', .ok inv)) :
    Filled inv.manifestD := by
  obtain ⟨src, nv, hp, rfl, _, hrun⟩ := create_inv hr
  unfold prepareFirst at hp
  split at hp
  · cases hp
  rename_i id hid
  split at hp
  · cases hp
  split at hp
  · cases hp
  rename_i nv0 hfirst
  split at hp
  · cases hp
  rename_i nv' hadd
  cases hp
  exact filled_first ho hid hmeta hfirst hadd

theorem Sound.update_filled {E : Env} (hlib : E.lib.Lawful) (hhash : HashLib E.raw) {o : Obj}
    (halg : o.digestAlgorithm = c!"sha512" ∨ o.digestAlgorithm = c!"sha256")
    {srcdir objdir : Str} {metadata : Option VBlock}
    (hmeta : GoodMeta metadata) {abort : Bool} {s s' : FS} {base : Path} {dv : Str} {trees : List Tree} {recs : List Rec}
    (h : Sound E s base dv trees recs) (hno : NoCollision E.raw (InTrees trees)) (hlim : trees.length + 1 ≤ 99999)
    (hbase : absComps E.cwd objdir = base) {inv : Inv}
    (hr : run (addVersionWithContent E o objdir (some srcdir) metadata abort) s = (s', .ok (some inv)))
    (hfilled : ∀ r, recs.getLast? = some r → Filled r.m) : Filled inv.manifestD := by
  obtain ⟨rl, hlast, hdl, hroot, _, _⟩ := h.last
  unfold addVersionWithContent at hr
  obtain ⟨s0, r0, h0, hr⟩ := run_bind_inv hr
  rw [run_look] at h0
  obtain ⟨hs0, hprep⟩ := Prod.mk.inj h0
  clear h0
  subst hs0
  cases r0 with
  | none => cases hr
  | some r0 =>
  obtain ⟨base', src, nv⟩ := r0
  obtain ⟨sd, hsd, nv0, inv0, alg, m, vs, style, n, inv1, hst, hadd⟩ := prepareUpdate_started hlib hprep
  cases hsd
  have hbb : base' = base := hst.base_eq.trans hbase
  subst hbb
  have hinv0 : inv0 = rl.inv.sorted := by
    have := hst.parse
    rw [parse_written hlib hdl.parsed hroot.1] at this
    cases this
    rfl
  subst hinv0
  have hds := hdl.sorted
  have ealg : alg = rl.alg := by
    have := hst.parsed.good.algorithm
    rw [hds.parsed.good.algorithm] at this
    cases this
    rfl
  subst ealg
  obtain ⟨f, m1, vs1, hp1, hrec, _⟩ := changeDigest_parsed hhash hds.parsed hst.change halg (fun _ => hds.tellsApart hno halg)
  have g := ground_next hp1 (sv := c!"1.1") (by decide) hmeta hlim hst.next
  obtain ⟨s2, inv2, hwr, hr⟩ := run_bind_inv hr
  have hr : (s2, Except.ok (some inv2)) = (s', (.ok (some inv) : Py (Option Inv))) := hr
  cases hr
  have hinv : inv = nv.inv := by
    unfold writeNewVersion at hwr
    split at hwr
    · cases hwr
    · obtain ⟨_, _, _, hwr⟩ := run_bind_inv hwr
      obtain ⟨_, _, _, hwr⟩ := run_bind_inv hwr
      obtain ⟨_, _, _, hwr⟩ := run_bind_inv hwr
      obtain ⟨_, _, _, hwr⟩ := run_bind_inv hwr
      obtain ⟨_, _, _, hwr⟩ := run_bind_inv hwr
      cases hwr
      rfl
  subst hinv
  refine filled_add g.building ⟨_, g.manifest⟩ g.queue hadd ?_
  have : nv0.inv.manifestD = m1 := by unfold Inv.manifestD; rw [g.manifest]; rfl
  rw [this, hrec.manifest]
  intro e he
  obtain ⟨e', he', rfl⟩ := List.mem_map.mp he
  exact (hfilled rl hlast).sorted e' he'

/-- The text of an inventory whose manifest has no digest without files. -/
def FilledText (E : Env) (b : Bytes) : Prop :=
  ∀ base s inv, look s (base ++ [inventoryFilename]) = some (.file b) → parseInventory E base s = .ok inv → Filled inv.manifestD

theorem filledText_written {E : Env} (hlib : E.lib.Lawful) {s : FS} {base : Path} {trees : List Tree} {inv : Inv} {alg : Str} {m : DigestMap}
    {vs : Dict Str VBlock} (h : Describes E s base trees inv alg m vs) (hf : Filled m) : FilledText E (utf8 (inventoryText E inv)) := by
  intro base' s' inv' hl hp
  rw [parse_written hlib h.parsed hl] at hp
  cases hp
  rw [h.sorted.parsed.good.manifestD]
  exact hf.sorted

theorem Sound.filled_last {E : Env} (hlib : E.lib.Lawful) {s : FS} {base : Path} {dv : Str} {trees : List Tree} {recs : List Rec}
    (h : Sound E s base dv trees recs) (hf : ∃ b, look s (base ++ [inventoryFilename]) = some (.file b) ∧ FilledText E b) :
    ∀ r, recs.getLast? = some r → Filled r.m := by
  intro r hr
  obtain ⟨rl, hlast, hdl, hroot, _, _⟩ := h.last
  rw [hr] at hlast
  cases hlast
  obtain ⟨b, h1, h2⟩ := hf
  have := h2 base s _ h1 (parse_written hlib hdl.parsed hroot.1)
  rw [hdl.sorted.parsed.good.manifestD] at this
  exact fun e he => this e ((Dict.sorted_perm r.m).mem_iff.mpr he)

/-- The inventory of an object made by the library has no digest without files. -/
theorem history_filled {E : Env} (hlib : E.lib.Lawful) (hhash : HashLib E.raw) (hword : WordClass E.isWord) (hcwd : ∀ w ∈ E.cwd, SafeName w)
    {base : Path} {trees : List Tree} {s : FS}
    (h : History E base trees s) (hno : NoCollision E.raw (InTrees trees)) (hlen : trees.length ≤ 99999) :
    ∃ b, look s (base ++ [inventoryFilename]) = some (.file b) ∧ FilledText E b := by
  induction h with
  | create wf settings block base_eq vacant nonempty names done =>
    subst base_eq
    obtain ⟨r, hr, _, hs⟩ := sound_create hhash hword hcwd settings block wf vacant nonempty names done
    have hone := filled_create settings block done
    have hd := (hs.versions 0 r rfl).describes
    rw [← hr, manifestD_last hd] at hone
    exact ⟨_, (hs.root r rfl).1, filledText_written hlib hd hone⟩
  | @build base o srcdir objdir metadata s s' inv n wf settings sources blocks base_eq vacant apart nonempty names done =>
    subst base_eq
    obtain ⟨recs, r, _, hlast, hs, _, _, _, hprep⟩ := sound_build_prepared hhash hword hcwd settings wf sources blocks vacant apart nonempty names done
    rw [versionTrees_length] at hlen
    have hl : recs.length = n := by rw [hs.length, versionTrees_length]
    have hone := hprep.filled settings (fun k hk => blocks k (by rw [List.length_map, hl] at hk; exact hk)) (by
        intro k inv hk
        rw [List.getElem?_map] at hk
        cases hrk : recs[k]? with
        | none => rw [hrk] at hk; cases hk
        | some rk =>
          rw [hrk] at hk
          cases Option.some.inj hk
          have hp := (hs.versions k rk hrk).describes.parsed
          have hk' := (List.getElem?_eq_some_iff.mp hrk).1
          rw [show ((versionTrees s (absComps E.cwd srcdir) n).take (k + 1)).length = k + 1 by
            rw [List.length_take, versionTrees_length]; omega] at hp
          exact ⟨_, _, _, hp⟩) (by rw [List.length_map, hl]; exact hlen) r.inv (by rw [List.getLast?_map, hlast]; rfl)
    obtain ⟨rl, hl', hd, hst, _⟩ := hs.last
    rw [hlast] at hl'
    cases hl'
    rw [manifestD_last hd] at hone
    exact ⟨_, hst.1, filledText_written hlib hd hone⟩
  | elsewhere before wf same ih =>
    obtain ⟨b, h1, h2⟩ := ih hno hlen
    exact ⟨b, by rw [same _ (List.prefix_append _ _)]; exact h1, h2⟩
  | copied before wf same ih =>
    obtain ⟨b, h1, h2⟩ := ih hno hlen
    exact ⟨b, (same.files _ _).mpr h1, h2⟩
  | update before algorithm block base_eq names done ih =>
    rw [List.length_append, List.length_singleton] at hlen
    have hno' := NoCollision.mono hno (fun b hb => InTrees.append hb)
    obtain ⟨dv, recs, hs⟩ := history_sound hlib hhash hword hcwd before hno' (by omega)
    have hone := hs.update_filled hlib hhash algorithm block hno' hlen base_eq done (hs.filled_last hlib (ih hno' (by omega)))
    obtain ⟨r, hr, _, hs'⟩ := hs.update hlib hhash algorithm block hno' hlen base_eq names done
    have hlast : (recs ++ [r]).getLast? = some r := by simp
    obtain ⟨rl, hl, hd, hst, _⟩ := hs'.last
    rw [hlast] at hl
    cases hl
    rw [← hr, manifestD_last hd] at hone
    exact ⟨_, hst.1, filledText_written hlib hd hone⟩

end Ocfl
