import Verif.Spec.DatedHistory
import Verif.Proofs.Recover

/-!
# The metadata of the versions of objects made by the library
-/

namespace Ocfl

open Spec FS Prog Ocfl.Inv

/-- The metadata after an update. -/
theorem Sound.update_meta {E : Env} (hlib : E.lib.Lawful) (hhash : HashLib E.raw) {o : Obj}
    (halg : o.digestAlgorithm = c!"sha512" ∨ o.digestAlgorithm = c!"sha256") {srcdir objdir : Str} {block : VBlock}
    (hmeta : GoodMeta (some block)) {abort : Bool} {s s' : FS} {base : Path} {dv : Str} {trees : List Tree} {recs : List Rec}
    (h : Sound E s base dv trees recs) (hno : NoCollision E.raw (InTrees trees)) (hlim : trees.length + 1 ≤ 99999)
    (hbase : absComps E.cwd objdir = base) {inv : Inv}
    (hr : run (addVersionWithContent E o objdir (some srcdir) (some block) abort) s = (s', .ok (some inv))) {rl : Rec}
    (hlast : recs.getLast? = some rl) :
    inv.id = rl.inv.id ∧ ∀ v, metaAt inv v = if v = styleName none (trees.length + 1) then some block else metaAt rl.inv v := by
  obtain ⟨rl', hlast', hdl, hroot, _, _⟩ := h.last
  rw [hlast] at hlast'
  cases hlast'
  unfold addVersionWithContent at hr
  obtain ⟨s0, r0, h0, hr⟩ := run_bind_inv hr
  rw [run_look] at h0
  obtain ⟨hs0, hprep⟩ := Prod.mk.inj h0
  clear h0
  subst hs0
  cases r0 with
  | none => cases hr
  | some r0 =>
  obtain ⟨base', src, nv⟩ := r0
  obtain ⟨sd, hsd, nv0, inv0, alg, m, vs, style, n, inv1, hst, hadd⟩ := prepareUpdate_started hlib hprep
  cases hsd
  have hbb : base' = base := hst.base_eq.trans hbase
  subst hbb
  have hinv0 : inv0 = rl.inv.sorted := by
    have := hst.parse
    rw [parse_written hlib hdl.parsed hroot.1] at this
    cases this
    rfl
  subst hinv0
  have hds := hdl.sorted
  have ealg : alg = rl.alg := by
    have := hst.parsed.good.algorithm
    rw [hds.parsed.good.algorithm] at this
    cases this
    rfl
  subst ealg
  obtain ⟨m1, vs1, hd1, hlist1, hkeys1, hcd1, hty1, hid1⟩ := hds.recode hhash hno halg hst.change
  have g := ground_next hd1.parsed (sv := c!"1.1") (by decide) hmeta hlim hst.next
  obtain ⟨srcs, hsource, hadded⟩ := addFromSrcdir_ok h.wf hst.src_dir g.building ⟨_, g.manifest⟩ g.queue hadd
  obtain ⟨_, type, htype, hnv0⟩ := nextVersion_ok hd1.parsed.numbered hst.next
  obtain ⟨s2, inv2, hwr, hr⟩ := run_bind_inv hr
  have hr : (s2, Except.ok (some inv2)) = (s', (.ok (some inv) : Py (Option Inv))) := hr
  cases hr
  have hinv : inv = nv.inv := by
    unfold writeNewVersion at hwr
    split at hwr
    · cases hwr
    · obtain ⟨_, _, _, hwr⟩ := run_bind_inv hwr
      obtain ⟨_, _, _, hwr⟩ := run_bind_inv hwr
      obtain ⟨_, _, _, hwr⟩ := run_bind_inv hwr
      obtain ⟨_, _, _, hwr⟩ := run_bind_inv hwr
      obtain ⟨_, _, _, hwr⟩ := run_bind_inv hwr
      cases hwr
      rfl
  subst hinv
  refine ⟨?_, fun v => ?_⟩
  · rw [id_added hadded, hnv0]
    exact hid1
  · rw [metaAt_added hadded, hnv0]
    unfold metaAt withVersion
    show Option.map _ (Dict.get? (Dict.set inv1.versionsD _ _) v) = _
    rw [Dict.get?_set]
    have hb : ({ block with state := none } : VBlock) = block := by
      have := hmeta.noState block rfl
      cases block
      simp_all
    by_cases hv : v = styleName none (trees.length + 1)
    · subst hv
      rw [if_pos rfl, if_pos rfl]
      simp only [Option.map_some, Option.getD_some]
      exact congrArg some hb
    · rw [if_neg (fun h => hv h.symm), if_neg hv]
      have := metaAt_changeDigest hst.change v
      rw [metaAt_changeFixity] at this
      exact this.trans (metaAt_sorted hdl.parsed v)

/-- The invariant of dated histories. -/
theorem dated_sound {E : Env} (hlib : E.lib.Lawful) (hhash : HashLib E.raw) (hword : WordClass E.isWord)
    (hcwd : ∀ w ∈ E.cwd, SafeName w) {base : Path} {id : Str} {versions : List (Tree × VBlock)} {s : FS}
    (h : DatedHistory E base id versions s) (hno : NoCollision E.raw (InTrees (versions.map Prod.fst))) (hlen : versions.length ≤ 99999) :
    ∃ dv recs rl, Sound E s base dv (versions.map Prod.fst) recs ∧ recs.getLast? = some rl ∧ rl.inv.id = some id ∧
      ∀ k t b, versions[k]? = some (t, b) → metaAt rl.inv (styleName none (k + 1)) = some b := by
  induction h with
  | create wf settings block_ok id_eq base_eq vacant nonempty names done =>
    subst base_eq
    obtain ⟨r, hinv, _, hs⟩ := sound_create hhash hword hcwd settings block_ok wf vacant nonempty names done
    obtain ⟨h1, h2⟩ := create_meta settings block_ok wf done
    refine ⟨_, _, r, hs, rfl, by rw [hinv, h1, id_eq], fun k t b hk => ?_⟩
    cases k with
    | zero =>
      cases hk
      rw [hinv, h2, if_pos rfl]
    | succ k => simp at hk
  | @build base id o srcdir objdir metadata s s' inv n wf settings sources blocks id_eq base_eq vacant apart nonempty names done =>
    subst base_eq
    obtain ⟨recs, r, _, hlast, hs, hid, hsaid, _⟩ := sound_build hhash hword hcwd settings wf sources blocks vacant apart nonempty names done
    rw [List.map_fst_zip (by simp [versionTrees])]
    refine ⟨_, _, r, hs, hlast, by rw [hid, id_eq], fun k t b hk => ?_⟩
    have hk2 := (List.getElem?_zip_eq_some.mp hk).2
    rw [List.getElem?_map] at hk2
    cases hx : (List.range n)[k]? with
    | none => rw [hx] at hk2; cases hk2
    | some j =>
      rw [hx] at hk2
      obtain ⟨hkn, hj⟩ := List.getElem?_eq_some_iff.mp hx
      rw [List.getElem_range] at hj
      subst hj
      cases hk2
      exact hsaid k (by simpa using hkn)
  | elsewhere before wf same ih =>
    obtain ⟨dv, recs, rl, hs, h1, h2, h3⟩ := ih hno hlen
    exact ⟨dv, recs, rl, hs.outside wf same, h1, h2, h3⟩
  | copied before wf same ih =>
    obtain ⟨dv, recs, rl, hs, h1, h2, h3⟩ := ih hno hlen
    exact ⟨dv, recs, rl, hs.copied wf same, h1, h2, h3⟩
  | @update base id versions o srcdir objdir block abort s s' inv before algorithm block_ok base_eq names done ih =>
    rw [List.length_append, List.length_singleton] at hlen
    rw [List.map_append] at hno ⊢
    have hno' := NoCollision.mono hno (fun b hb => InTrees.append hb)
    obtain ⟨dv, recs, rl, hs, h1, h2, h3⟩ := ih hno' (by omega)
    have hlen' : (versions.map Prod.fst).length + 1 ≤ 99999 := by rw [List.length_map]; exact hlen
    obtain ⟨r, hinv, _, hs'⟩ := hs.update hlib hhash algorithm block_ok hno' hlen' base_eq names done
    obtain ⟨k1, k2⟩ := hs.update_meta hlib hhash algorithm block_ok hno' hlen' base_eq done h1
    refine ⟨dv, _, r, hs', by simp, by rw [hinv, k1, h2], fun k t b hk => ?_⟩
    rw [hinv, k2]
    rw [List.length_map]
    rcases Nat.lt_trichotomy k versions.length with hlt | heq | hgt
    · rw [List.getElem?_append_left hlt] at hk
      rw [if_neg]
      · exact h3 k t b hk
      · intro he
        have := styleName_inj he
        omega
    · subst heq
      rw [List.getElem?_append_right (Nat.le_refl _)] at hk
      simp only [Nat.sub_self, List.getElem?_cons_zero, Option.some.injEq, Prod.mk.injEq] at hk
      rw [if_pos rfl, hk.2]
    · rw [List.getElem?_eq_none (by simp; omega)] at hk
      cases hk

end Ocfl
