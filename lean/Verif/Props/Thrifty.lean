import Verif.Proofs.Thrifty
import Verif.Props.History
import Verif.Props.LibraryValid

/-!
# C111: an object keeps each content once
-/

namespace Ocfl

open Spec FS Prog Ocfl.Inv

theorem ThriftyHistory.history {E : Env} {base : Path} {trees : List Tree} {s : FS} (h : ThriftyHistory E base trees s) : History E base trees s := by
  induction h with
  | create wf settings dedupe block base_eq vacant nonempty names done => exact .create wf settings block base_eq vacant nonempty names done
  | build wf settings dedupe forwardDelta sources blocks base_eq vacant apart nonempty names done =>
    exact .build wf settings sources blocks base_eq vacant apart nonempty names done
  | elsewhere before wf same ih => exact .elsewhere ih wf same
  | copied before wf same ih => exact .copied ih wf same
  | update before algorithm dedupe forwardDelta block base_eq names done ih => exact .update ih algorithm block base_eq names done

theorem manifestD_last {E : Env} {s : FS} {base : Path} {trees : List Tree} {inv : Inv} {alg : Str} {m : DigestMap} {vs : Dict Str VBlock}
    (h : Describes E s base trees inv alg m vs) : inv.manifestD = m := by
  unfold Inv.manifestD
  rw [h.parsed.good.manifest]
  rfl

theorem inFirst_of {E : Env} {s : FS} {base : Path} {t : Tree} {inv : Inv} {alg : Str} {m : DigestMap} {vs : Dict Str VBlock}
    (h : Describes E s base [t] inv alg m vs) : ∀ d c, Lists m d c → InDir (styleName none 1) c := by
  intro d c hl
  obtain ⟨v, ws, _, h1, h2, _, h4, _⟩ := h.segs hl
  obtain ⟨i, i1, i2, rfl⟩ := (h.parsed.good.names.2.2.2 _).mp h1
  have : i = 1 := by simp only [List.length_singleton] at i2; omega
  subst this
  exact ⟨pathOf (inv.contentDirectoryToUse :: ws), by rw [h4]; simp [pathOf, joinWith]⟩

theorem thrifty_once {E : Env} (hE : Libraries E) (hcwd : ∀ w ∈ E.cwd, SafeName w) {base : Path} {trees : List Tree} {s : FS}
    (h : ThriftyHistory E base trees s) (hno : NoCollision E.raw (InTrees trees)) (hlen : trees.length ≤ 99999) :
    ∀ p p' b, ContentFile s base p b → ContentFile s base p' b → p = p' := by
  have hlib := hE.json
  have hhash := hE.hash
  have hword := hE.word
  induction h with
  | create wf settings dedupe block base_eq vacant nonempty names done =>
    subst base_eq
    obtain ⟨r, hr, _, hs⟩ := sound_create hhash hword hcwd settings block wf vacant nonempty names done
    have hone := oneEach_create settings dedupe block done
    have hd := (hs.versions 0 r rfl).describes
    rw [← hr, manifestD_last hd] at hone
    have hin := inFirst_of hd
    intro p p' b hk hk'
    exact hs.keptOnce rfl (fun d c c' h1 h2 => hone d c c' h1 h2 (hin _ _ h1) (hin _ _ h2)) hk hk'
  | @build base o srcdir objdir metadata s s' inv n wf settings dedupe forwardDelta sources blocks base_eq vacant apart nonempty names done =>
    subst base_eq
    obtain ⟨recs, r, _, hlast, hs, _, _, _, hprep⟩ := sound_build_prepared hhash hword hcwd settings wf sources blocks vacant apart nonempty names done
    rw [versionTrees_length] at hlen
    have hl : recs.length = n := by rw [hs.length, versionTrees_length]
    have hat : ∀ (k : Nat) (inv : Inv), (recs.map (·.inv))[k]? = some inv → ∃ rk : Rec, recs[k]? = some rk ∧ rk.inv = inv := by
      intro k inv hk
      rw [List.getElem?_map] at hk
      cases hrk : recs[k]? with
      | none => rw [hrk] at hk; cases hk
      | some rk => rw [hrk] at hk; exact ⟨rk, rfl, Option.some.inj hk⟩
    have htake : ∀ k < n, ((versionTrees s (absComps E.cwd srcdir) n).take (k + 1)).length = k + 1 := by
      intro k hk
      rw [List.length_take, versionTrees_length]
      omega
    have hone := hprep.oneEach settings dedupe forwardDelta (fun k hk => blocks k (by rw [List.length_map, hl] at hk; exact hk)) (by
        intro k inv hk
        obtain ⟨rk, h1, rfl⟩ := hat k inv hk
        have hp := (hs.versions k rk h1).describes.parsed
        rw [htake k (by rw [← hl]; exact (List.getElem?_eq_some_iff.mp h1).1)] at hp
        exact ⟨_, _, _, hp⟩) (by rw [List.length_map, hl]; exact hlen) (by
        intro inv hk
        obtain ⟨rk, h1, rfl⟩ := hat 0 inv hk
        have hd := (hs.versions 0 rk h1).describes
        have h0 := htake 0 (by rw [← hl]; exact (List.getElem?_eq_some_iff.mp h1).1)
        rw [manifestD_last hd]
        obtain ⟨t, ht⟩ := List.length_eq_one_iff.mp h0
        rw [ht] at hd
        exact inFirst_of hd) r.inv (by rw [List.getLast?_map, hlast]; rfl)
    obtain ⟨rl, hl', hd, _⟩ := hs.last
    rw [hlast] at hl'
    cases hl'
    rw [manifestD_last hd] at hone
    intro p p' b hk hk'
    exact hs.keptOnce hlast hone hk hk'
  | elsewhere before wf same ih =>
    intro p p' b hk hk'
    exact ih hno hlen p p' b ⟨hk.1, by rw [← same _ (List.prefix_append _ _)]; exact hk.2⟩ ⟨hk'.1, by rw [← same _ (List.prefix_append _ _)]; exact hk'.2⟩
  | copied before wf same ih =>
    intro p p' b hk hk'
    exact ih hno hlen p p' b ⟨hk.1, (same.files _ _).mp hk.2⟩ ⟨hk'.1, (same.files _ _).mp hk'.2⟩
  | update before algorithm dedupe forwardDelta block base_eq names done ih =>
    rw [List.length_append, List.length_singleton] at hlen
    have hno' := NoCollision.mono hno (fun b hb => InTrees.append hb)
    obtain ⟨dv, recs, hs⟩ := history_sound hlib hhash hword hcwd (ThriftyHistory.history before) hno' (by omega)
    have hone := hs.update_oneEach hlib hhash algorithm dedupe forwardDelta block hno' hlen base_eq done (ih hno' (by omega))
    obtain ⟨r, hr, _, hs'⟩ := hs.update hlib hhash algorithm block hno' hlen base_eq names done
    have hlast : (recs ++ [r]).getLast? = some r := by simp
    obtain ⟨rl, hl, hd, _⟩ := hs'.last
    rw [hlast] at hl
    cases hl
    rw [← hr, manifestD_last hd] at hone
    intro p p' b hk hk'
    exact hs'.keptOnce hlast hone hk hk'

/-- **C111**: with the settings left on, the object holds exactly one content file for every content that a file of one
of the versions has, and no other content files. This is so whatever paths the content had, in how many versions it
was, and with which digest algorithms the versions were made. -/
theorem C111 {E : Env} (hE : Libraries E) (hcwd : ∀ w ∈ E.cwd, SafeName w) {base : Path} {trees : List Tree} {s : FS}
    (h : ThriftyHistory E base trees s) (hno : NoCollision E.raw (InTrees trees)) (hlen : trees.length ≤ 99999) (b : Bytes) :
    (InTrees trees b → ∃ p, ContentFile s base p b ∧ ∀ p', ContentFile s base p' b → p' = p) ∧ ∀ p, ContentFile s base p b → InTrees trees b := by
  obtain ⟨dv, recs, hs⟩ := history_sound hE.json hE.hash hE.word hcwd (ThriftyHistory.history h) hno hlen
  obtain ⟨r, hlast, hd, _⟩ := hs.last
  refine ⟨?_, fun p hk => (hs.keptListed hlast hk).2.2.1⟩
  rintro ⟨t, ht, q, hq⟩
  obtain ⟨k, hk, hkt⟩ := List.getElem_of_mem ht
  have hdig := fileDigest_known E.raw hd.parsed.good.algName b
  have hst := ((hd.states k t (by rw [List.getElem?_eq_getElem hk, hkt])).2 _ (pathOf q)).mpr ⟨q, b, hq, rfl, hdig⟩
  unfold stateIn at hst
  cases hv : Dict.get? r.vs (styleName none (k + 1)) with
  | none => rw [hv] at hst; exact absurd hst (Lists_nil _ _)
  | some blk =>
    obtain ⟨st, hgb⟩ := hd.parsed.good.blocks _ _ (Dict.mem_of_get? hv)
    rw [hv] at hst
    simp only [Option.bind_some, hgb.state, Option.getD_some] at hst
    obtain ⟨ps, h1, h2⟩ := hst
    obtain ⟨cs, h3, h4⟩ := hgb.digests _ h1
    obtain ⟨c, l, rfl⟩ := List.exists_cons_of_ne_nil h3
    obtain ⟨v, ws, b', _, k2, _, k4, k5, k6, k7, k8⟩ := hd.segs ⟨_, h4, List.mem_cons_self⟩
    have hb : b' = b := noCollision_digest hno hd.parsed.good.algName k8 ⟨t, ht, q, hq⟩ (by rw [k7, hdig])
    subst hb
    have hkp : ContentFile s base (v :: r.inv.contentDirectoryToUse :: ws) b' := by
      refine ⟨?_, by rw [← k5]; exact k6⟩
      have := List.length_pos_of_ne_nil k2
      simp only [List.length_cons]
      omega
    exact ⟨_, hkp, fun p' hp' => thrifty_once hE hcwd h hno hlen _ _ _ hp' hkp⟩

/-! ## Examples -/

theorem demo_thrifty : ThriftyHistory demoEnv (absComps demoEnv.cwd c!"obj") demoTrees demoGrown := by
  obtain ⟨inv, hr⟩ := succeeded_ok (r := run (create demoEnv demoObj c!"src" (some demoMeta) (some c!"obj")) demoFS) (by decide +kernel)
  have h1 : ThriftyHistory demoEnv (absComps demoEnv.cwd c!"obj") [FileBelow demoFS (absComps demoEnv.cwd c!"src")] demoChanged :=
    .elsewhere (.create demoFS_wf demoObj_good rfl demoMeta_good rfl ⟨Or.inl (by decide +kernel), fun r hr => look_below_none demoFS_wf (List.prefix_append _ _) (by simpa using hr) (by decide +kernel)⟩
      ⟨[c!"a.txt"], [1, 2, 3], by decide, by decide +kernel⟩ (fun h => by cases h) hr) demoChanged_wf demo_apart
  have hs : (match (run demoRehash demoChanged).2 with | .ok (some _) => true | _ => false) = true := by decide +kernel
  cases hr : run demoRehash demoChanged with
  | mk s' r =>
    rw [hr] at hs
    cases r with
    | error e => cases hs
    | ok r =>
      cases r with
      | none => cases hs
      | some inv =>
        have he : demoGrown = s' := by unfold demoGrown; rw [hr]
        rw [he]
        exact .update h1 (Or.inl rfl) rfl rfl demoMeta_good rfl (fun h => by cases h) hr

/-- One of the contents had two paths in the first version, and is in both versions, which have different digest
algorithms. There is one file with it. -/
example : (∃ p, ContentFile demoGrown (absComps demoEnv.cwd c!"obj") p [1, 2, 3] ∧ ∀ p', ContentFile demoGrown (absComps demoEnv.cwd c!"obj") p' [1, 2, 3] → p' = p) ∧
    FileBelow demoFS (absComps demoEnv.cwd c!"src") [c!"a.txt"] [1, 2, 3] ∧ FileBelow demoFS (absComps demoEnv.cwd c!"src") [c!"d", c!"c"] [1, 2, 3] ∧
    FileBelow demoChanged (absComps demoEnv.cwd c!"src") [c!"d", c!"c"] [1, 2, 3] ∧
    ContentFile demoGrown (absComps demoEnv.cwd c!"obj") [c!"v1", c!"content", c!"a.txt"] [1, 2, 3] ∧
    ContentFile demoGrown (absComps demoEnv.cwd c!"obj") [c!"v2", c!"content", c!"a.txt"] [9] := by
  have hin : FileBelow demoFS (absComps demoEnv.cwd c!"src") [c!"a.txt"] [1, 2, 3] := ⟨by decide, by decide +kernel⟩
  exact ⟨(C111 demoLibraries demoEnv_cwd demo_thrifty demo_noCollision (by decide) [1, 2, 3]).1 ⟨_, by simp [demoTrees], _, hin⟩, hin,
    ⟨by decide, by decide +kernel⟩, ⟨by decide, by decide +kernel⟩, ⟨by decide, by decide +kernel⟩, ⟨by decide, by decide +kernel⟩⟩

/-- The object after the same update without `forward_delta`. -/
def demoRepeated : FS :=
  (run (addVersionWithContent demoEnv { demoObj with digestAlgorithm := c!"sha512", forwardDelta := false } c!"obj" (some c!"src") (some demoMeta) true)
    demoChanged).1

/-- The settings matter: without `forward_delta` the content is stored again. -/
example : ContentFile demoRepeated (absComps demoEnv.cwd c!"obj") [c!"v1", c!"content", c!"a.txt"] [1, 2, 3] ∧
    ContentFile demoRepeated (absComps demoEnv.cwd c!"obj") [c!"v2", c!"content", c!"d", c!"c"] [1, 2, 3] :=
  ⟨⟨by decide, by decide +kernel⟩, ⟨by decide, by decide +kernel⟩⟩

end Ocfl
