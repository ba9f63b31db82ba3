import Verif.Proofs.NewVersion
import Verif.Props.UriPaths
import Mathlib.Tactic.Conv

/-! # What adding all files of a source directory does -/

namespace Ocfl
open Spec

namespace NV
open Ocfl.Inv

/-- The content path wanted for a source path. -/
def vpath (E : NVEnv) (nv : NV) (head p : Str) : Option Str :=
  match nv.mapped E p with
  | .error _ => none
  | .ok fp => some (osPathJoin (osPathJoin head nv.inv.contentDirectoryToUse) fp)

theorem mapFilepath_cand {E : NVEnv} {nv : NV} {head p cp : Str} (h : nv.mapFilepath E head p = .ok cp) :
    ∃ v k, nv.vpath E head p = some v ∧ 1 ≤ k ∧ cp = cand v c!"__" k ∧ (v ∉ listed nv.inv.manifestD → cp = v) := by
  rw [mapFilepath_eq] at h
  unfold vpath
  split at h
  · cases h
  · rename_i fp hfp
    rw [hfp]
    simp only at h
    split at h
    · cases h
    · rename_i r hr
      simp only [Except.ok.injEq] at h
      subst h
      have hr' := hr
      unfold makeUnusedFilepath at hr
      obtain ⟨k, hk, hrk, _⟩ := unusedLoop_some _ 1 _ (by decide) hr
      refine ⟨_, k, rfl, hk, hrk, ?_⟩
      intro hv
      rw [← contentPaths_eq] at hv
      have : makeUnusedFilepath (osPathJoin (osPathJoin head nv.inv.contentDirectoryToUse) fp) nv.inv.contentPaths
          = some (osPathJoin (osPathJoin head nv.inv.contentDirectoryToUse) fp) := by
        simp [makeUnusedFilepath, unusedLoop, hv]
      rw [this] at hr'
      exact (Option.some.inj hr').symm

/-- What holds after the files `done` have been added to `nv0`. -/
structure Added (E : NVEnv) (nv0 : NV) (head : Str) (done : List Str) (nv : NV) : Prop where
  norm : nv.norm = nv0.norm
  forwardDelta : nv.forwardDelta = nv0.forwardDelta
  dedupe : nv.dedupe = nv0.dedupe
  old : nv.oldDigestAlgorithm = nv0.oldDigestAlgorithm
  none_done : done = [] → nv = nv0
  inv : done ≠ [] → nv.inv = { nv0.inv.setState head (nv.inv.stateOf head) with manifest := some nv.inv.manifestD }
  manifest : ∃ m, nv.inv.manifest = some m
  stateKeys : Dict.NK (nv.inv.stateOf head)
  statePaths : PathsUnique (nv.inv.stateOf head)
  manifestKeys : Dict.NK nv.inv.manifestD
  nodup : done.Nodup
  digests : ∀ p ∈ done, ∃ d, E.srcDigest (nv0.inv.digestAlgorithm.getD []) p = .ok d ∧ ∃ c, Lists nv.inv.manifestD d c
  state : ∀ d p, Lists (nv.inv.stateOf head) d p ↔
    Lists (nv0.inv.stateOf head) d p ∨ (p ∈ done ∧ E.srcDigest (nv0.inv.digestAlgorithm.getD []) p = .ok d)
  stateNonempty : ∀ e ∈ nv.inv.stateOf head, e.2 = [] → e ∈ nv0.inv.stateOf head
  paths : ∀ d c, Lists nv.inv.manifestD d c ↔
    Lists nv0.inv.manifestD d c ∨ ∃ p, (p, c) ∈ nv.filesToCopy ∧ E.srcDigest (nv0.inv.digestAlgorithm.getD []) p = .ok d
  manifestNonempty : ∀ e ∈ nv.inv.manifestD, e.2 = [] → e ∈ nv0.inv.manifestD
  unique : PathsUnique nv0.inv.manifestD → PathsUnique nv.inv.manifestD
  queueKeys : Dict.NK nv.filesToCopy
  queueDone : ∀ x ∈ nv.filesToCopy, x.1 ∈ done
  queueFresh : ∀ x ∈ nv.filesToCopy, x.2 ∉ listed nv0.inv.manifestD
  queueInj : ∀ x ∈ nv.filesToCopy, ∀ y ∈ nv.filesToCopy, x.2 = y.2 → x = y
  shape : ∀ x ∈ nv.filesToCopy, ∃ v k, nv0.vpath E head x.1 = some v ∧ 1 ≤ k ∧ x.2 = cand v c!"__" k
  plain : (∀ p ∈ done, ∀ p' ∈ done, nv0.vpath E head p = nv0.vpath E head p' → p = p') →
    (∀ p ∈ done, ∀ v, nv0.vpath E head p = some v → v ∉ listed nv0.inv.manifestD) →
    ∀ x ∈ nv.filesToCopy, nv0.vpath E head x.1 = some x.2

theorem Added.base {E : NVEnv} {nv0 : NV} {head : Str} (hb : Building nv0 head)
    (hm : ∃ m, nv0.inv.manifest = some m) (hq : nv0.filesToCopy = []) : Added E nv0 head [] nv0 where
  norm := rfl
  forwardDelta := rfl
  dedupe := rfl
  old := rfl
  none_done _ := rfl
  inv h := absurd rfl h
  manifest := hm
  stateKeys := hb.stateKeys
  statePaths := hb.statePaths
  manifestKeys := hb.manifestKeys
  nodup := List.nodup_nil
  digests := by simp
  state := by simp
  stateNonempty _ h _ := h
  paths := by simp [hq]
  manifestNonempty _ h _ := h
  unique h := h
  queueKeys := by rw [hq]; exact List.nodup_nil
  queueDone := by simp [hq]
  queueFresh := by simp [hq]
  queueInj := by simp [hq]
  shape := by simp [hq]
  plain := by simp [hq]

theorem stateAppend_nonempty {m : DigestMap} {d p : Str} {e : Str × List Str} (h : e ∈ stateAppend m d p) (he : e.2 = []) :
    e ∈ m := by
  unfold stateAppend at h
  split at h
  · rcases Dict.mem_set_imp h with h | h
    · exact h
    · subst h; simp at he
  · rcases Dict.mem_set_imp h with h | h
    · exact h
    · subst h; simp at he

theorem Added.head {E : NVEnv} {nv0 nv : NV} {head : Str} {done : List Str} (h : Added E nv0 head done nv) :
    nv.inv.head = nv0.inv.head ∧ nv.inv.digestAlgorithm = nv0.inv.digestAlgorithm ∧
      nv.inv.contentDirectoryToUse = nv0.inv.contentDirectoryToUse := by
  by_cases hd : done = []
  · rw [h.none_done hd]; exact ⟨rfl, rfl, rfl⟩
  · rw [h.inv hd]
    refine ⟨by simp, by simp, ?_⟩
    simp [contentDirectoryToUse]

theorem Added.vpath {E : NVEnv} {nv0 nv : NV} {head : Str} {done : List Str} (h : Added E nv0 head done nv) (p : Str) :
    nv.vpath E head p = nv0.vpath E head p := by
  unfold NV.vpath NV.mapped
  rw [h.norm, h.head.2.2]

theorem setState_withManifest (j : Inv) (m : Option DigestMap) (v : Str) (st : DigestMap) :
    Inv.setState { j with manifest := m } v st = { j.setState v st with manifest := m } := by
  unfold setState
  have : ({ j with manifest := m } : Inv).versionData v = j.versionData v := rfl
  rw [this]
  cases j.versionData v <;> rfl

/-- Content paths that the digest has, in the dictionary. -/
theorem wantCopy_false {nv : NV} {head : Str} {l : List Str} (h : nv.wantCopy head l = false) : ∃ c, c ∈ l := by
  cases l with
  | nil => simp [wantCopy] at h
  | cons c l => exact ⟨c, by simp⟩

theorem Added.step {E : NVEnv} {nv0 nv nv' : NV} {head : Str} {done : List Str} {p : Str} (hhead : nv0.inv.head = some head)
    (h : Added E nv0 head done nv) (ha : nv.add E p p none = (nv', .ok ())) : Added E nv0 head (done ++ [p]) nv' := by
  rw [add_eq, h.head.1, hhead] at ha
  simp only at ha
  split at ha
  · cases ha
  rename_i cp hcp
  split at ha
  · cases ha
  rename_i hl
  split at ha
  · cases ha
  rename_i d hd
  split at ha
  · cases ha
  rename_i b hb
  obtain ⟨hnv, -⟩ := Prod.mk.inj ha
  rw [h.head.2.1] at hd
  rw [logicalPaths_eq] at hl
  have hfresh : cp ∉ listed nv.inv.manifestD := by rw [← contentPaths_eq]; exact chooseContentPath_fresh hcp
  have hpd : p ∉ done := by
    intro hm
    obtain ⟨d', hd', -⟩ := h.digests p hm
    exact hl (mem_listed.mpr ⟨d', (h.state d' p).mpr (Or.inr ⟨hm, hd'⟩)⟩)
  obtain ⟨v, k, hv, hk, hcv, hfree⟩ := mapFilepath_cand (show nv.mapFilepath E head p = .ok cp from hcp)
  rw [h.vpath] at hv
  have hstate : nv'.inv.stateOf head = stateAppend (nv.inv.stateOf head) d p := by
    rw [← hnv, afterAdd_stateOf, stateOf_setState_self hb]
  have hman : nv'.inv.manifestD = if nv.wantCopy head (nv.inv.contentPathsForDigest d) then stateAppend nv.inv.manifestD d cp
      else nv.inv.manifestD := by rw [← hnv, afterAdd_manifestD]
  have hqueue : nv'.filesToCopy = if nv.wantCopy head (nv.inv.contentPathsForDigest d) then Dict.set nv.filesToCopy p cp
      else nv.filesToCopy := by
    rw [← hnv]; unfold afterAdd; dsimp only; split <;> rfl
  have hqp : p ∉ Dict.keys nv.filesToCopy := by
    intro hm
    obtain ⟨c, hc⟩ := Dict.exists_of_mem_keys hm
    exact hpd (h.queueDone (p, c) (Dict.mem_of_get? hc))
  have hmem : ∀ x, x ∈ Dict.set nv.filesToCopy p cp ↔ x = (p, cp) ∨ x ∈ nv.filesToCopy := by
    intro x
    rw [Dict.mem_set h.queueKeys]
    constructor
    · rintro (h | h)
      · exact Or.inl h
      · exact Or.inr h.2
    · rintro (h | h)
      · exact Or.inl h
      · refine Or.inr ⟨?_, h⟩
        intro e
        exact hqp (e ▸ Dict.mem_keys_of_mem h)
  have hmq : ∀ x ∈ nv.filesToCopy, x.2 ∈ listed nv.inv.manifestD := by
    intro x hx
    obtain ⟨d', hd', -⟩ := h.digests _ (h.queueDone x hx)
    exact mem_listed.mpr ⟨d', (h.paths d' x.2).mpr (Or.inr ⟨x.1, hx, hd'⟩)⟩
  have hsub : ∀ d' c, Lists nv.inv.manifestD d' c → Lists nv'.inv.manifestD d' c := by
    intro d' c hc
    rw [hman]
    split
    · exact (Lists_stateAppend h.manifestKeys).mpr (Or.inl hc)
    · exact hc
  have hm0 : ∀ c, c ∈ listed nv0.inv.manifestD → c ∈ listed nv.inv.manifestD := by
    intro c hc
    obtain ⟨d', hd'⟩ := mem_listed.mp hc
    exact mem_listed.mpr ⟨d', (h.paths d' c).mpr (Or.inl hd')⟩
  obtain ⟨mm, hmm⟩ := h.manifest
  exact {
    norm := by rw [← hnv]; unfold afterAdd; dsimp only; split <;> exact h.norm
    forwardDelta := by rw [← hnv]; unfold afterAdd; dsimp only; split <;> exact h.forwardDelta
    dedupe := by rw [← hnv]; unfold afterAdd; dsimp only; split <;> exact h.dedupe
    old := by rw [← hnv]; unfold afterAdd; dsimp only; split <;> exact h.old
    none_done := by simp
    inv := by
      intro _
      have h1 : nv.inv.setState head (stateAppend (nv.inv.stateOf head) d p) =
          { nv0.inv.setState head (stateAppend (nv.inv.stateOf head) d p) with manifest := nv.inv.manifest } := by
        by_cases hd0 : done = []
        · rw [h.none_done hd0]
          have := setState_manifest nv0.inv head (stateAppend (nv0.inv.stateOf head) d p)
          revert this
          generalize nv0.inv.setState head (stateAppend (nv0.inv.stateOf head) d p) = j
          intro hj
          cases j
          simp only at hj
          rw [hj]
        · have hi := h.inv hd0
          have : nv.inv.setState head (stateAppend (nv.inv.stateOf head) d p) =
              { (nv0.inv.setState head (nv.inv.stateOf head)).setState head (stateAppend (nv.inv.stateOf head) d p) with
                manifest := nv.inv.manifest } := by
            have hman' : nv.inv.manifest = some nv.inv.manifestD := by rw [manifestD, hmm]; rfl
            generalize stateAppend (nv.inv.stateOf head) d p = st1
            conv_lhs => rw [hi]
            rw [hman', setState_withManifest]
          rw [this, setState_setState]
      rw [hstate]
      have hnm : nv'.inv = { nv.inv.setState head (stateAppend (nv.inv.stateOf head) d p) with manifest := some nv'.inv.manifestD } := by
        rw [hman, ← hnv]
        unfold afterAdd
        dsimp only
        split
        · rfl
        · rw [show some nv.inv.manifestD = nv.inv.manifest by rw [manifestD, hmm]; rfl]
          have := setState_manifest nv.inv head (stateAppend (nv.inv.stateOf head) d p)
          revert this
          generalize nv.inv.setState head (stateAppend (nv.inv.stateOf head) d p) = j
          intro hj
          cases j
          simp only at hj
          rw [hj]
      rw [hnm, h1]
      rfl
    manifest := by
      rw [← hnv]; unfold afterAdd; dsimp only
      split
      · exact ⟨_, rfl⟩
      · exact ⟨mm, by rw [setState_manifest]; exact hmm⟩
    stateKeys := by rw [hstate]; exact NK_stateAppend h.stateKeys _ _
    statePaths := by
      rw [hstate]
      unfold PathsUnique
      rw [(stateAppend_perm _ _ _).nodup_iff, List.nodup_cons]
      exact ⟨hl, h.statePaths⟩
    manifestKeys := by
      rw [hman]; split
      · exact NK_stateAppend h.manifestKeys _ _
      · exact h.manifestKeys
    nodup := by
      rw [List.nodup_append]
      refine ⟨h.nodup, by simp, ?_⟩
      intro a ha' b hb e
      simp at hb; subst hb; subst e; exact hpd ha'
    digests := by
      intro p' hp'
      rcases List.mem_append.mp hp' with hp' | hp'
      · obtain ⟨d', h1, c, h2⟩ := h.digests p' hp'
        exact ⟨d', h1, c, hsub _ _ h2⟩
      · simp at hp'; subst hp'
        refine ⟨d, hd, ?_⟩
        rw [hman]
        split
        · exact ⟨cp, (Lists_stateAppend h.manifestKeys).mpr (Or.inr ⟨rfl, rfl⟩)⟩
        · rename_i hw
          obtain ⟨c, hc⟩ := wantCopy_false (by simpa using hw)
          exact ⟨c, (Lists_iff_get? h.manifestKeys).mpr hc⟩
    state := by
      intro d' p'
      rw [hstate, Lists_stateAppend h.stateKeys, h.state]
      simp only [List.mem_append, List.mem_singleton]
      constructor
      · rintro ((h1 | h1) | ⟨rfl, rfl⟩)
        · exact Or.inl h1
        · exact Or.inr ⟨Or.inl h1.1, h1.2⟩
        · exact Or.inr ⟨Or.inr rfl, hd⟩
      · rintro (h1 | ⟨h1 | rfl, h2⟩)
        · exact Or.inl (Or.inl h1)
        · exact Or.inl (Or.inr ⟨h1, h2⟩)
        · rw [hd] at h2; cases h2
          exact Or.inr ⟨rfl, rfl⟩
    stateNonempty := by
      intro e he h0
      rw [hstate] at he
      exact h.stateNonempty e (stateAppend_nonempty he h0) h0
    paths := by
      intro d' c
      rw [hman, hqueue]
      split
      · rw [Lists_stateAppend h.manifestKeys, h.paths]
        constructor
        · rintro ((h1 | ⟨q, h1, h2⟩) | ⟨rfl, rfl⟩)
          · exact Or.inl h1
          · exact Or.inr ⟨q, (hmem _).mpr (Or.inr h1), h2⟩
          · exact Or.inr ⟨p, (hmem _).mpr (Or.inl rfl), hd⟩
        · rintro (h1 | ⟨q, h1, h2⟩)
          · exact Or.inl (Or.inl h1)
          · rcases (hmem _).mp h1 with h1 | h1
            · cases h1
              rw [hd] at h2; cases h2
              exact Or.inr ⟨rfl, rfl⟩
            · exact Or.inl (Or.inr ⟨q, h1, h2⟩)
      · exact h.paths d' c
    manifestNonempty := by
      intro e he h0
      rw [hman] at he
      split at he
      · exact h.manifestNonempty e (stateAppend_nonempty he h0) h0
      · exact h.manifestNonempty e he h0
    unique := by
      intro hu
      rw [hman]; split
      · unfold PathsUnique
        rw [(stateAppend_perm _ _ _).nodup_iff, List.nodup_cons]
        exact ⟨hfresh, h.unique hu⟩
      · exact h.unique hu
    queueKeys := by
      rw [hqueue]; split
      · exact Dict.NK_set h.queueKeys _ _
      · exact h.queueKeys
    queueDone := by
      intro x hx
      rw [hqueue] at hx
      split at hx
      · rcases (hmem _).mp hx with rfl | hx
        · simp
        · simp [h.queueDone x hx]
      · simp [h.queueDone x hx]
    queueFresh := by
      intro x hx
      rw [hqueue] at hx
      split at hx
      · rcases (hmem _).mp hx with rfl | hx
        · exact fun hc => hfresh (hm0 _ hc)
        · exact h.queueFresh x hx
      · exact h.queueFresh x hx
    queueInj := by
      intro x hx y hy e
      rw [hqueue] at hx hy
      split at hx
      · rw [if_pos (by assumption)] at hy
        rcases (hmem _).mp hx with rfl | hx <;> rcases (hmem _).mp hy with rfl | hy
        · rfl
        · exact absurd (hmq y hy) (by rw [← e]; exact hfresh)
        · exact absurd (hmq x hx) (by rw [e]; exact hfresh)
        · exact h.queueInj x hx y hy e
      · rw [if_neg (by assumption)] at hy
        exact h.queueInj x hx y hy e
    shape := by
      intro x hx
      rw [hqueue] at hx
      split at hx
      · rcases (hmem _).mp hx with rfl | hx
        · exact ⟨v, k, hv, hk, hcv⟩
        · exact h.shape x hx
      · exact h.shape x hx
    plain := by
      intro hinj hno
      have ih := h.plain (fun a ha b hb => hinj a (by simp [ha]) b (by simp [hb])) (fun a ha => hno a (by simp [ha]))
      intro x hx
      rw [hqueue] at hx
      split at hx
      · rcases (hmem _).mp hx with rfl | hx
        · rw [hfree ?_, hv]
          intro hvm
          obtain ⟨d', hd'⟩ := mem_listed.mp hvm
          rcases (h.paths d' v).mp hd' with h1 | ⟨q, hq, -⟩
          · exact hno p (by simp) v hv (mem_listed.mpr ⟨d', h1⟩)
          · have h2 := ih _ hq
            have := hinj q (by simp [h.queueDone _ hq]) p (by simp) (h2.trans hv.symm)
            exact hpd (this ▸ h.queueDone _ hq)
        · exact ih x hx
      · exact ih x hx }

/-- After a successful run of the loop. -/
theorem addAll_added {E : NVEnv} {nv0 : NV} {head : Str} (hhead : nv0.inv.head = some head) :
    ∀ {srcs done : List Str} {nv nv' : NV}, Added E nv0 head done nv → nv.addAll E srcs = (nv', .ok ()) →
      Added E nv0 head (done ++ srcs) nv' := by
  intro srcs
  induction srcs with
  | nil =>
    intro done nv nv' h hr
    unfold addAll at hr
    cases hr
    simpa using h
  | cons p srcs ih =>
    intro done nv nv' h hr
    unfold addAll at hr
    split at hr
    · cases hr
    · rename_i nv1 ha
      have := ih (h.step hhead ha) hr
      simpa using this

theorem addAll_ok {E : NVEnv} {nv0 nv : NV} {head : Str} {srcs : List Str} (hb : Building nv0 head)
    (hm : ∃ m, nv0.inv.manifest = some m) (hq : nv0.filesToCopy = []) (h : nv0.addAll E srcs = (nv, .ok ())) :
    Added E nv0 head srcs nv := by
  simpa using addAll_added hb.head_eq (Added.base hb hm hq) h

/-- When the loop succeeds. -/
theorem addAll_succeeds {E : NVEnv} {nv0 : NV} {head : Str} (hhead : nv0.inv.head = some head) :
    ∀ {srcs done : List Str} {nv : NV}, Added E nv0 head done nv → (nv0.inv.versionData head).isSome = true →
      (done ++ srcs).Nodup → (∀ p ∈ srcs, p ∉ listed (nv0.inv.stateOf head)) →
      (∀ p ∈ srcs, ∃ d, E.srcDigest (nv0.inv.digestAlgorithm.getD []) p = .ok d) →
      (∀ p ∈ srcs, ∃ fp, nv0.mapped E p = .ok fp) → ∃ nv', nv.addAll E srcs = (nv', .ok ()) := by
  intro srcs
  induction srcs with
  | nil => intro done nv _ _ _ _ _ _; exact ⟨nv, rfl⟩
  | cons p srcs ih =>
    intro done nv h hbk hnd hl hd hmp
    have hp : ∃ nv1, nv.add E p p none = (nv1, .ok ()) := by
      rw [add_eq, h.head.1, hhead]
      obtain ⟨d, hd⟩ := hd p (by simp)
      have hmap : ∃ fp, nv.mapped E p = .ok fp := by
        obtain ⟨fp, hfp⟩ := hmp p (by simp)
        refine ⟨fp, ?_⟩
        unfold mapped at hfp ⊢
        rw [h.norm]; exact hfp
      obtain ⟨cp, hcp⟩ := (mapFilepath_isOk (head := head)).mpr hmap
      have hcp' : nv.chooseContentPath E head p none = .ok cp := hcp
      have hbk' : ∃ b, nv.inv.versionData head = some b := by
        by_cases hd0 : done = []
        · rw [h.none_done hd0]; exact Option.isSome_iff_exists.mp hbk
        · rw [h.inv hd0]
          obtain ⟨b, hb⟩ := Option.isSome_iff_exists.mp hbk
          refine ⟨{ b with state := some (nv.inv.stateOf head) }, ?_⟩
          have := versionData_setState nv0.inv head head (nv.inv.stateOf head)
          rw [if_pos rfl, hb] at this
          exact this
      obtain ⟨b, hb⟩ := hbk'
      have hl' : p ∉ nv.inv.logicalPaths head := by
        rw [logicalPaths_eq]
        intro hm
        obtain ⟨d', hd'⟩ := mem_listed.mp hm
        rcases (h.state d' p).mp hd' with h1 | h1
        · exact hl p (by simp) (mem_listed.mpr ⟨d', h1⟩)
        · rw [List.nodup_append] at hnd
          exact hnd.2.2 p h1.1 p (by simp) rfl
      simp only [hcp', h.head.2.1, hl', if_false, hd, hb]
      exact ⟨_, rfl⟩
    obtain ⟨nv1, h1⟩ := hp
    obtain ⟨nv', h2⟩ := ih (h.step hhead h1) hbk (by simpa using hnd) (fun q hq => hl q (by simp [hq]))
      (fun q hq => hd q (by simp [hq])) (fun q hq => hmp q (by simp [hq]))
    refine ⟨nv', ?_⟩
    unfold addAll
    rw [h1]
    exact h2

end NV
end Ocfl
