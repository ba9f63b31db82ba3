import Verif.Proofs.AddSource
import Verif.Proofs.Recode
import Verif.Proofs.WriteDone
import Verif.Props.Inventory

/-!
# Helper lemmas: the difference between a source directory and the last version
-/

namespace Ocfl

open Spec FS Prog Ocfl.Inv

theorem NV.Added.versionData {E : NVEnv} {nv0 nv : NV} {head : Str} {done : List Str} (h : NV.Added E nv0 head done nv) :
    (∀ v, v ≠ head → nv.inv.versionData v = nv0.inv.versionData v) ∧
      (nv.inv.versionData head).isSome = (nv0.inv.versionData head).isSome := by
  by_cases hd : done = []
  · rw [h.none_done hd]; exact ⟨fun _ _ => rfl, rfl⟩
  · obtain ⟨st, m, e⟩ : ∃ st m, nv.inv = { nv0.inv.setState head st with manifest := m } := ⟨_, _, h.inv hd⟩
    have : ∀ v, nv.inv.versionData v = (nv0.inv.setState head st).versionData v := by
      intro v
      rw [e]
      rfl
    refine ⟨fun v hv => by rw [this, versionData_setState, if_neg hv], ?_⟩
    rw [this, versionData_setState, if_pos rfl]
    cases nv0.inv.versionData head <;> rfl

/-- Adding files leaves the other versions alone. -/
theorem NV.Added.others {E : NVEnv} {nv0 nv : NV} {head : Str} {done : List Str} (h : NV.Added E nv0 head done nv) {v : Str} (hv : v ≠ head) :
    nv.inv.stateOf v = nv0.inv.stateOf v := by
  unfold Inv.stateOf
  rw [h.versionData.1 v hv]

theorem mem_versions_iff {inv : Inv} {v : Str} : v ∈ Dict.keys inv.versionsD ↔ (inv.versionData v).isSome = true := by
  unfold Inv.versionData
  rw [← not_iff_not, ← Dict.get?_eq_none_iff]
  cases Dict.get? inv.versionsD v <;> simp

theorem NV.Added.keys {E : NVEnv} {nv0 nv : NV} {head : Str} {done : List Str} (h : NV.Added E nv0 head done nv) (v : Str) :
    v ∈ Dict.keys nv.inv.versionsD ↔ v ∈ Dict.keys nv0.inv.versionsD := by
  rw [mem_versions_iff, mem_versions_iff]
  by_cases hv : v = head
  · rw [hv, h.versionData.2]
  · rw [h.versionData.1 v hv]

/-- The report on a source directory that was added to a new version is empty exactly if the last
version has the same paths with the same digests. -/
theorem Started.diff {E : Env} {o : Obj} {objdir srcdir : Str} {newAlg : Option Str}
    {fixity : Option (List Str)} {metadata : Option VBlock} {s : FS} (hw : s.WF) {base src : Path} {nv0 nv : NV}
    {inv0 : Inv} {alg : Str} {m : DigestMap} {vs : Dict Str VBlock} {style : Option Nat} {n : Nat} {inv1 : Inv}
    (h : Started E o objdir srcdir newAlg fixity metadata false s base src nv0 inv0 alg m vs style n inv1)
    (hadd : addFromSrcdir E s src nv0 = .ok nv) {r : List NV.DiffOp} (hr : nv.diffWithPrevious = .ok r) :
    r = [] ↔ ∀ d p, SourceLists E s src (newAlg.getD alg) d p ↔ Lists (inv1.stateOf (styleName style n)) d p := by
  obtain ⟨_, type, _, hnv0⟩ := nextVersion_ok h.numbered h.next
  have hnum := h.numbered
  have hhead0 : nv0.inv.head = some (styleName style (n + 1)) := by rw [hnv0]; rfl
  have hst0 : nv0.inv.stateOf (styleName style (n + 1)) = [] := by
    rw [hnv0, stateOf_versionsD]
    show ((Dict.get? (Dict.set inv1.versionsD (styleName style (n + 1)) _) (styleName style (n + 1))).bind _).getD [] = []
    rw [Dict.get?_set, if_pos rfl]
    rfl
  have hk0 : ∀ v, v ∈ Dict.keys nv0.inv.versionsD ↔ v = styleName style (n + 1) ∨ v ∈ Dict.keys inv1.versionsD := by
    intro v
    rw [hnv0]
    show v ∈ Dict.keys (Dict.set inv1.versionsD _ _) ↔ _
    rw [Dict.mem_keys_set]
  have hman : nv0.inv.manifestD = inv1.manifestD := h.kept.1
  have hmk : Dict.NK inv1.manifestD := by
    obtain ⟨_, _, _, h4, h5⟩ := changeDigest_ok h.change
    rw [changeFixity_eq] at h4 h5
    have hg := h.parsed.good
    have hm0 : ({ inv0 with digestAlgorithm := some (newAlg.getD alg), fixity := (changeFixity { inv0 with digestAlgorithm := some (newAlg.getD alg) } alg (newAlg.getD alg) fixity).fixity } : Inv).manifestD = m := by
      exact hg.manifestD
    by_cases he : newAlg.getD alg = alg
    · rw [(h4 he).1]
      exact hm0 ▸ hg.manifestKeys
    · obtain ⟨o2n, h6, _⟩ := h5 he
      have h6 : rehash E s base (newAlg.getD alg) inv0.manifestD [] [] = _ := h6
      rw [hg.manifestD] at h6
      obtain ⟨f, _, _, _, h7, _⟩ := rehash_ok hg.manifestKeys h6
      exact h7
  have hb : Building nv0 (styleName style (n + 1)) := by
    refine ⟨hhead0, ?_, by rw [hst0]; exact Dict.NK_nil, ?_, by rw [hman]; exact hmk⟩
    · rw [← mem_versions_iff, hk0]; exact Or.inl rfl
    · rw [hst0]
      exact List.nodup_nil
  obtain ⟨srcs, hso, ha⟩ := addFromSrcdir_ok hw h.src_dir hb (by
    rw [hnv0]
    exact (changeDigest_ok h.change).2.1) (by rw [hnv0]) hadd
  have halg0 : nv0.inv.digestAlgorithm.getD [] = newAlg.getD alg := by rw [h.algorithm]; rfl
  have hhead : nv.inv.head = some (styleName style (n + 1)) := by rw [ha.head.1, hhead0]
  have hkeys : ∀ v, v ∈ Dict.keys nv.inv.versionsD ↔ ∃ i, 1 ≤ i ∧ i ≤ n + 1 ∧ v = styleName style i := by
    intro v
    rw [ha.keys, hk0, hnum.names]
    constructor
    · rintro (rfl | ⟨i, h1, h2, rfl⟩)
      · exact ⟨n + 1, by omega, Nat.le_refl _, rfl⟩
      · exact ⟨i, h1, by omega, rfl⟩
    · rintro ⟨i, h1, h2, rfl⟩
      by_cases he : i = n + 1
      · exact Or.inl (by rw [he])
      · exact Or.inr ⟨i, h1, by omega, rfl⟩
  -- there is room for the number
  have hlim : n + 1 ≤ styleLimit style := by
    have hvd : ∃ l, nv.inv.versionDirectories = .ok l := by
      unfold NV.diffWithPrevious at hr
      cases hvd : nv.inv.versionDirectories with
      | ok l => exact ⟨l, rfl⟩
      | error e => rw [hvd] at hr; cases hr
    obtain ⟨l, hvd⟩ := hvd
    obtain ⟨hperm, f, hf, _⟩ := versionDirectories_ok hvd
    have hp := hf _ (hperm.mem_iff.mpr ((hkeys _).mpr ⟨n + 1, by omega, Nat.le_refl _, rfl⟩))
    rcases ‹n + 1 ≤ styleLimit style ∨ style = none› with hl | hl
    · exact hl
    · subst hl
      have h1 := hnum.limit
      by_contra hn
      have hn : n + 1 = 100000 := by
        simp only [styleLimit] at h1 hn
        omega
      rw [hn] at hp
      have : parseVersionDirectory (styleName none 100000) = .error .objectException := by decide +kernel
      rw [this] at hp
      cases hp
  have hno : ∀ i, 1 ≤ i → i ≤ n + 1 → VersionNo (styleName style i) i := fun i h1 h2 =>
    (C02_parse_version_directory _ _).mp (parse_styleName hnum.styleOK h1 (by omega))
  obtain ⟨r', hr', hcase⟩ := C15_diff_with_previous nv _ hhead ((hkeys _).mpr ⟨n + 1, by omega, Nat.le_refl _, rfl⟩)
    (by
      intro v hv
      obtain ⟨i, h1, h2, rfl⟩ := (hkeys v).mp hv
      exact ⟨i, hno i h1 h2⟩)
    (by
      intro v hv v' hv' k hk hk'
      obtain ⟨i, h1, h2, rfl⟩ := (hkeys v).mp hv
      obtain ⟨i', h1', h2', rfl⟩ := (hkeys v').mp hv'
      rw [← VersionNo_unique hk (hno i h1 h2), ← VersionNo_unique hk' (hno i' h1' h2')])
  rw [hr] at hr'
  cases hr'
  have hpos := hnum.pos
  have hprev : ∀ prev, IsPrevious nv.inv (styleName style (n + 1)) prev ↔ prev = styleName style n := by
    intro prev
    constructor
    · rintro ⟨h1, ⟨a, b, h2, h3, h4⟩, h5⟩
      obtain ⟨i, k1, k2, rfl⟩ := (hkeys prev).mp h1
      have e1 := VersionNo_unique h2 (hno i k1 k2)
      have e2 := VersionNo_unique h3 (hno (n + 1) (by omega) (Nat.le_refl _))
      have := h5 (styleName style n) ((hkeys _).mpr ⟨n, hpos, by omega, rfl⟩) n (n + 1) i (hno n hpos (by omega))
        (hno (n + 1) (by omega) (Nat.le_refl _)) (hno i k1 k2) (by omega)
      have : i = n := by omega
      rw [this]
    · rintro rfl
      refine ⟨(hkeys _).mpr ⟨n, hpos, by omega, rfl⟩, ⟨n, n + 1, hno n hpos (by omega), hno (n + 1) (by omega) (Nat.le_refl _), by omega⟩, ?_⟩
      intro v hv a b c h1 h2 h3 h4
      have e2 := VersionNo_unique h2 (hno (n + 1) (by omega) (Nat.le_refl _))
      have e3 := VersionNo_unique h3 (hno n hpos (by omega))
      omega
  have hne : styleName style n ≠ styleName style (n + 1) := by
    intro he
    have := styleName_inj he
    omega
  have hsrc : ∀ d p, Lists (nv.inv.stateOf (styleName style (n + 1))) d p ↔ SourceLists E s src (newAlg.getD alg) d p := by
    intro d p
    rw [ha.state, hst0, halg0]
    constructor
    · rintro (h1 | ⟨h1, h2⟩)
      · obtain ⟨ps, hm, _⟩ := h1
        cases hm
      · obtain ⟨r, b, hf, rfl⟩ := (hso.files p).mp h1
        obtain ⟨b', hb', hd⟩ := (srcDigest_iff (fun w hm => look_names hw hf.2 w (by simp [hm]))).mp h2
        exact ⟨r, b', ⟨hf.1, hb'⟩, joinWith_eq_pathOf r, hd⟩
    · rintro ⟨r, b, hf, rfl, hd⟩
      refine Or.inr ⟨(hso.files _).mpr ⟨r, b, hf, (joinWith_eq_pathOf r).symm⟩, ?_⟩
      rw [← joinWith_eq_pathOf]
      exact (srcDigest_iff (fun w hm => look_names hw hf.2 w (by simp [hm]))).mpr ⟨b, hf.2, hd⟩
  rcases hcase with ⟨prev, hp, _, _, hiff⟩ | ⟨hnp, _⟩
  · rw [(hprev prev).mp hp, ha.others hne, h.kept.2.2 _ ((hnum.names _).mpr ⟨n, hpos, Nat.le_refl _, rfl⟩)] at hiff
    rw [hiff]
    constructor
    · intro h1 d p
      rw [← hsrc, h1]
    · intro h1 d p
      rw [hsrc, h1]
  · exact absurd ⟨_, (hprev _).mpr rfl⟩ hnp

end Ocfl
