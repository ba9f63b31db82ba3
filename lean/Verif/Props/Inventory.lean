import Verif.Proofs.Inventory
import Verif.Proofs.Normalize

/-! # C03, C15 - C18: inventories -/

namespace Ocfl
open Spec Ocfl.Inv

/-- Successive calls `inv.add_version(metadata=m, state=s, zero_padded_width=w)`. -/
def addVersions (w : Option Nat) : List (Option VBlock × Option DigestMap) → Inv → Py Inv
  | [], inv => .ok inv
  | (m, s) :: rest, inv =>
    match inv.addVersion none m s w with
    | .error e => .error e
    | .ok inv' => addVersions w rest inv'

theorem history_keys (w : Option Nat) (k : Nat) (args : List (Option VBlock × Option DigestMap)) :
    (upTo k).map (styleName w) ++ Dict.keys (history w (k + 1) args) = (upTo (k + args.length)).map (styleName w) := by
  induction args generalizing k with
  | nil => simp [history, Dict.keys]
  | cons a args ih =>
    obtain ⟨m, s⟩ := a
    have := ih (k + 1)
    rw [upTo_succ, List.map_append] at this
    simp only [history, Dict.keys, List.map_cons, List.map_nil, List.append_assoc, List.cons_append,
      List.nil_append, List.length_cons] at this ⊢
    rw [this]
    congr 2
    omega

theorem addVersion_style {inv : Inv} {w : Option Nat} (hw : StyleOK w) {k : Nat} (hk : k + 1 ≤ styleLimit w)
    (hkeys : Dict.keys inv.versionsD = (upTo k).map (styleName w)) (w' : Option Nat) (hw' : k = 0 → w' = w)
    (m : Option VBlock) (s : Option DigestMap) :
    inv.addVersion none m s w' =
      .ok { inv with versions := some (inv.versionsD ++ [(styleName w (k + 1), blockOf m s)])
                     head := some (styleName w (k + 1)) } := by
  unfold addVersion
  simp only
  rw [nextVersionDir_style hw (by omega) hkeys w' hw', if_pos (Or.inl hk)]
  simp only
  have hnot : styleName w (k + 1) ∉ Dict.keys inv.versionsD := by
    rw [hkeys]
    intro hm
    obtain ⟨n, hn, he⟩ := List.mem_map.mp hm
    have := mem_upTo.mp hn
    have := parse_inj_style hw this.1 (by omega) (by omega) hk he
    omega
  rw [Dict.set_of_not_mem _ hnot]
  cases s <;> rfl

theorem addVersions_style {w : Option Nat} (hw : StyleOK w) (args : List (Option VBlock × Option DigestMap)) :
    ∀ (inv : Inv) (k : Nat), k + args.length ≤ styleLimit w →
      Dict.keys inv.versionsD = (upTo k).map (styleName w) → args ≠ [] →
      addVersions w args inv = .ok { inv with versions := some (inv.versionsD ++ history w (k + 1) args)
                                              head := some (styleName w (k + args.length)) } := by
  induction args with
  | nil => intro _ _ _ _ h; exact absurd rfl h
  | cons a args ih =>
    intro inv k hk hkeys _
    obtain ⟨m, s⟩ := a
    simp only [List.length_cons] at hk
    unfold addVersions
    rw [addVersion_style hw (by omega) hkeys w (fun _ => rfl)]
    simp only
    by_cases hne : args = []
    · subst hne
      simp [addVersions, history]
    · rw [ih _ (k + 1) (by omega) ?_ hne]
      · simp only [versionsD, Option.getD_some, history, List.length_cons, List.append_assoc, List.cons_append,
          List.nil_append]
        congr 4
        omega
      · simp only [versionsD, Option.getD_some, Dict.keys, List.map_append]
        have := hkeys
        simp only [versionsD, Dict.keys] at this
        rw [this, upTo_succ, List.map_append]
        rfl

theorem upTo_eq (k : Nat) : upTo k = List.range' 1 k := by
  unfold upTo
  rw [List.range'_eq_map_range]
  congr 1
  funext n
  omega

/-- **C03.** Adding `k` versions to an inventory without versions, in any naming style with room
for them: the versions block is exactly the `k` blocks under the names of versions 1 to `k` in
that style, `head` names version `k`, the version numbers are `1..k`, nothing else changes. -/
theorem C03_add_versions (w : Option Nat) (hw : StyleOK w) (inv : Inv) (hinv : inv.versionsD = [])
    (args : List (Option VBlock × Option DigestMap)) (hne : args ≠ []) (hk : args.length ≤ styleLimit w) :
    ∃ inv', addVersions w args inv = .ok inv' ∧
      inv' = { inv with versions := some (history w 1 args), head := some (styleName w args.length) } ∧
      inv'.versionDirectories = .ok ((List.range' 1 args.length).map (styleName w)) ∧
      inv'.versionNumbers = .ok (List.range' 1 args.length) := by
  have hkeys0 : Dict.keys inv.versionsD = (upTo 0).map (styleName w) := by rw [hinv]; rfl
  have h := addVersions_style hw args inv 0 (by omega) hkeys0 hne
  rw [hinv] at h
  simp only [List.nil_append, Nat.zero_add] at h
  refine ⟨_, h, rfl, ?_, ?_⟩
  · rw [← upTo_eq]
    apply versionDirectories_style hw hk
    have := history_keys w 0 args
    simpa [upTo, versionsD] using this
  · have hvd : ({ inv with versions := some (history w 1 args), head := some (styleName w args.length) } : Inv).versionDirectories
        = .ok ((upTo args.length).map (styleName w)) := by
      apply versionDirectories_style hw hk
      have := history_keys w 0 args
      simpa [upTo, versionsD] using this
    unfold versionNumbers
    rw [hvd, ← upTo_eq]
    simp only
    have : ∀ l : List Nat, (∀ n ∈ l, 0 < n ∧ n ≤ styleLimit w) → parseAll (l.map (styleName w)) = .ok l := by
      intro l
      induction l with
      | nil => intro _; rfl
      | cons n l ih =>
        intro hl
        have hn := hl n (by simp)
        simp only [List.map_cons]
        unfold parseAll
        rw [parse_styleName hw hn.1 hn.2, ih (fun x hx => hl x (List.mem_cons_of_mem _ hx))]
    exact this _ (fun n hn => by have := mem_upTo.mp hn; omega)

/-- Non-vacuity: ten padded versions. -/
example : StyleOK (some 3) ∧ (10 : Nat) ≤ styleLimit (some 3) ∧
    (addVersions (some 3) (List.replicate 10 (none, none)) {}).toOption.bind (·.head) = some c!"v010" := by
  refine ⟨by unfold StyleOK; decide, by decide, by decide⟩

/-- **C03.** The version that would not fit the padding is refused. -/
theorem C03_overflow (w : Nat) (hw : 2 ≤ w ∧ w ≤ 5) (inv : Inv) (hinv : inv.versionsD = [])
    (args : List (Option VBlock × Option DigestMap)) (hk : styleLimit (some w) < args.length) :
    addVersions (some w) args inv = .error .objectException := by
  have hl : 0 < styleLimit (some w) := by
    simp only [styleLimit]
    have : 10 ^ 1 ≤ 10 ^ (w - 1) := Nat.pow_le_pow_right (by decide) (by omega)
    omega
  have happ : ∀ (a b : List (Option VBlock × Option DigestMap)) (inv inv' : Inv),
      addVersions (some w) a inv = .ok inv' → addVersions (some w) (a ++ b) inv = addVersions (some w) b inv' := by
    intro a
    induction a with
    | nil => intro b inv inv' h; simp [addVersions] at h; subst h; rfl
    | cons x a ih =>
      intro b inv inv' h
      obtain ⟨m, s⟩ := x
      simp only [List.cons_append]
      unfold addVersions at h
      conv_lhs => unfold addVersions
      split at h
      · cases h
      · rename_i i hi
        simp only [ih b i inv' h]
  have hsplit := List.take_append_drop (styleLimit (some w)) args
  have htl : (args.take (styleLimit (some w))).length = styleLimit (some w) := by
    rw [List.length_take]; omega
  have htne : args.take (styleLimit (some w)) ≠ [] := by
    intro h; rw [h] at htl; simp at htl; omega
  have h := addVersions_style (w := some w) hw _ inv 0 (by omega) (by rw [hinv]; rfl) htne
  rw [← hsplit, happ _ _ _ _ h]
  cases hd : args.drop (styleLimit (some w)) with
  | nil =>
    have := congrArg List.length hd
    rw [List.length_drop] at this
    simp at this
    omega
  | cons x rest =>
    obtain ⟨m, s⟩ := x
    unfold addVersions addVersion
    simp only
    rw [nextVersionDir_style (w := some w) (k := styleLimit (some w)) hw (Nat.le_refl _) ?_ (some w) (fun _ => rfl),
      if_neg]
    · simp
    · have := history_keys (some w) 0 (args.take (styleLimit (some w)))
      rw [htl] at this
      simp only [versionsD, Option.getD_some]
      rw [show inv.versions.getD [] = inv.versionsD from rfl, hinv]
      simpa [upTo] using this

/-! ## C16 -/

/-- **C16.** For an inventory with well-formed version names, `find_logical_path(p)` returns
nothing exactly when no version contains `p`; otherwise it returns a version `v` that contains `p`
such that no version containing `p` has a higher number, and the first content path the manifest
lists for the digest that `p` has in `v` (none if it lists none). -/
theorem C16_find_logical_path (inv : Inv) (p : Str)
    (hv : ∀ v ∈ Dict.keys inv.versionsD, ∃ n, VersionNo v n) :
    (inv.findLogicalPath p = .ok (none, none) ∧
      ∀ v ∈ Dict.keys inv.versionsD, ∀ d, ¬ Lists (inv.stateOf v) d p) ∨
    (∃ v c, inv.findLogicalPath p = .ok (some v, c) ∧ v ∈ Dict.keys inv.versionsD ∧
      (∃ d, Lists (inv.stateOf v) d p ∧ c = ((Dict.get? inv.manifestD d).getD []).head?) ∧
      ∀ v' ∈ Dict.keys inv.versionsD, ∀ d', Lists (inv.stateOf v') d' p →
        ∀ n n', VersionNo v n → VersionNo v' n' → n' ≤ n) := by
  cases hvd : inv.versionDirectories with
  | error e =>
    obtain ⟨_, k, hk, hp⟩ := versionDirectories_error hvd
    obtain ⟨n, hn⟩ := hv k hk
    rw [(C02_parse_version_directory k n).mpr hn] at hp
    cases hp
  | ok vs =>
    obtain ⟨hperm, f, hf, hsort⟩ := versionDirectories_ok hvd
    unfold findLogicalPath
    rw [hvd]
    simp only
    have hcontains : ∀ v, p ∈ inv.logicalPaths v ↔ ∃ d, Lists (inv.stateOf v) d p := by
      intro v
      have : inv.logicalPaths v = listed (inv.stateOf v) := flatMap_eq_listed _
      rw [this, mem_listed]
    have key : ∀ l : List Str, l.Pairwise (fun a b => f b ≤ f a) →
        (findLoop inv p l = (none, none) ∧ ∀ v ∈ l, p ∉ inv.logicalPaths v) ∨
        (∃ v, findLoop inv p l = (some v, inv.contentPathForLogicalPath v p) ∧ v ∈ l ∧ p ∈ inv.logicalPaths v ∧
          ∀ v' ∈ l, p ∈ inv.logicalPaths v' → f v' ≤ f v) := by
      intro l hl
      induction l with
      | nil => left; exact ⟨rfl, by simp⟩
      | cons a l ih =>
        rw [List.pairwise_cons] at hl
        unfold findLoop
        by_cases ha : p ∈ inv.logicalPaths a
        · right
          refine ⟨a, by rw [if_pos ha], by simp, ha, ?_⟩
          intro v' hv' _
          rcases List.mem_cons.mp hv' with rfl | hv'
          · exact Nat.le_refl _
          · exact hl.1 v' hv'
        · rw [if_neg ha]
          rcases ih hl.2 with ⟨h1, h2⟩ | ⟨v, h1, h2, h3, h4⟩
          · left
            refine ⟨h1, ?_⟩
            intro v hv
            rcases List.mem_cons.mp hv with rfl | hv
            · exact ha
            · exact h2 v hv
          · right
            refine ⟨v, h1, List.mem_cons_of_mem _ h2, h3, ?_⟩
            intro v' hv' hp'
            rcases List.mem_cons.mp hv' with rfl | hv'
            · exact absurd hp' ha
            · exact h4 v' hv' hp'
    rcases key vs.reverse (List.pairwise_reverse.mpr hsort) with ⟨h1, h2⟩ | ⟨v, h1, h2, h3, h4⟩
    · left
      refine ⟨by rw [h1], ?_⟩
      intro v hv d hd
      exact h2 v (List.mem_reverse.mpr (hperm.mem_iff.mpr hv)) ((hcontains v).mpr ⟨d, hd⟩)
    · right
      have hvs : v ∈ vs := List.mem_reverse.mp h2
      refine ⟨v, inv.contentPathForLogicalPath v p, by rw [h1], hperm.mem_iff.mp hvs, ?_, ?_⟩
      · cases hd : digestFor (inv.stateOf v) p with
        | none =>
          exfalso
          rw [digestFor_none] at hd
          apply hd
          rw [mem_listed]
          exact (hcontains v).mp h3
        | some d =>
          refine ⟨d, digestFor_some hd, ?_⟩
          unfold contentPathForLogicalPath digestForLogicalPath
          rw [hd]
          rfl
      · intro v' hv' d' hd' n n' hn hn'
        have e1 : f v = n := by
          have := hf v hvs
          rw [(C02_parse_version_directory v n).mpr hn] at this
          simpa using this.symm
        have hvs' := hperm.mem_iff.mpr hv'
        have e2 : f v' = n' := by
          have := hf v' hvs'
          rw [(C02_parse_version_directory v' n').mpr hn'] at this
          simpa using this.symm
        have := h4 v' (List.mem_reverse.mpr hvs') ((hcontains v').mpr ⟨d', hd'⟩)
        omega

/-- Three versions, the path is in the first and second. -/
def exHist : Inv :=
  { head := some c!"v3"
    manifest := some [(c!"d1", [c!"v1/content/a"]), (c!"d2", [c!"v2/content/a", c!"v2/content/b"])]
    versions := some [(c!"v3", { state := some [(c!"d1", [c!"x"])] }),
                      (c!"v1", { state := some [(c!"d1", [c!"a"])] }),
                      (c!"v2", { state := some [(c!"d2", [c!"a", c!"b"])] })] }

example : (∀ v ∈ Dict.keys exHist.versionsD, ∃ n, VersionNo v n) ∧
    exHist.findLogicalPath c!"a" = .ok (some c!"v2", some c!"v2/content/a") := by
  refine ⟨?_, by decide⟩
  intro v hv
  simp [exHist, versionsD, Dict.keys] at hv
  rcases hv with rfl | rfl | rfl
  · exact ⟨3, (C02_parse_version_directory _ _).mp (by decide)⟩
  · exact ⟨1, (C02_parse_version_directory _ _).mp (by decide)⟩
  · exact ⟨2, (C02_parse_version_directory _ _).mp (by decide)⟩

/-! ## C17 -/

theorem content_fold (m : DigestMap) (f : Dict Str Str) :
    Dict.NK f → Dict.NK (m.foldl (fun files (digest, fs) => fs.foldl (fun files file => Dict.set files file digest) files) f) ∧
    (PathsUnique m → ∀ p d, Dict.get? (m.foldl (fun files (digest, fs) =>
        fs.foldl (fun files file => Dict.set files file digest) files) f) p = some d ↔
        (Lists m d p ∨ (p ∉ listed m ∧ Dict.get? f p = some d))) := by
  induction m generalizing f with
  | nil => intro hf; exact ⟨hf, fun _ p d => by simp [Lists_nil, listed_nil]⟩
  | cons x m ih =>
    obtain ⟨a, ps⟩ := x
    intro hf
    have inner : ∀ (qs : List Str) (g : Dict Str Str), Dict.NK g →
        Dict.NK (qs.foldl (fun files file => Dict.set files file a) g) ∧
        ∀ p, Dict.get? (qs.foldl (fun files file => Dict.set files file a) g) p =
          if p ∈ qs then some a else Dict.get? g p := by
      intro qs
      induction qs with
      | nil => intro g hg; exact ⟨hg, by simp⟩
      | cons q qs ihq =>
        intro g hg
        obtain ⟨h1, h2⟩ := ihq (Dict.set g q a) (Dict.NK_set hg _ _)
        refine ⟨h1, ?_⟩
        intro p
        simp only [List.foldl_cons]
        rw [h2 p, Dict.get?_set]
        by_cases hp : p ∈ qs
        · simp [hp]
        · by_cases hq : q = p
          · subst hq; simp
          · simp [hp, hq, Ne.symm hq]
    obtain ⟨hi1, hi2⟩ := inner ps f hf
    obtain ⟨h1, h2⟩ := ih _ hi1
    refine ⟨h1, ?_⟩
    intro hu p d
    unfold PathsUnique at hu
    rw [listed_cons, List.nodup_append] at hu
    simp only [List.foldl_cons]
    rw [h2 hu.2.1 p d, hi2 p, Lists_cons, listed_cons, List.mem_append]
    by_cases hp : p ∈ ps
    · have hnp : p ∉ listed m := fun h => hu.2.2 p hp p h rfl
      have hnl : ¬ Lists m d p := fun h => hnp (mem_listed.mpr ⟨d, h⟩)
      simp [hp, hnp, hnl, eq_comm]
    · simp [hp]

/-- **C17.** The lookups agree with the manifest: for unique content paths,
`digest_for_content_path` inverts `content_paths_for_digest`, `content_paths` lists each manifest
path once, and the map `content` says the same. -/
theorem C17_content_lookups (inv : Inv) (hk : Dict.NK inv.manifestD) (hu : PathsUnique inv.manifestD) (p d : Str) :
    (inv.digestForContentPath p = some d ↔ p ∈ inv.contentPathsForDigest d) ∧
    (inv.digestForContentPath p = some d ↔ Lists inv.manifestD d p) ∧
    (p ∈ inv.contentPaths ↔ ∃ d, Lists inv.manifestD d p) ∧ inv.contentPaths.Nodup ∧
    (Dict.get? inv.content p = some d ↔ Lists inv.manifestD d p) ∧
    (inv.digestForContentPath p = none ↔ p ∉ inv.contentPaths) ∧
    (inv.contentPathForDigest d = none ↔ ¬ ∃ q, Lists inv.manifestD d q) ∧
    (∀ q, inv.contentPathForDigest d = some q → Lists inv.manifestD d q) := by
  have hcp : inv.contentPaths = listed inv.manifestD := flatMap_eq_listed _
  refine ⟨?_, ?_, ?_, ?_, ?_, ?_, ?_, ?_⟩
  · unfold digestForContentPath contentPathsForDigest
    rw [digestFor_iff hu, Lists_iff_get? hk]
  · exact digestFor_iff hu
  · rw [hcp, mem_listed]
  · rw [hcp]; exact hu
  · unfold content
    rw [(content_fold inv.manifestD [] (by simp [Dict.NK])).2 hu p d]
    simp
  · rw [hcp]; exact digestFor_none
  · unfold contentPathForDigest contentPathsForDigest
    rw [List.head?_eq_none_iff]
    constructor
    · rintro h ⟨q, hq⟩
      rw [Lists_iff_get? hk, h] at hq
      cases hq
    · intro h
      cases hc : (Dict.get? inv.manifestD d).getD [] with
      | nil => rfl
      | cons q qs => exact absurd ⟨q, (Lists_iff_get? hk).mpr (by rw [hc]; simp)⟩ h
  · intro q hq
    unfold contentPathForDigest contentPathsForDigest at hq
    rw [Lists_iff_get? hk]
    exact List.mem_of_mem_head? hq

/-- **C17.** The content path of a logical path is a content path of its digest; and there is one
whenever the path is in the version and its digest has content. -/
theorem C17_content_path_for_logical_path (inv : Inv) (v p : Str) (hk : Dict.NK inv.manifestD)
    (hu : PathsUnique (inv.stateOf v)) :
    (∀ cp, inv.contentPathForLogicalPath v p = some cp →
      ∃ d, inv.digestForLogicalPath v p = some d ∧ Lists (inv.stateOf v) d p ∧ Lists inv.manifestD d cp) ∧
    (inv.contentPathForLogicalPath v p = none ↔
      ∀ d, Lists (inv.stateOf v) d p → ¬ ∃ cp, Lists inv.manifestD d cp) := by
  unfold contentPathForLogicalPath
  cases hd : inv.digestForLogicalPath v p with
  | none =>
    constructor
    · intro cp h; cases h
    simp only [true_iff]
    intro d hl
    exact absurd (mem_listed.mpr ⟨d, hl⟩) (digestFor_none.mp hd)
  | some d =>
    have hl : Lists (inv.stateOf v) d p := digestFor_some hd
    simp only
    unfold contentPathForDigest contentPathsForDigest
    constructor
    · intro cp hcp
      exact ⟨d, rfl, hl, (Lists_iff_get? hk).mpr (List.mem_of_mem_head? hcp)⟩
    · rw [List.head?_eq_none_iff]
      constructor
      · rintro h d' hl' ⟨cp, hcp⟩
        have := Lists_unique hu hl hl'
        subst this
        rw [Lists_iff_get? hk, h] at hcp
        cases hcp
      · intro h
        cases hc : (Dict.get? inv.manifestD d).getD [] with
        | nil => rfl
        | cons q qs => exact absurd ⟨q, (Lists_iff_get? hk).mpr (by rw [hc]; simp)⟩ (h d hl)

example : Dict.NK exHist.manifestD ∧ PathsUnique exHist.manifestD ∧ PathsUnique (exHist.stateOf c!"v2") ∧
    exHist.digestForContentPath c!"v2/content/b" = some c!"d2" ∧
    exHist.contentPathForLogicalPath c!"v2" c!"b" = some c!"v2/content/a" := by
  refine ⟨by unfold Dict.NK; decide, by unfold PathsUnique; decide, by unfold PathsUnique; decide, by decide, by decide⟩

/-! ## C18 -/

/-- **C18.** For an inventory with well-formed version names whose manifest digests are distinct
up to case and whose states use only manifest digests: `normalize_digests` succeeds, keeps for
every version and logical path exactly the same content paths, in the same order, respells every
digest to its normal form, and does nothing the second time. -/
theorem C18_normalize_digests (inv : Inv) (alg : Str)
    (hv : ∀ v ∈ Dict.keys inv.versionsD, ∃ n, VersionNo v n) (hvk : Dict.NK inv.versionsD)
    (hm : Dict.NK inv.manifestD) (hs : ∀ v, Dict.NK (inv.stateOf v))
    (hdist : ∀ d ∈ Dict.keys inv.manifestD, ∀ d' ∈ Dict.keys inv.manifestD,
      normalizedDigest d alg = normalizedDigest d' alg → d = d')
    (hused : ∀ v, ∀ d ∈ Dict.keys (inv.stateOf v), d ∈ Dict.keys inv.manifestD) :
    ∃ inv', inv.normalizeDigests alg = (inv', .ok ()) ∧
      (∀ v d p, Lists (inv'.stateOf v) d p ↔ ∃ d0, Lists (inv.stateOf v) d0 p ∧ d = normalizedDigest d0 alg) ∧
      (∀ d0 ∈ Dict.keys inv.manifestD,
        Dict.get? inv'.manifestD (normalizedDigest d0 alg) = Dict.get? inv.manifestD d0) ∧
      (∀ v p cp, (∃ d, Lists (inv'.stateOf v) d p ∧ Lists inv'.manifestD d cp) ↔
        (∃ d, Lists (inv.stateOf v) d p ∧ Lists inv.manifestD d cp)) ∧
      (∀ d ∈ Dict.keys inv'.manifestD, normalizedDigest d alg = d) ∧
      (∀ v, ∀ d ∈ Dict.keys (inv'.stateOf v), normalizedDigest d alg = d) ∧
      Dict.keys inv'.versionsD = Dict.keys inv.versionsD ∧
      inv'.normalizeDigests alg = (inv', .ok ()) := by
  have hsdist : ∀ v, DistinctUpToCase alg (inv.stateOf v) :=
    fun v k hk k' hk' e => hdist k (hused v k hk) k' (hused v k' hk') e
  cases hvd : inv.versionDirectories with
  | error e =>
    obtain ⟨_, k, hk, hp⟩ := versionDirectories_error hvd
    obtain ⟨n, hn⟩ := hv k hk
    rw [(C02_parse_version_directory k n).mpr hn] at hp
    cases hp
  | ok vs =>
    have heq : inv.normalizeDigests alg = ({ inv with
        manifest := inv.manifest.map (normalizeMap alg)
        versions := inv.versions.map (fun vs =>
          vs.map (fun p => (p.1, { p.2 with state := p.2.state.map (normalizeMap alg) }))) }, .ok ()) := by
      unfold normalizeDigests; rw [hvd]
    refine ⟨_, heq, ?_⟩
    generalize hinv' : ({ inv with
        manifest := inv.manifest.map (normalizeMap alg)
        versions := inv.versions.map (fun vs =>
          vs.map (fun p => (p.1, { p.2 with state := p.2.state.map (normalizeMap alg) }))) } : Inv) = inv'
    have hman : inv'.manifestD = normalizeMap alg inv.manifestD := by
      subst hinv'
      simp only [manifestD]
      cases inv.manifest with
      | none => simp [normalizeMap, fromTo, applyFromTo, Dict.keys]
      | some m => rfl
    have hver : inv'.versionsD = inv.versionsD.map (fun p => (p.1, { p.2 with state := p.2.state.map (normalizeMap alg) })) := by
      subst hinv'
      simp only [versionsD]
      cases inv.versions with
      | none => rfl
      | some m => rfl
    have hst : ∀ v, inv'.stateOf v = normalizeMap alg (inv.stateOf v) := by
      intro v
      unfold stateOf versionData
      rw [hver]
      have hg := Dict.get?_map_val inv.versionsD (fun b : VBlock => { b with state := b.state.map (normalizeMap alg) }) v
      simp only at hg ⊢
      rw [hg]
      cases Dict.get? inv.versionsD v with
      | none => simp [normalizeMap, fromTo, applyFromTo, Dict.keys]
      | some b =>
        simp only [Option.map_some]
        cases b.state with
        | none => simp [normalizeMap, fromTo, applyFromTo, Dict.keys]
        | some st => rfl
    have hL : ∀ v d p, Lists (inv'.stateOf v) d p ↔ ∃ d0, Lists (inv.stateOf v) d0 p ∧ d = normalizedDigest d0 alg := by
      intro v d p
      rw [hst v]
      exact Lists_normalizeMap (hs v) (hsdist v)
    have hML : ∀ d p, Lists inv'.manifestD d p ↔ ∃ d0, Lists inv.manifestD d0 p ∧ d = normalizedDigest d0 alg := by
      intro d p
      rw [hman]
      exact Lists_normalizeMap hm hdist
    have hkeys : Dict.keys inv'.versionsD = Dict.keys inv.versionsD := by
      rw [hver]; exact Dict.keys_map_val _ _
    have hmn : ∀ d ∈ Dict.keys inv'.manifestD, normalizedDigest d alg = d := by
      rw [hman]; exact normalizeMap_normal hm hdist
    have hsn : ∀ v, ∀ d ∈ Dict.keys (inv'.stateOf v), normalizedDigest d alg = d := by
      intro v; rw [hst v]; exact normalizeMap_normal (hs v) (hsdist v)
    refine ⟨hL, ?_, ?_, hmn, hsn, hkeys, ?_⟩
    · rw [hman]; exact (normalizeMap_spec hm hdist).2.1
    · intro v p cp
      constructor
      · rintro ⟨d, h1, h2⟩
        obtain ⟨d1, h1, e1⟩ := (hL v d p).mp h1
        obtain ⟨d2, h2, e2⟩ := (hML d cp).mp h2
        have hk1 : d1 ∈ Dict.keys inv.manifestD := by
          obtain ⟨ps, hps, _⟩ := h1
          exact hused v d1 (Dict.mem_keys_of_mem hps)
        have hk2 : d2 ∈ Dict.keys inv.manifestD := by
          obtain ⟨ps, hps, _⟩ := h2
          exact Dict.mem_keys_of_mem hps
        have := hdist d1 hk1 d2 hk2 (by rw [← e1, ← e2])
        subst this
        exact ⟨d1, h1, h2⟩
      · rintro ⟨d, h1, h2⟩
        exact ⟨normalizedDigest d alg, (hL v _ p).mpr ⟨d, h1, rfl⟩, (hML _ cp).mpr ⟨d, h2, rfl⟩⟩
    · have hvd' : inv'.versionDirectories = .ok vs := by
        rw [← hvd]; unfold versionDirectories; rw [hkeys]
      unfold normalizeDigests
      rw [hvd']
      simp only [Prod.mk.injEq, and_true]
      have e1 : inv'.manifest.map (normalizeMap alg) = inv'.manifest := by
        cases hmm : inv'.manifest with
        | none => rfl
        | some m =>
          simp only [Option.map_some, Option.some.injEq]
          apply normalizeMap_of_normal
          intro k hk
          apply hmn
          simp [manifestD, hmm]; exact hk
      have e2 : inv'.versions.map (fun vs =>
          vs.map (fun p => (p.1, { p.2 with state := p.2.state.map (normalizeMap alg) }))) = inv'.versions := by
        cases hvv : inv'.versions with
        | none => rfl
        | some ws =>
          simp only [Option.map_some, Option.some.injEq]
          conv_rhs => rw [← List.map_id ws]
          apply List.map_congr_left
          intro x hx
          obtain ⟨v, b⟩ := x
          simp only [id_eq, Prod.mk.injEq, true_and]
          cases hb : b.state with
          | none => rw [← hb]; cases b; simp at hb; simp [hb]
          | some st =>
            have hvb : inv'.stateOf v = st := by
              have hnk : Dict.NK inv'.versionsD := by
                unfold Dict.NK; unfold Dict.keys at hkeys; rw [hkeys]; exact hvk
              have : Dict.get? inv'.versionsD v = some b :=
                Dict.get?_of_mem hnk (by simp only [versionsD, hvv, Option.getD_some]; exact hx)
              unfold stateOf versionData
              rw [this]
              simp [hb]
            have : normalizeMap alg st = st := by
              apply normalizeMap_of_normal
              have := hsn v
              rw [hvb] at this
              exact this
            simp only [Option.map_some, this]
            cases b
            simp at hb
            simp [hb]
      rw [e1, e2]

/-- An inventory with digests in mixed case. -/
def exMixed : Inv :=
  { head := some c!"v1"
    manifest := some [(c!"aB", [c!"v1/content/a"]), (c!"cd", [c!"v1/content/c"])]
    versions := some [(c!"v1", { state := some [(c!"aB", [c!"a"]), (c!"cd", [c!"c"])] })] }

example : (exMixed.normalizeDigests c!"sha512").1 =
    { head := some c!"v1"
      manifest := some [(c!"cd", [c!"v1/content/c"]), (c!"ab", [c!"v1/content/a"])]
      versions := some [(c!"v1", { state := some [(c!"cd", [c!"c"]), (c!"ab", [c!"a"])] })] } ∧
    (∀ d ∈ Dict.keys exMixed.manifestD, ∀ d' ∈ Dict.keys exMixed.manifestD,
      normalizedDigest d c!"sha512" = normalizedDigest d' c!"sha512" → d = d') ∧
    (∀ v ∈ Dict.keys exMixed.versionsD, ∃ n, VersionNo v n) := by
  refine ⟨by decide, by decide, ?_⟩
  intro v hv
  simp [exMixed, versionsD, Dict.keys] at hv
  subst hv
  exact ⟨1, (C02_parse_version_directory _ _).mp (by decide)⟩

/-- The distinctness hypothesis is needed: two spellings of one digest make the code lose the
content paths of one of them. -/
theorem C18_needs_distinct :
    (({ manifest := some [(c!"AB", [c!"v1/content/a"]), (c!"ab", [c!"v1/content/b"])] } : Inv).normalizeDigests c!"sha512").1.manifestD
      = [(c!"ab", [c!"v1/content/a"])] := by decide

/-! ## C15 -/

/-- `prev` is the version before `head`: the one with the highest number below `head`'s. -/
def IsPrevious (inv : Inv) (head prev : Str) : Prop :=
  prev ∈ Dict.keys inv.versionsD ∧ (∃ n m, VersionNo prev n ∧ VersionNo head m ∧ n < m) ∧
  ∀ v ∈ Dict.keys inv.versionsD, ∀ n m k, VersionNo v n → VersionNo head m → VersionNo prev k → n < m → n ≤ k

theorem mem_flatten {st : DigestMap} {d p : Str} : (d, p) ∈ NV.flatten st ↔ Lists st d p := by
  unfold NV.flatten Lists
  rw [List.mem_flatMap]
  constructor
  · rintro ⟨⟨d', ps⟩, h1, h2⟩
    simp only [List.mem_map, Prod.mk.injEq] at h2
    obtain ⟨q, hq, rfl, rfl⟩ := h2
    exact ⟨ps, h1, hq⟩
  · rintro ⟨ps, h1, h2⟩
    exact ⟨(d, ps), h1, by simpa using h2⟩

theorem VersionNo_unique {v : Str} {n m : Nat} (h : VersionNo v n) (h' : VersionNo v m) : n = m := by
  have h1 := (C02_parse_version_directory v n).mpr h
  have h2 := (C02_parse_version_directory v m).mpr h'
  rw [h1] at h2
  simpa using h2

/-- Previous element in a list. -/
theorem prevVersion_spec {head : Str} (l : List Str) :
    ∀ p0, head ∈ l → ∃ a b, l = a ++ head :: b ∧ head ∉ a ∧
      NV.prevVersion (some head) l p0 = (a.getLast?).or p0 := by
  induction l with
  | nil => intro p0 h; cases h
  | cons x l ih =>
    intro p0 h
    unfold NV.prevVersion
    by_cases hx : x = head
    · subst hx
      exact ⟨[], l, rfl, by simp, by simp⟩
    · rw [if_neg (by simpa using hx)]
      obtain ⟨a, b, h1, h2, h3⟩ := ih (some x) (by
        rcases List.mem_cons.mp h with e | e
        · exact absurd e.symm hx
        · exact e)
      refine ⟨x :: a, b, by rw [h1]; rfl, ?_, ?_⟩
      · simp only [List.mem_cons, not_or]; exact ⟨fun e => hx e.symm, h2⟩
      · rw [h3]
        cases a with
        | nil => simp
        | cons y a =>
          rw [List.getLast?_cons_cons, List.getLast?_eq_getLast_of_ne_nil (by simp)]
          rfl

/-- **C15.** For an inventory whose version names are well formed with distinct numbers and whose
head is one of them, `diff_with_previous` succeeds. If there is a previous version, the report
contains an addition exactly for each (digest, path) of the new state that the previous state does
not have and a deletion exactly for each (digest, path) of the previous state that the new one
does not have; without a previous version it is the list of all files. The report is empty exactly
when both states have the same paths with the same digests. -/
theorem C15_diff_with_previous (nv : NV) (head : Str) (hhead : nv.inv.head = some head)
    (hin : head ∈ Dict.keys nv.inv.versionsD)
    (hv : ∀ v ∈ Dict.keys nv.inv.versionsD, ∃ n, VersionNo v n)
    (hdist : ∀ v ∈ Dict.keys nv.inv.versionsD, ∀ v' ∈ Dict.keys nv.inv.versionsD, ∀ n,
      VersionNo v n → VersionNo v' n → v = v') :
    ∃ r, nv.diffWithPrevious = .ok r ∧
      ((∃ prev, IsPrevious nv.inv head prev ∧
        (∀ d p, .added d p ∈ r ↔ Lists (nv.inv.stateOf head) d p ∧ ¬ Lists (nv.inv.stateOf prev) d p) ∧
        (∀ d p, .deleted d p ∈ r ↔ Lists (nv.inv.stateOf prev) d p ∧ ¬ Lists (nv.inv.stateOf head) d p) ∧
        (r = [] ↔ ∀ d p, Lists (nv.inv.stateOf head) d p ↔ Lists (nv.inv.stateOf prev) d p)) ∨
       ((¬ ∃ prev, IsPrevious nv.inv head prev) ∧
        (∀ d p, .added d p ∈ r ↔ Lists (nv.inv.stateOf head) d p) ∧
        (∀ d p, .deleted d p ∉ r) ∧
        (r = [] ↔ ∀ d p, ¬ Lists (nv.inv.stateOf head) d p))) := by
  cases hvd : nv.inv.versionDirectories with
  | error e =>
    obtain ⟨_, k, hk, hp⟩ := versionDirectories_error hvd
    obtain ⟨n, hn⟩ := hv k hk
    rw [(C02_parse_version_directory k n).mpr hn] at hp
    cases hp
  | ok vs =>
    obtain ⟨hperm, f, hf, hsort⟩ := versionDirectories_ok hvd
    have hfn : ∀ v ∈ vs, VersionNo v (f v) := fun v hvs => (C02_parse_version_directory v (f v)).mp (hf v hvs)
    have hhv : head ∈ vs := hperm.mem_iff.mpr hin
    obtain ⟨a, b, hab, hna, hprev⟩ := prevVersion_spec vs none hhv
    have hlt : ∀ x ∈ a, f x < f head := by
      intro x hx
      have hle : f x ≤ f head := by
        rw [hab, List.pairwise_append] at hsort
        exact hsort.2.2 x hx head (by simp)
      have hxv : x ∈ vs := by rw [hab]; exact List.mem_append_left _ hx
      rcases Nat.lt_or_eq_of_le hle with h | h
      · exact h
      · exfalso
        have := hdist x (hperm.mem_iff.mp hxv) head hin (f head) (by rw [← h]; exact hfn x hxv) (hfn head hhv)
        subst this
        exact hna hx
    have hge : ∀ x ∈ vs, f x < f head → x ∈ a := by
      intro x hx hl
      rw [hab] at hx
      rcases List.mem_append.mp hx with h | h
      · exact h
      · exfalso
        rcases List.mem_cons.mp h with rfl | h
        · omega
        · rw [hab, List.pairwise_append, List.pairwise_cons] at hsort
          have := hsort.2.1.1 x h
          omega
    have hempty : ∀ (S T : List (Str × Str)) , ((S.filter (fun p => p ∉ T)).map (fun p => NV.DiffOp.added p.1 p.2) ++
        (T.filter (fun p => p ∉ S)).map (fun p => NV.DiffOp.deleted p.1 p.2) = []) ↔ ∀ d p, (d, p) ∈ S ↔ (d, p) ∈ T := by
      intro S T
      simp only [List.append_eq_nil_iff, List.map_eq_nil_iff, List.filter_eq_nil_iff]
      constructor
      · rintro ⟨h1, h2⟩ d p
        constructor
        · intro h; simpa using h1 _ h
        · intro h; simpa using h2 _ h
      · intro h
        refine ⟨?_, ?_⟩
        · rintro ⟨d, p⟩ hm; simpa using (h d p).mp hm
        · rintro ⟨d, p⟩ hm; simpa using (h d p).mpr hm
    unfold NV.diffWithPrevious
    rw [hvd, hhead]
    simp only
    rw [hprev]
    cases hl : a.getLast? with
    | none =>
      have ha : a = [] := by simpa using hl
      simp only [Option.or_none]
      refine ⟨_, rfl, Or.inr ⟨?_, ?_, ?_, ?_⟩⟩
      · rintro ⟨prev, hp, ⟨n, m, h1, h2, h3⟩, _⟩
        have hpv := hperm.mem_iff.mpr hp
        have e1 := VersionNo_unique h1 (hfn prev hpv)
        have e2 := VersionNo_unique h2 (hfn head hhv)
        have := hge prev hpv (by omega)
        rw [ha] at this
        cases this
      · intro d p
        rw [List.mem_map]
        constructor
        · rintro ⟨⟨d', p'⟩, h1, h2⟩
          simp at h2
          obtain ⟨rfl, rfl⟩ := h2
          exact mem_flatten.mp h1
        · intro h
          exact ⟨(d, p), mem_flatten.mpr h, rfl⟩
      · intro d p h
        rw [List.mem_map] at h
        obtain ⟨_, _, h2⟩ := h
        cases h2
      · rw [List.map_eq_nil_iff, List.eq_nil_iff_forall_not_mem]
        constructor
        · intro h d p hl; exact h (d, p) (mem_flatten.mpr hl)
        · rintro h ⟨d, p⟩ hm; exact h d p (mem_flatten.mp hm)
    | some prev =>
      have hpa : prev ∈ a := List.mem_of_getLast? hl
      have hpv : prev ∈ vs := by rw [hab]; exact List.mem_append_left _ hpa
      have hpne : prev ≠ [] := by
        rintro rfl
        obtain ⟨ds, hs, _⟩ := hfn [] hpv
        rcases hs.2.2.2 with h | h <;> simp at h
      simp only [Option.some_or, hpne, if_false]
      refine ⟨_, rfl, Or.inl ⟨prev, ?_, ?_, ?_, ?_⟩⟩
      · refine ⟨hperm.mem_iff.mp hpv, ⟨f prev, f head, hfn prev hpv, hfn head hhv, hlt prev hpa⟩, ?_⟩
        intro v hvk n m k h1 h2 h3 h4
        have hvv := hperm.mem_iff.mpr hvk
        have e1 := VersionNo_unique h1 (hfn v hvv)
        have e2 := VersionNo_unique h2 (hfn head hhv)
        have e3 := VersionNo_unique h3 (hfn prev hpv)
        have hva := hge v hvv (by omega)
        obtain ⟨init, hinit⟩ : ∃ init, a = init ++ [prev] := by
          refine ⟨a.dropLast, ?_⟩
          have hane : a ≠ [] := by rintro rfl; simp at hl
          rw [List.getLast?_eq_getLast_of_ne_nil hane] at hl
          simp only [Option.some.injEq] at hl
          rw [← hl, List.dropLast_concat_getLast]
        have hs2 : a.Pairwise (fun x y => f x ≤ f y) := by
          rw [hab, List.pairwise_append] at hsort; exact hsort.1
        rw [hinit, List.pairwise_append] at hs2
        rw [hinit] at hva
        rcases List.mem_append.mp hva with h | h
        · have := hs2.2.2 v h prev (by simp); omega
        · simp at h; subst h; omega
      · intro d p
        rw [List.mem_append, List.mem_map, List.mem_map]
        constructor
        · rintro (⟨⟨d', p'⟩, h1, h2⟩ | ⟨_, _, h2⟩)
          · simp at h2
            obtain ⟨rfl, rfl⟩ := h2
            rw [List.mem_filter] at h1
            refine ⟨mem_flatten.mp h1.1, ?_⟩
            intro hc
            have := h1.2
            simp at this
            exact this (mem_flatten.mpr hc)
          · cases h2
        · rintro ⟨h1, h2⟩
          left
          refine ⟨(d, p), ?_, rfl⟩
          rw [List.mem_filter]
          refine ⟨mem_flatten.mpr h1, ?_⟩
          simp
          exact fun hc => h2 (mem_flatten.mp hc)
      · intro d p
        rw [List.mem_append, List.mem_map, List.mem_map]
        constructor
        · rintro (⟨_, _, h2⟩ | ⟨⟨d', p'⟩, h1, h2⟩)
          · cases h2
          · simp at h2
            obtain ⟨rfl, rfl⟩ := h2
            rw [List.mem_filter] at h1
            refine ⟨mem_flatten.mp h1.1, ?_⟩
            intro hc
            have := h1.2
            simp at this
            exact this (mem_flatten.mpr hc)
        · rintro ⟨h1, h2⟩
          right
          refine ⟨(d, p), ?_, rfl⟩
          rw [List.mem_filter]
          refine ⟨mem_flatten.mpr h1, ?_⟩
          simp
          exact fun hc => h2 (mem_flatten.mp hc)
      · rw [hempty]
        simp only [mem_flatten]

/-- Non-vacuity: three versions, a rename and a changed file. -/
example : exHist.head = some c!"v3" ∧ c!"v3" ∈ Dict.keys exHist.versionsD ∧
    NV.diffWithPrevious { inv := exHist } = .ok [.added c!"d1" c!"x", .deleted c!"d2" c!"a", .deleted c!"d2" c!"b"] :=
  ⟨by decide, by decide, by decide⟩

end Ocfl
