import Verif.Proofs.KeepStep
import Verif.Props.HistoryLimits
import Verif.Props.RollBackDemo

/-!
# C109: prior versions form an order

`validate_as_prior_version` is used to compare the inventory of each earlier version with the root inventory only. Here we look at it as a
relation between inventories.
-/

namespace Ocfl

open Spec IV V

/-- An inventory that was accepted by itself, with the result of validation that `validate_as_prior_version` uses. -/
structure Checked where
  doc : Json
  res : Result
  alg : Str
  wf : doc.WF
  algorithm : Member doc c!"digestAlgorithm" (.str alg)
  accepted : ∃ isWord lax ds force es, validate isWord lax ds force doc = .ok (res, true, es)

/-- `later.validate_as_prior_version(earlier)` is `True`. -/
def PriorOf (same : Option Json → Option Json → Bool) (later earlier : Checked) : Prop :=
  ∃ ws, validateAsPriorVersion same (later.doc, later.res) (earlier.doc, earlier.res) = .ok (true, ws)

theorem priorOf_iff {same : Option Json → Option Json → Bool} (hsame : ∀ a b : Str, same (some (.str a)) (some (.str b)) = true ↔ a = b)
    {later earlier : Checked} : PriorOf same later earlier ↔ Continues later.doc earlier.doc := by
  obtain ⟨_, _, _, _, _, h⟩ := earlier.accepted
  obtain ⟨_, _, _, _, _, h'⟩ := later.accepted
  exact (C38 hsame earlier.wf later.wf h h' earlier.algorithm later.algorithm).2

/-- The later inventory has a version that the earlier one does not have. -/
theorem continues_more {later earlier : Json} (h : Continues later earlier) : ∃ vs vs' v, Member earlier c!"versions" (.obj vs) ∧
    Member later c!"versions" (.obj vs') ∧ v ∈ vs'.map Prod.fst ∧ v ∉ vs.map Prod.fst ∧ ∀ v ∈ vs.map Prod.fst, v ∈ vs'.map Prod.fst := by
  obtain ⟨m, vs, states, m', vs', states', h1, h2, h3, ⟨v, h4, h5⟩, _⟩ := h
  exact ⟨vs, vs', v, h1.versions, h2.versions, h4, h5, h3⟩

/-- **C109**: no inventory is a prior version of one that it is a prior version of, nor of itself. -/
theorem C109_asymmetric {same : Option Json → Option Json → Bool} (hsame : ∀ a b : Str, same (some (.str a)) (some (.str b)) = true ↔ a = b)
    {x y : Checked} (h : PriorOf same y x) : ¬ PriorOf same x y ∧ x.doc ≠ y.doc := by
  have h := (priorOf_iff hsame).mp h
  obtain ⟨vs, vs', v, h1, h2, h3, h4, h5⟩ := continues_more h
  constructor
  · intro h'
    obtain ⟨us, us', u, k1, k2, k3, k4, k5⟩ := continues_more ((priorOf_iff hsame).mp h')
    cases member_unique y.wf h2 k1
    cases member_unique x.wf h1 k2
    exact k4 (h5 u k3)
  · intro e
    rw [e] at h1
    cases member_unique y.wf h1 h2
    exact h4 h3

/-- **C109** (partial): if an inventory is a prior version of a second, and this of a third, then the first is a prior version of the third. Only
the case that the first and the third have the same digest algorithm and the second another is left out. -/
theorem C109_partial {same : Option Json → Option Json → Bool} (hsame : ∀ a b : Str, same (some (.str a)) (some (.str b)) = true ↔ a = b)
    {x y z : Checked} (halg : x.alg = z.alg → y.alg = x.alg) (hxy : PriorOf same y x) (hyz : PriorOf same z y) : PriorOf same z x := by
  have hxy := (priorOf_iff hsame).mp hxy
  have hyz := (priorOf_iff hsame).mp hyz
  refine (priorOf_iff hsame).mpr ?_
  obtain ⟨m, vs, states, m', vs', states', h1, h2, h3, h4, h5⟩ := hxy
  obtain ⟨m1, vs1, states1, m2, vs2, states2, k1, k2, k3, k4, k5⟩ := hyz
  obtain ⟨rfl, rfl, est⟩ := sameView y.wf h2 k1
  refine ⟨m, vs, states, m2, vs2, states2, h1, k2, fun v hv => k3 v (h3 v hv), ?_, ?_⟩
  · obtain ⟨v, l1, l2⟩ := h4
    exact ⟨v, k3 v l1, l2⟩
  · intro v hv
    obtain ⟨x1, x2, x3⟩ := h5 v hv
    obtain ⟨y1, y2, y3⟩ := k5 v (h3 v hv)
    rw [← est v (h3 v hv)] at y1 y2 y3
    refine ⟨fun p => (x1 p).trans (y1 p), fun p c hr => y2 p c (x2 p c hr), ?_⟩
    intro al hal hal' d
    have e1 := member_str_unique x.wf hal x.algorithm
    have e2 := member_str_unique z.wf hal' z.algorithm
    have e3 := halg (e1.symm.trans e2)
    have hb : Member y.doc c!"digestAlgorithm" (.str al) := by
      have := y.algorithm
      rwa [e3, ← e1] at this
    exact (x3 al hal hb d).trans (y3 al hb hal' d)

/-- **C109** for histories: if each inventory of a series with one digest algorithm is a prior version of the next, then each is a prior version
of all that follow, so that it is enough to compare neighbours. -/
theorem C109_series {same : Option Json → Option Json → Bool} (hsame : ∀ a b : Str, same (some (.str a)) (some (.str b)) = true ↔ a = b)
    {xs : List Checked} {alg : Str} (halg : ∀ x ∈ xs, x.alg = alg) (h : xs.IsChain (fun x y => PriorOf same y x)) :
    xs.Pairwise (fun x y => PriorOf same y x) := by
  induction xs with
  | nil => exact .nil
  | cons x xs ih =>
    have ih := ih (fun y hy => halg y (List.mem_cons_of_mem _ hy)) (by cases h with
      | singleton => exact .nil
      | cons_cons _ h => exact h)
    refine .cons ?_ ih
    cases xs with
    | nil => simp
    | cons y ys =>
      have hxy : PriorOf same y x := by
        cases h with
        | cons_cons h _ => exact h
      intro z hz
      rcases List.mem_cons.mp hz with rfl | hz
      · exact hxy
      · exact C109_partial hsame (fun _ => by rw [halg x (by simp), halg y (by simp)]) hxy (List.rel_of_pairwise_cons ih hz)

/-- **C109** for valid objects: of the inventories that are in the version directories of an object that is reported valid, digests being
checked, the one of an earlier version is a prior version of the one of a later version, although `validate_object` does not compare them. They
must be the inventories of the versions in whose directories they are (see `C108_violated_head`), and have the digest algorithm of the root
inventory. -/
theorem C109_object {E : Env} (hE : Libraries E) {cfg : Validator.Config} (hlax : cfg.lax = false) (hcheck : cfg.checkDigests = true) {s : FS}
    (hw : s.WF) {path : Str} {es : List Entry} (hv : Validator.validateObject E cfg 0 s path = .ok (true, es)) {j0 : Json}
    {vs0 : List (Str × Json)} {head v v' : Str} (hj0 : StoredJson E.lib s (absComps E.cwd path ++ [c!"inventory.json"]) j0)
    (hvs0 : Member j0 c!"versions" (.obj vs0)) (hhead : Member j0 c!"head" (.str head)) (hv0 : v ∈ vs0.map Prod.fst)
    (hv0' : v' ∈ vs0.map Prod.fst) (hne : v ≠ head) (hne' : v' ≠ v) {earlier later : Checked}
    (hj : StoredJson E.lib s (absComps E.cwd path ++ [v, c!"inventory.json"]) later.doc)
    (hj' : StoredJson E.lib s (absComps E.cwd path ++ [v', c!"inventory.json"]) earlier.doc)
    (hh : Member later.doc c!"head" (.str v)) (hh' : Member earlier.doc c!"head" (.str v'))
    (ha : InventoryAlg j0 later.alg) (ha' : earlier.alg = later.alg)
    (hlt : ∃ vs, Member later.doc c!"versions" (.obj vs) ∧ v' ∈ vs.map Prod.fst)
    {same : Option Json → Option Json → Bool} (hsame : ∀ a b : Str, same (some (.str a)) (some (.str b)) = true ↔ a = b) :
    PriorOf same later earlier := by
  obtain ⟨hd, spec0, j1, alg1, cd, m0, vs1, st0, style, n, hr⟩ := (C73 hE hlax hw).mp ⟨es, hv⟩
  rw [hcheck] at hr
  have := storedJson_unique hj0 hr.inventory
  subst this
  have hwf0 := storedJson_wf hE.json hj0
  cases member_unique hwf0 hvs0 hr.rules.versions
  have := Ocfl.member_str_unique hwf0 ha hr.rules.digestAlgorithm.1
  have := Ocfl.member_str_unique hwf0 hhead hr.rules.head
  subst this
  obtain ⟨k, hk, hkn, rfl⟩ := (hr.rules.names.2.2.2 v).mp hv0
  obtain ⟨i, hi, hin, rfl⟩ := (hr.rules.names.2.2.2 v').mp hv0'
  have hkn : k < n := by
    rcases Nat.lt_or_ge k n with h | h
    · exact h
    · have : k = n := by omega
      subst this
      exact absurd rfl hne
  have hl := later.algorithm
  have he := earlier.algorithm
  rw [ha'] at he
  rw [‹later.alg = alg1›] at hl he
  obtain ⟨hp, _, m, vs, st, h⟩ := prior_parts hE hr hk hkn hj hh hl
  have hik : i < k := by
    obtain ⟨us, hu, hm⟩ := hlt
    cases member_unique later.wf hu h.versions
    obtain ⟨x, h1, h2, e⟩ := (h.names.2.2.2 _).mp hm
    rcases Nat.lt_or_ge i k with hlt | hge
    · exact hlt
    · have := styleName_inj e
      have : i = k := by omega
      subst this
      exact absurd rfl hne'
  obtain ⟨hp', _, m', vs', st', h'⟩ := prior_parts hE hr hi (by omega) hj' hh' he
  exact (priorOf_iff hsame).mpr (continues_between hE hw hr hi hik hkn hj hj' h h' hp.history hp'.history)

/-! ## Examples -/

/-- An inventory with the algorithm `alg`, one content file with the digest `d` and `n` versions, each with this file. -/
def sameInv (alg d : Str) (names : List Str) (head : Str) : Json :=
  .obj [(c!"id", .str c!"urn:x"), (c!"type", .str (typeUri c!"1.1")), (c!"digestAlgorithm", .str alg),
    (c!"head", .str head), (c!"manifest", ofDigestMap [(d, [c!"v1/content/a"])]),
    (c!"versions", .obj (names.map (fun v => (v, .obj [(c!"created", .str c!"2024-02-29T10:11:12Z"), (c!"state", ofDigestMap [(d, [c!"a"])])]))))]

theorem sameInv_wf {alg d head : Str} {names : List Str} (h : names.Nodup) : (sameInv alg d names head).WF := by
  unfold sameInv
  refine .obj (by simp only [Dict.NK, List.map_cons, List.map_nil]; decide) ?_
  simp only [List.mem_cons, List.not_mem_nil, or_false, forall_eq_or_imp, forall_eq]
  refine ⟨.str, .str, .str, .str, (digestMap_writable (by simp)).wf, .obj ?_ ?_⟩
  · unfold Dict.NK
    rw [List.map_map]
    simpa [Function.comp_def] using h
  · intro e he
    obtain ⟨x, hx, rfl⟩ := List.mem_map.mp he
    refine .obj (by simp only [Dict.NK, List.map_cons, List.map_nil]; decide) ?_
    simp only [List.mem_cons, List.not_mem_nil, or_false, forall_eq_or_imp, forall_eq]
    exact ⟨.str, (digestMap_writable (by simp)).wf⟩

theorem checked_of {j : Json} (hwf : j.WF) {alg : Str} (ha : Member j c!"digestAlgorithm" (.str alg)) (h : Accepts isWordEx false c!"1.1" none j) :
    ∃ x : Checked, x.doc = j ∧ x.alg = alg := by
  obtain ⟨r, es, h⟩ := h
  exact ⟨⟨j, r, alg, hwf, ha, _, _, _, _, es, h⟩, rfl, rfl⟩

theorem continues_of_verdict {j j' : Json} (hwf : j.WF) (hwf' : j'.WF) (h : priorVerdict j' j = some true) : Continues j' j := by
  unfold priorVerdict at h
  split at h
  · rename_i r' es' r es h1 h2
    obtain ⟨alg, cd, m, vs, states, style, n, hR⟩ := (C37 hwf).mp ⟨r, es, h2⟩
    obtain ⟨alg', cd', m', vs', states', style', n', hR'⟩ := (C37 hwf').mp ⟨r', es', h1⟩
    have hs : ∀ a : Json, AlgRule false a → ∃ x, a = .str x := by
      rintro a (rfl | rfl) <;> exact ⟨_, rfl⟩
    obtain ⟨a, rfl⟩ := hs _ hR.digestAlgorithm.2
    obtain ⟨a', rfl⟩ := hs _ hR'.digestAlgorithm.2
    refine (C38 (same := fun a b => a.bind Json.str? = b.bind Json.str?) (by simp [Json.str?]) hwf hwf' h2 h1
      hR.digestAlgorithm.1 hR'.digestAlgorithm.1).2.mp ?_
    cases hv : validateAsPriorVersion (fun a b => a.bind Json.str? = b.bind Json.str?) (j', r') (j, r) with
    | error e => rw [hv] at h; cases h
    | ok y =>
      obtain ⟨b, ws⟩ := y
      rw [hv] at h
      cases h
      exact ⟨ws, rfl⟩
  · cases h

/-- Three inventories of one object. The digest algorithm is changed and changed back, and after that the content has another digest. -/
def shaInv : Nat → Json
  | 0 => sameInv c!"sha512" (List.replicate 128 'a') [c!"v1"] c!"v1"
  | 1 => sameInv c!"sha256" (List.replicate 64 'a') [c!"v1", c!"v2"] c!"v2"
  | _ => sameInv c!"sha512" (List.replicate 128 'b') [c!"v1", c!"v2", c!"v3"] c!"v3"

/-- **C109** is false of the code: an inventory is a prior version of a second, this of a third, but the first is not one of the third. -/
theorem C109_violated {same : Option Json → Option Json → Bool} (hsame : ∀ a b : Str, same (some (.str a)) (some (.str b)) = true ↔ a = b) :
    ∃ x y z : Checked, PriorOf same y x ∧ PriorOf same z y ∧ ¬ PriorOf same z x := by
  have w0 : (shaInv 0).WF := sameInv_wf (by decide)
  have w1 : (shaInv 1).WF := sameInv_wf (by decide)
  have w2 : (shaInv 2).WF := sameInv_wf (by decide)
  have h01 := continues_of_verdict w0 w1 (by decide +kernel)
  have h12 := continues_of_verdict w1 w2 (by decide +kernel)
  obtain ⟨a0, a2, h02⟩ := not_continues_of w0 w2 (by decide +kernel)
  obtain ⟨x, hx, _⟩ := checked_of (alg := c!"sha512") w0 ⟨_, rfl, by simp⟩ a0
  obtain ⟨y, hy, _⟩ := checked_of (alg := c!"sha256") w1 ⟨_, rfl, by simp⟩ (accepts_of_verdict (by decide +kernel))
  obtain ⟨z, hz, _⟩ := checked_of (alg := c!"sha512") w2 ⟨_, rfl, by simp⟩ a2
  refine ⟨x, y, z, ?_⟩
  rw [priorOf_iff hsame, priorOf_iff hsame, priorOf_iff hsame, hx, hy, hz]
  exact ⟨h01, h12, h02⟩

/-- **C109** on inventories with one, two and three versions: they are a series, so that the first is a prior version of the third. -/
example {same : Option Json → Option Json → Bool} (hsame : ∀ a b : Str, same (some (.str a)) (some (.str b)) = true ↔ a = b) :
    ∃ x y z : Checked, [x, y, z].Pairwise (fun x y => PriorOf same y x) ∧ ¬ PriorOf same x z := by
  have w0 : (shaInv 0).WF := sameInv_wf (by decide)
  have w1 : (sameInv c!"sha512" (List.replicate 128 'a') [c!"v1", c!"v2"] c!"v2").WF := sameInv_wf (by decide)
  have w2 : (sameInv c!"sha512" (List.replicate 128 'a') [c!"v1", c!"v2", c!"v3"] c!"v3").WF := sameInv_wf (by decide)
  have h01 := continues_of_verdict w0 w1 (by decide +kernel)
  have h12 := continues_of_verdict w1 w2 (by decide +kernel)
  obtain ⟨x, hx, ax⟩ := checked_of (alg := c!"sha512") w0 ⟨_, rfl, by simp⟩ (accepts_of_verdict (by decide +kernel))
  obtain ⟨y, hy, ay⟩ := checked_of (alg := c!"sha512") w1 ⟨_, rfl, by simp⟩ (accepts_of_verdict (by decide +kernel))
  obtain ⟨z, hz, az⟩ := checked_of (alg := c!"sha512") w2 ⟨_, rfl, by simp⟩ (accepts_of_verdict (by decide +kernel))
  rw [← hx, ← hy] at h01
  rw [← hy, ← hz] at h12
  have hs : [x, y, z].Pairwise (fun x y => PriorOf same y x) := by
    refine C109_series hsame (alg := c!"sha512") ?_ ?_
    · simp only [List.mem_cons, List.not_mem_nil, or_false, forall_eq_or_imp, forall_eq]
      exact ⟨ax, ay, az⟩
    · exact .cons_cons ((priorOf_iff hsame).mpr h01) (.cons_cons ((priorOf_iff hsame).mpr h12) (.singleton _))
  exact ⟨x, y, z, hs, (C109_asymmetric hsame (List.rel_of_pairwise_cons hs (by simp))).1⟩

/-- The inventory of version `k` of an object with one file. -/
def thirdInv (head : Str) (names : List Str) : Json :=
  stateInv head (names.map (fun v => (v, [(smallDigest, [c!"f"])]))) [(smallDigest, [c!"v1/content/f"])]

/-- An object with three versions, each with its inventory. -/
def threeFS : FS :=
  objectOf [declared, ([c!"inventory.json"], textOf (thirdInv c!"v3" [c!"v1", c!"v2", c!"v3"])),
    ([c!"inventory.json.sha512"], sidecarOf (thirdInv c!"v3" [c!"v1", c!"v2", c!"v3"])), ([c!"v1"], .dir),
    ([c!"v1", c!"inventory.json"], textOf (thirdInv c!"v1" [c!"v1"])),
    ([c!"v1", c!"inventory.json.sha512"], sidecarOf (thirdInv c!"v1" [c!"v1"])),
    ([c!"v1", c!"content"], .dir), ([c!"v1", c!"content", c!"f"], .file [1]), ([c!"v2"], .dir),
    ([c!"v2", c!"inventory.json"], textOf (thirdInv c!"v2" [c!"v1", c!"v2"])),
    ([c!"v2", c!"inventory.json.sha512"], sidecarOf (thirdInv c!"v2" [c!"v1", c!"v2"])), ([c!"v3"], .dir)]

theorem thirdInv_writable {head : Str} {names : List Str} (h : names.Nodup) : (thirdInv head names).Writable := by
  refine stateInv_writable (by simp) ?_ ?_
  · rw [List.map_map]
    simpa [Function.comp_def] using h
  · intro e he
    obtain ⟨v, _, rfl⟩ := List.mem_map.mp he
    simp

theorem thirdInv_checked {head : Str} {names : List Str} (h : names.Nodup) (hv : verdict (thirdInv head names) = some true) :
    ∃ x : Checked, x.doc = thirdInv head names ∧ x.alg = c!"sha512" :=
  checked_of (thirdInv_writable h).wf ⟨_, rfl, by simp⟩ (accepts_of_verdict hv)

/-- **C109** on it. -/
example {same : Option Json → Option Json → Bool} (hsame : ∀ a b : Str, same (some (.str a)) (some (.str b)) = true ↔ a = b) :
    ∃ x y : Checked, StoredJson demoEnv.lib threeFS (absComps demoEnv.cwd c!"obj" ++ [c!"v1", c!"inventory.json"]) x.doc ∧
      StoredJson demoEnv.lib threeFS (absComps demoEnv.cwd c!"obj" ++ [c!"v2", c!"inventory.json"]) y.doc ∧ PriorOf same y x := by
  obtain ⟨x, hx, ax⟩ := thirdInv_checked (head := c!"v1") (names := [c!"v1"]) (by decide) (by decide +kernel)
  obtain ⟨y, hy, ay⟩ := thirdInv_checked (head := c!"v2") (names := [c!"v1", c!"v2"]) (by decide) (by decide +kernel)
  obtain ⟨es, hv⟩ := accepted_object (E := demoEnv) (cfg := {}) (s := threeFS) (path := c!"obj") (by decide +kernel)
  have h1 : StoredJson demoEnv.lib threeFS (absComps demoEnv.cwd c!"obj" ++ [c!"v1", c!"inventory.json"]) x.doc := by
    rw [hx]; exact textOf_stored (thirdInv_writable (by decide)) (by decide +kernel)
  have h2 : StoredJson demoEnv.lib threeFS (absComps demoEnv.cwd c!"obj" ++ [c!"v2", c!"inventory.json"]) y.doc := by
    rw [hy]; exact textOf_stored (thirdInv_writable (by decide)) (by decide +kernel)
  have h0 : StoredJson demoEnv.lib threeFS (absComps demoEnv.cwd c!"obj" ++ [c!"inventory.json"]) (thirdInv c!"v3" [c!"v1", c!"v2", c!"v3"]) :=
    textOf_stored (thirdInv_writable (by decide)) (by decide +kernel)
  refine ⟨x, y, h1, h2, C109_object demoLibraries (cfg := {}) rfl rfl
    ⟨by decide +kernel, by decide +kernel, by decide +kernel, by decide +kernel⟩ hv
    (vs0 := ([c!"v1", c!"v2", c!"v3"] : List Str).map (fun v => stateBlock v [(smallDigest, [c!"f"])])) (head := c!"v3") (v := c!"v2") (v' := c!"v1")
    h0 ⟨_, rfl, by simp⟩ ⟨_, rfl, by simp⟩ (by simp [stateBlock]) (by simp [stateBlock]) (by decide) (by decide) h2 h1 ?_ ?_ ?_ (by rw [ax, ay]) ?_ hsame⟩
  · rw [hy]; exact ⟨_, rfl, by simp⟩
  · rw [hx]; exact ⟨_, rfl, by simp⟩
  · rw [ay]; exact ⟨_, rfl, by simp⟩
  · refine ⟨([c!"v1", c!"v2"] : List Str).map (fun v => stateBlock v [(smallDigest, [c!"f"])]), ?_, by simp [stateBlock]⟩
    rw [hy]; exact ⟨_, rfl, by simp⟩

end Ocfl
