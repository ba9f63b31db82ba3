import Verif.Spec.RollBack
import Verif.Props.ObjectValidation
import Verif.Props.ValidExtract

/-!
# C108: an earlier version of a valid object is a valid object
-/

namespace Ocfl

open Spec FS Validator

theorem style_head {x a : Nat} (h2 : 2 ≤ x) (h : a ≤ validatorLimit (some x)) : (padStr x a).head? = some '0' := by
  have hl : (natStr a).length ≤ x - 1 := by
    rw [natStr_length_le_iff (by omega)]
    have : 0 < 10 ^ (x - 1) := Nat.pow_pos (by decide)
    simp only [validatorLimit] at h
    omega
  unfold padStr
  obtain ⟨k, hk⟩ : ∃ k, x - (natStr a).length = k + 1 := ⟨x - (natStr a).length - 1, by omega⟩
  rw [hk]
  rfl

/-- The name of a version shows the style. -/
theorem style_unique {w w' : Option Nat} (h : ∀ x, w = some x → 2 ≤ x) (h' : ∀ x, w' = some x → 2 ≤ x) {a b : Nat} (ha : 1 ≤ a) (hb : 1 ≤ b)
    (ha' : a ≤ validatorLimit w) (hb' : b ≤ validatorLimit w') (e : styleName w a = styleName w' b) : w = w' ∧ a = b := by
  have hw : w = w' := by
    cases w with
    | none =>
      cases w' with
      | none => rfl
      | some y =>
        simp only [styleName, unpaddedName_eq, paddedName_eq, List.cons.injEq, true_and] at e
        have := natStr_head_ne_zero (n := a) (by omega)
        rw [e, style_head (h' y rfl) hb'] at this
        exact absurd rfl this
    | some x =>
      cases w' with
      | none =>
        simp only [styleName, unpaddedName_eq, paddedName_eq, List.cons.injEq, true_and] at e
        have := natStr_head_ne_zero (n := b) (by omega)
        rw [← e, style_head (h x rfl) ha'] at this
        exact absurd rfl this
      | some y =>
        simp only [styleName, paddedName_eq, List.cons.injEq, true_and] at e
        have hl : ∀ {z c : Nat}, 2 ≤ z → c ≤ validatorLimit (some z) → (padStr z c).length = z := by
          intro z c hz hc
          refine padStr_length ?_
          have : (natStr c).length ≤ z - 1 := by
            rw [natStr_length_le_iff (by omega)]
            have : 0 < 10 ^ (z - 1) := Nat.pow_pos (by decide)
            simp only [validatorLimit] at hc
            omega
          omega
        have := congrArg List.length e
        rw [hl (h x rfl) ha', hl (h' y rfl) hb'] at this
        rw [this]
  subst hw
  exact ⟨rfl, styleName_inj e⟩

theorem digestIs_unique {E : Env} {s : FS} {p : Path} {alg d d' : Str} (h : DigestIs E s p alg d) (h' : DigestIs E s p alg d') :
    SameDigest alg d d' := by
  obtain ⟨b, x, h1, h2, h3⟩ := h
  obtain ⟨b', x', h1', h2', h3'⟩ := h'
  rw [h1] at h1'
  cases h1'
  rw [h2] at h2'
  cases h2'
  rw [sameDigest_iff] at *
  exact h3.symm.trans h3'

theorem same_key {alg : Str} {m : List (Str × List Str)} (h : m.Pairwise (fun a b => ¬ SameDigest alg a.1 b.1)) {d d' : Str}
    {ps ps' : List Str} (h1 : (d, ps) ∈ m) (h2 : (d', ps') ∈ m) (hs : SameDigest alg d d') : d = d' := by
  induction m with
  | nil => cases h1
  | cons x l ih =>
    obtain ⟨hx, hl⟩ := List.pairwise_cons.mp h
    rcases List.mem_cons.mp h1 with rfl | h3 <;> rcases List.mem_cons.mp h2 with e | h2
    · exact (Prod.mk.inj e).1.symm
    · exact absurd hs (hx _ h2)
    · subst e
      exact (hx (d, ps) h3 (sameDigest_symm hs)).elim
    · exact ih hl h3 h2

/-- The parts of an accepted inventory. -/
theorem rules_view {lax : Bool} {force : Option Str} {j alg : Json} {cd : Str} {m : List (Str × List Str)} {vs : List (Str × Json)}
    {states : Str → List (Str × List Str)} {style : Option Nat} {n : Nat} (h : RulesWith lax force j alg cd m vs states style n) :
    View j m vs states := ⟨h.manifest, h.versions, fun v b hvb => (h.versionRules v b hvb).state⟩

/-- What `Continues` says of the parts of two inventories. -/
theorem continues_parts {later earlier : Json} (hwf : earlier.WF) (hwf' : later.WF) {m m' : List (Str × List Str)} {vs vs' : List (Str × Json)}
    {st st' : Str → List (Str × List Str)} (h : Continues later earlier) (hv : View earlier m vs st) (hv' : View later m' vs' st') :
    (∀ v ∈ vs.map Prod.fst, v ∈ vs'.map Prod.fst) ∧
    ∀ v ∈ vs.map Prod.fst, (∀ p, p ∈ listed (st v) ↔ p ∈ listed (st' v)) ∧
      (∀ p c, Resolves m (st v) p c → Resolves m' (st' v) p c) ∧
      (∀ a, Member earlier c!"digestAlgorithm" (.str a) → Member later c!"digestAlgorithm" (.str a) →
        ∀ d, d ∈ (st v).map Prod.fst ↔ d ∈ (st' v).map Prod.fst) := by
  obtain ⟨m1, vs1, st1, m2, vs2, st2, h1, h2, h3, _, h5⟩ := h
  obtain ⟨rfl, rfl, e1⟩ := sameView hwf hv h1
  obtain ⟨rfl, rfl, e2⟩ := sameView hwf' hv' h2
  refine ⟨h3, fun v hm => ?_⟩
  rw [e1 v hm, e2 v (h3 v hm)]
  exact h5 v hm

section
variable {E : Env} {s : FS} {base : Path} {spec0 : Str} {j0 : Json} {alg cd : Str} {m0 : List (Str × List Str)} {vs0 : List (Str × Json)}
  {st0 : Str → List (Str × List Str)} {style : Option Nat} {n : Nat}

/-- The inventory in the directory of the version `k` is that of this version. -/
theorem prior_parts (hE : Libraries E) (hr : ObjectRules E true s base spec0 j0 alg cd m0 vs0 st0 style n) {k : Nat} (hk : 1 ≤ k) (hkn : k < n)
    {j : Json} (hj : StoredJson E.lib s (base ++ [styleName style k, c!"inventory.json"]) j) (hh : Member j c!"head" (.str (styleName style k)))
    (ha : InventoryAlg j alg) :
    PriorRules E true s (base ++ [styleName style k]) j0 cd j ∧ Sidecar E true s (base ++ [styleName style k]) alg ∧
      ∃ m vs st, RulesWith false none j (.str alg) cd m vs st style k := by
  obtain ⟨b, t, hb, _, _⟩ := id hj
  obtain ⟨j', hj', hp⟩ := hr.priorInventory k hk hkn (by rw [hb]; simp)
  have := storedJson_unique hj hj'
  subst this
  obtain ⟨alg', m, vs, st, style', n', hrl, hs⟩ := id hp.rules
  have hwf := storedJson_wf hE.json hj
  have := Ocfl.member_str_unique hwf hrl.digestAlgorithm.1 ha
  subst this
  have := Ocfl.member_str_unique hwf hrl.head hh
  obtain ⟨rfl, rfl⟩ := style_unique (fun x hx => (hrl.names.1 x hx).1) (fun x hx => (hr.rules.names.1 x hx).1) hrl.names.2.1 hk hrl.names.2.2.1
    (by have := hr.rules.names.2.2.1; omega) this
  exact ⟨hp, hs, m, vs, st, hrl⟩

/-- The inventory of a version continues those of the versions before. -/
theorem continues_between (hE : Libraries E) (hw : s.WF) (hr : ObjectRules E true s base spec0 j0 alg cd m0 vs0 st0 style n) {i k : Nat}
    (hi : 1 ≤ i) (hik : i < k) (hkn : k < n) {j j' : Json} (hj : StoredJson E.lib s (base ++ [styleName style k, c!"inventory.json"]) j)
    (hj' : StoredJson E.lib s (base ++ [styleName style i, c!"inventory.json"]) j') {m m' : List (Str × List Str)} {vs vs' : List (Str × Json)}
    {st st' : Str → List (Str × List Str)} (h : RulesWith false none j (.str alg) cd m vs st style k)
    (h' : RulesWith false none j' (.str alg) cd m' vs' st' style i) (hc : Continues j0 j) (hc' : Continues j0 j') : Continues j j' := by
  have hwf0 := storedJson_wf hE.json hr.inventory
  obtain ⟨b1, b2⟩ := continues_parts (storedJson_wf hE.json hj) hwf0 hc (rules_view h) (rules_view hr.rules)
  obtain ⟨a1, a2⟩ := continues_parts (storedJson_wf hE.json hj') hwf0 hc' (rules_view h') (rules_view hr.rules)
  have hsub : ∀ v ∈ vs'.map Prod.fst, v ∈ vs.map Prod.fst := by
    intro v hv
    obtain ⟨x, h1, h2, rfl⟩ := (h'.names.2.2.2 v).mp hv
    exact (h.names.2.2.2 _).mpr ⟨x, h1, by omega, rfl⟩
  refine ⟨m', vs', st', m, vs, st, rules_view h', rules_view h, hsub, ⟨styleName style k, ?_, ?_⟩, ?_⟩
  · exact (h.names.2.2.2 _).mpr ⟨k, by omega, le_refl _, rfl⟩
  · intro hm
    obtain ⟨x, _, h2, e⟩ := (h'.names.2.2.2 _).mp hm
    have := styleName_inj e
    omega
  · intro v hv
    obtain ⟨x1, x2, x3⟩ := a2 v hv
    obtain ⟨y1, y2, y3⟩ := b2 v (hsub v hv)
    refine ⟨fun p => (x1 p).trans (y1 p).symm, ?_, fun a ha ha' d => ?_⟩
    · intro p c hres
      have hcm' : c ∈ listed m' := by
        obtain ⟨d, _, hd⟩ := hres
        exact Inv.mem_listed.mpr ⟨d, hd⟩
      have hpl : p ∈ listed (st v) := by
        obtain ⟨d, hd, _⟩ := id hres
        exact (y1 p).mpr ((x1 p).mp (Inv.mem_listed.mpr ⟨d, hd⟩))
      obtain ⟨d1, hd1, hd1c⟩ := x2 p c hres
      obtain ⟨e, he⟩ := Inv.mem_listed.mp hpl
      have hvr : ∀ w, w ∈ vs.map Prod.fst → ∃ b, VersionRules m b (st w) := by
        intro w hwm
        obtain ⟨⟨w', b⟩, hb, rfl⟩ := List.mem_map.mp hwm
        exact ⟨b, h.versionRules w' b hb⟩
      obtain ⟨blk, hblk⟩ := hvr v (hsub v hv)
      obtain ⟨ps, hps, hpp⟩ := id he
      obtain ⟨cs, hcs, hcm⟩ := hblk.digests _ hps
      obtain ⟨c', hc'⟩ := List.exists_mem_of_ne_nil cs hcs
      have hlc' : Lists m e c' := ⟨cs, hcm, hc'⟩
      obtain ⟨e1, he1, he1c⟩ := y2 p c' ⟨e, he, hlc'⟩
      have hu0 : PathsUnique (st0 v) := by
        obtain ⟨⟨w', b⟩, hb, rfl⟩ := List.mem_map.mp (a1 v hv)
        exact (hr.rules.versionRules w' b hb).unique
      have := Inv.Lists_unique hu0 he1 hd1
      subst this
      have hcm2 : c ∈ listed m := hr.priorManifests i k hi hik hkn j' j m' m hj' hj h'.manifest h.manifest c hcm'
      obtain ⟨d2, hd2⟩ := Inv.mem_listed.mp hcm2
      have hfile : ∀ {q dq d0}, Lists m dq q → Lists m0 d0 q → SameDigest alg dq d0 := by
        intro q dq d0 hq hq0
        obtain ⟨ws, b, ⟨_, hsafe, rfl⟩, hl⟩ := Ocfl.ObjectRules.contentFile hw hr (Inv.mem_listed.mpr ⟨d0, hq0⟩)
        exact digestIs_unique
          (hr.priorDigests rfl k (by omega) hkn j alg m dq ws hj h.digestAlgorithm.1 h.manifest hq hsafe (Inv.mem_listed.mpr ⟨d0, hq0⟩))
          (hr.digests rfl d0 ws hq0 hsafe)
      have s1 := hfile hlc' he1c
      have s2 := hfile hd2 hd1c
      obtain ⟨ps2, hps2, hc2⟩ := id hd2
      have := same_key h.manifestRules.distinct hps2 hcm (by
        show SameDigest alg _ _
        rw [sameDigest_iff] at *
        exact s2.trans s1.symm)
      subst this
      exact ⟨d2, he, hd2⟩
    · have := Ocfl.member_str_unique (storedJson_wf hE.json hj') ha h'.digestAlgorithm.1
      subst this
      exact (x3 a ha hr.rules.digestAlgorithm.1 d).trans (y3 a ha' hr.rules.digestAlgorithm.1 d).symm

theorem sidecar_moved {s' : FS} {check : Bool} {dir dir' : Path}
    (h1 : look s' (dir' ++ [c!"inventory.json." ++ alg]) = look s (dir ++ [c!"inventory.json." ++ alg]))
    (h2 : look s' (dir' ++ [c!"inventory.json"]) = look s (dir ++ [c!"inventory.json"])) (h : Sidecar E check s dir alg) :
    Sidecar E check s' dir' alg := by
  refine ⟨by rw [h1]; exact h.1, fun hc => ?_⟩
  obtain ⟨b, t, d, i, x1, x2, x3, x4, x5⟩ := h.2 hc
  exact ⟨b, t, d, i, by rw [h1]; exact x1, x2, x3, by rw [h2]; exact x4, x5⟩

theorem digestIs_moved {s' : FS} {p : Path} {a d : Str} (h : look s' p = look s p) (hd : DigestIs E s p a d) : DigestIs E s' p a d := by
  obtain ⟨b, x, h1, h2, h3⟩ := hd
  exact ⟨b, x, by rw [h]; exact h1, h2, h3⟩

/-- The rules hold for what is left. -/
theorem rolled_rules (hE : Libraries E) (hw : s.WF) (hr : ObjectRules E true s base spec0 j0 alg cd m0 vs0 st0 style n) {k : Nat} (hk : 1 ≤ k)
    (hkn : k < n) {j : Json} (hj : StoredJson E.lib s (base ++ [styleName style k, c!"inventory.json"]) j)
    {spec : Str} (hspec : InventorySpec j spec) {m : List (Str × List Str)} {vs : List (Str × Json)} {st : Str → List (Str × List Str)}
    (h : RulesWith false none j (.str alg) cd m vs st style k) (hp : PriorRules E true s (base ++ [styleName style k]) j0 cd j)
    (hs : Sidecar E true s (base ++ [styleName style k]) alg) (hown : OwnHistory E s base j0 j alg (vs.map Prod.fst)) {s' : FS}
    (hrb : RolledBack s s' base (styleName style k) spec alg (vs.map Prod.fst)) : ObjectRules E true s' base spec j alg cd m vs st style k := by
  have hwf := storedJson_wf hE.json hj
  have hwf0 := storedJson_wf hE.json hr.inventory
  have hN : ∀ i, 1 ≤ i → i ≤ k → styleName style i ∈ vs.map Prod.fst := fun i h1 h2 => (h.names.2.2.2 _).mpr ⟨i, h1, h2, rfl⟩
  have hsub : ∀ v ∈ vs.map Prod.fst, v ∈ vs0.map Prod.fst := by
    intro v hv
    obtain ⟨i, h1, h2, rfl⟩ := (h.names.2.2.2 v).mp hv
    exact (hr.rules.names.2.2.2 _).mpr ⟨i, h1, by omega, rfl⟩
  have hfirst : ∀ v ∈ vs.map Prod.fst, ∃ r, v = 'v' :: r := by
    intro v hv
    obtain ⟨i, _, _, rfl⟩ := (h.names.2.2.2 v).mp hv
    cases style <;> exact ⟨_, rfl⟩
  have hfiles := hown.content cd m h.contentDirectory h.manifest
  have hlisted : ∀ p ∈ listed m, p ∈ listed m0 := by
    intro p hpm
    obtain ⟨v, ws, b, hv, h1, h2, h3⟩ := (hfiles p).mp hpm
    exact (checked_content hE hw hr p).mpr ⟨v, ws, b, hsub v hv, h1, h2, h3⟩
  have hback : ∀ {i j'}, 1 ≤ i → i ≤ k → StoredJson E.lib s' (base ++ [styleName style i, c!"inventory.json"]) j' →
      StoredJson E.lib s (base ++ [styleName style i, c!"inventory.json"]) j' := fun h1 h2 hj' =>
    storedJson_congr (hrb.versions _ (hN _ h1 h2) [c!"inventory.json"]).symm hj'
  have hsideLook : ∀ {a : Str} {w : Str}, w ∈ vs.map Prod.fst →
      look s' (base ++ [w] ++ [c!"inventory.json." ++ a]) = look s (base ++ [w] ++ [c!"inventory.json." ++ a]) := by
    intro a w hm
    rw [List.append_assoc]
    exact hrb.versions w hm [_]
  have hinvLook : ∀ {w : Str}, w ∈ vs.map Prod.fst →
      look s' (base ++ [w] ++ [c!"inventory.json"]) = look s (base ++ [w] ++ [c!"inventory.json"]) := by
    intro w hm
    rw [List.append_assoc]
    exact hrb.versions w hm [_]
  have hdig : ∀ {a d : Str} {ws : List Str}, pathOf ws ∈ listed m → (∀ w ∈ ws, Safe w) → DigestIs E s (base ++ ws) a d →
      DigestIs E s' (base ++ ws) a d := by
    intro a d ws hm hsafe hd
    obtain ⟨v, ws', b, hv, h1, h2, h3⟩ := (hfiles _).mp hm
    have hne : ws ≠ [] := by
      rintro rfl
      obtain ⟨r, rfl⟩ := hfirst v hv
      simp [pathOf, List.intercalate, List.intersperse] at h2
    have e : ws = v :: cd :: ws' := pathOf_inj hne (by simp) (fun w hw' => (hsafe w hw').2.2.2) (fun w hw' => (look_names hw h3 w (List.mem_append_right _ hw')).2.2.2) h2
    subst e
    exact digestIs_moved (hrb.versions v hv _) hd
  refine {
    supported := hspec.1
    declaration := ⟨_, _, hrb.declaration, utf8Decode_utf8 _, declaration_text hE.word hspec.1⟩
    oneDeclaration := ?_
    inventory := ?_
    rules := h
    sidecar := ?_
    files := ?_
    dirs := ?_
    extensions := ?_
    versionDirs := ?_
    headInventory := ?_
    priorInventory := ?_
    priorManifests := ?_
    priorSpecs := ?_
    headSpec := ?_
    versionFiles := ?_
    content := ?_
    noEmpty := ?_
    digests := ?_
    fixity := ?_
    priorDigests := ?_
    priorFixity := ?_ }
  · intro t ht
    rcases hrb.rest _ [] ht with e | e | e | e | ⟨e | e, _⟩
    · simpa using e
    · simp at e
    · simp at e
    · obtain ⟨r, e⟩ := hfirst _ e
      simp at e
    · simp at e
    · simp at e
  · obtain ⟨b, t, h1, h2⟩ := hj
    exact ⟨b, t, hrb.inventory.trans h1, h2⟩
  · refine sidecar_moved (dir := base ++ [styleName style k]) ?_ ?_ hs
    · rw [hrb.sidecar, List.append_assoc]; rfl
    · rw [hrb.inventory, List.append_assoc]; rfl
  · intro w b hl
    rcases hrb.rest w [] (by rw [hl]; simp) with e | e | e | e | ⟨e, he⟩
    · exact .inl e
    · exact .inr (.inl e)
    · exact .inr (.inr e)
    · rw [hrb.versions w e [], hr.versionDirs w (hsub w e)] at hl
      cases hl
    · rw [hl] at he
      rcases hr.files w b he.symm with e' | e' | e' <;> rcases e with e | e <;> rw [e] at e' <;> simp at e'
  · intro w hl
    rcases hrb.rest w [] (by rw [hl]; simp) with e | e | e | e | ⟨e, he⟩
    · subst e
      rw [hrb.declaration] at hl
      cases hl
    · subst e
      obtain ⟨b, _, hb, _⟩ := hj
      rw [hrb.inventory, hb] at hl
      cases hl
    · subst e
      obtain ⟨b, _, _, _, hb, _⟩ := hs.2 rfl
      rw [List.append_assoc] at hb
      rw [hrb.sidecar] at hl
      have hb : look s (base ++ [styleName style k, c!"inventory.json." ++ alg]) = some (.file b) := hb
      rw [hb] at hl
      cases hl
    · exact .inl e
    · exact .inr e
  · intro w b hl
    rcases hrb.rest c!"extensions" [w] (by rw [hl]; simp) with e | e | e | e | ⟨_, he⟩
    · simp at e
    · simp at e
    · simp at e
    · obtain ⟨r, e⟩ := hfirst _ e
      simp at e
    · exact hr.extensions w b (he.symm.trans hl)
  · exact fun v hv => (hrb.versions v hv []).trans (hr.versionDirs v (hsub v hv))
  · intro _
    exact ⟨(hrb.versions _ (hN k hk (le_refl _)) [c!"inventory.json"]).trans hrb.inventory.symm,
      sidecar_moved (hsideLook (hN k hk (le_refl _))) (hinvLook (hN k hk (le_refl _))) hs⟩
  · intro i hi hik hne
    rw [hrb.versions _ (hN i hi (by omega)) [c!"inventory.json"]] at hne
    obtain ⟨j', hj', _⟩ := hr.priorInventory i hi (by omega) hne
    obtain ⟨hp', hs', m', vs', st', h'⟩ := prior_parts hE hr hi (by omega) hj' (hown.heads _ (hN i hi (by omega)) j' hj')
      (hown.algorithm _ (hN i hi (by omega)) j' hj')
    refine ⟨j', storedJson_congr (hrb.versions _ (hN i hi (by omega)) [c!"inventory.json"]) hj', ?_, ?_, ?_, ?_⟩
    · exact ⟨alg, m', vs', st', style, i, h', sidecar_moved (hsideLook (hN i hi (by omega))) (hinvLook (hN i hi (by omega))) hs'⟩
    · intro x hx
      obtain ⟨y, _, hy⟩ := hr.rules.id
      have := Ocfl.member_str_unique hwf hx (hp.id y hy)
      subst this
      exact hp'.id x hy
    · exact fun hx => hp'.contentDirectory (hown.contentDirectory hx)
    · exact continues_between hE hw hr hi hik hkn hj hj' h h' hp.history hp'.history
  · intro i l hi hil hlk j1 j2 m1 m2 h1 h2
    exact hr.priorManifests i l hi hil (by omega) j1 j2 m1 m2 (hback hi (by omega) h1) (hback (by omega) (by omega) h2)
  · intro i l hi hil hlk j1 j2 v1 v2 h1 h2
    exact hr.priorSpecs i l hi hil (by omega) j1 j2 v1 v2 (hback hi (by omega) h1) (hback (by omega) (by omega) h2)
  · intro _ i hi hik j1 v1 h1 h2
    exact hr.priorSpecs i k hi hik hkn j1 j v1 spec (hback hi (by omega) h1) hj h2 hspec
  · intro v hv w b hl
    have hl : look s (base ++ [v, w]) = some (.file b) := (hrb.versions v hv [w]).symm.trans hl
    rcases hr.versionFiles v (hsub v hv) w b hl with e | e | ⟨j', a, hj', ha, e⟩
    · exact .inl e
    · exact .inr (.inl e)
    · exact .inr (.inr ⟨j', a, storedJson_congr (hrb.versions v hv [c!"inventory.json"]) hj', ha, e⟩)
  · intro p
    rw [hfiles p]
    constructor
    · rintro ⟨v, ws, b, hv, h1, h2, h3⟩
      refine ⟨v, ws, b, hv, h1, h2, (hrb.versions v hv _).trans h3, ?_⟩
      intro j' a hj' ha
      exact not_sidecar hE hr (hsub v hv) (content_dir hw h1 h3) j' a (storedJson_congr (hrb.versions v hv [c!"inventory.json"]).symm hj') ha
    · rintro ⟨v, ws, b, hv, h1, h2, h3, _⟩
      exact ⟨v, ws, b, hv, h1, h2, (hrb.versions v hv _).symm.trans h3⟩
  · intro v hv ws hne hl hno
    obtain ⟨w, hx⟩ := hr.noEmpty v (hsub v hv) ws hne ((hrb.versions v hv _).symm.trans hl)
      (fun j' a hj' ha => hno j' a (storedJson_congr (hrb.versions v hv [c!"inventory.json"]) hj') ha)
    refine ⟨w, ?_⟩
    have e : base ++ v :: cd :: ws ++ [w] = base ++ v :: (cd :: ws ++ [w]) := by simp
    rw [e, hrb.versions v hv, ← e]
    exact hx
  · intro _ d ws hl hsafe
    have hm := Inv.mem_listed.mpr ⟨d, hl⟩
    exact hdig hm hsafe (hr.priorDigests rfl k hk hkn j alg m d ws hj h.digestAlgorithm.1 h.manifest hl hsafe (hlisted _ hm))
  · intro _ a d ws hl hsafe
    have hm : pathOf ws ∈ listed m := by
      obtain ⟨fx, fm, h1, h2, h3⟩ := id hl
      obtain ⟨_, m', he, _, _, hpaths⟩ := (h.fixity fx h1).block a _ h2
      have := ofDigestMap_inj he
      subst this
      exact hpaths _ (Inv.mem_listed.mpr ⟨d, h3⟩)
    exact hdig hm hsafe (hr.priorFixity rfl k hk hkn j a d ws hj hl hsafe (hlisted _ hm))
  · intro _ i hi hik j' a m' d ws hj' ha hm' hl hsafe hm
    exact hdig hm hsafe (hr.priorDigests rfl i hi (by omega) j' a m' d ws (hback hi (by omega) hj') ha hm' hl hsafe (hlisted _ hm))
  · intro _ i hi hik j' a d ws hj' hl hsafe hm
    exact hdig hm hsafe (hr.priorFixity rfl i hi (by omega) j' a d ws (hback hi (by omega) hj') hl hsafe (hlisted _ hm))
end

/-- **C108** (partial): in an object that is reported valid, digests being checked, take an earlier version with an inventory of its own. If
the object is taken back to that version it is reported valid again, provided that what validation leaves open about inventories of earlier
versions holds (`OwnHistory`). -/
theorem C108_partial {E : Env} (hE : Libraries E) {cfg : Config} (hlax : cfg.lax = false) (hcheck : cfg.checkDigests = true) {s s' : FS} (hw : s.WF)
    (hw' : s'.WF) {path : Str} {es : List Entry} (hv : validateObject E cfg 0 s path = .ok (true, es)) {j0 j : Json} {vs0 vs : List (Str × Json)}
    {v head alg spec : Str}
    (hj0 : StoredJson E.lib s (absComps E.cwd path ++ [c!"inventory.json"]) j0) (hvs0 : Member j0 c!"versions" (.obj vs0))
    (hhead : Member j0 c!"head" (.str head)) (halg : InventoryAlg j0 alg) (hv0 : v ∈ vs0.map Prod.fst) (hne : v ≠ head)
    (hj : StoredJson E.lib s (absComps E.cwd path ++ [v, c!"inventory.json"]) j) (hvs : Member j c!"versions" (.obj vs))
    (hspec : InventorySpec j spec) (hvj : v ∈ vs.map Prod.fst)
    (hown : OwnHistory E s (absComps E.cwd path) j0 j alg (vs.map Prod.fst))
    (hrb : RolledBack s s' (absComps E.cwd path) v spec alg (vs.map Prod.fst)) :
    ∃ es', validateObject E cfg 0 s' path = .ok (true, es') := by
  obtain ⟨hd, spec0, j1, alg1, cd, m0, vs1, st0, style, n, hr⟩ := (C73 hE hlax hw).mp ⟨es, hv⟩
  rw [hcheck] at hr
  have := storedJson_unique hj0 hr.inventory
  subst this
  have hwf0 := storedJson_wf hE.json hj0
  cases member_unique hwf0 hvs0 hr.rules.versions
  have := Ocfl.member_str_unique hwf0 halg hr.rules.digestAlgorithm.1
  subst this
  have := Ocfl.member_str_unique hwf0 hhead hr.rules.head
  subst this
  obtain ⟨k, hk, hkn, rfl⟩ := (hr.rules.names.2.2.2 v).mp hv0
  have hkn : k < n := by
    rcases Nat.lt_or_ge k n with h | h
    · exact h
    · have : k = n := by omega
      subst this
      exact absurd rfl hne
  obtain ⟨hp, hs, m, vs', st, h⟩ := prior_parts hE hr hk hkn hj (hown.heads _ hvj j hj) (hown.algorithm _ hvj j hj)
  cases member_unique (storedJson_wf hE.json hj) hvs h.versions
  refine (C73 hE hlax hw').mpr ⟨hrb.root, ?_⟩
  rw [hcheck]
  exact ⟨_, _, _, _, _, _, _, _, _, rolled_rules hE hw hr hk hkn hj hspec h hp hs hown hrb⟩

end Ocfl
