import Verif.Proofs.GoodVersion

/-!
# What first and later versions start from
-/

namespace Ocfl

open Spec FS Ocfl.Inv

/-- Content files under different digests of the manifest are told apart by the algorithm. -/
def Spec.TellsApart (E : Env) (s : FS) (base : Path) (alg : Str) (m : DigestMap) : Prop :=
  ∀ d c d' c' b b', Lists m d c → Lists m d' c' → look s (FS.resolve base c) = some (.file b) →
    look s (FS.resolve base c') = some (.file b') → fileDigest E.raw alg b = fileDigest E.raw alg b' → d = d'

theorem typeRule_uri {v : Str} (h : v ∈ supported) : TypeRule none (typeUri v) :=
  ⟨(fun f hf => by cases hf), '.', v, [], by decide, h, by simp [typeUri]⟩

/-- The rules for fixity blocks beside the manifest `m`. -/
def FixityOK (fixity : Option (Dict Str DigestMap)) (m : DigestMap) : Prop :=
  ∀ fx, fixity = some fx → Dict.NK fx ∧ ∀ a fm, (a, fm) ∈ fx →
    KnownAlg a ∧ Dict.NK fm ∧ (∀ e ∈ fm, DigestText a e.1) ∧ fm.Pairwise (fun x y => ¬ SameDigest a x.1 y.1) ∧
      ∀ p ∈ listed fm, p ∈ listed m

theorem known_of {alg : Str} (h : alg = c!"sha512" ∨ alg = c!"sha256") : KnownAlg alg := by
  rcases h with rfl | rfl <;> (left; decide)

theorem changeFixity_ok {inv : Inv} {alg : Str} {m : DigestMap} {vs : Dict Str VBlock} {style : Option Nat} {n : Nat}
    (h : Good inv alg m vs style n) (newAlg : Str) (fixity : Option (List Str)) :
    FixityOK (changeFixity { inv with digestAlgorithm := some newAlg } alg newAlg fixity).fixity m := by
  have h0 : FixityOK inv.fixity m := h.fixity
  unfold changeFixity
  cases fixity with
  | none =>
    dsimp only
    split
    · intro fx hfx
      have hfx : some (Dict.set inv.fixityD alg m) = some fx := by
        have e : (({ inv with digestAlgorithm := some newAlg } : Inv).manifestD) = m := h.manifestD
        have : some (Dict.set inv.fixityD alg ((some ({ inv with digestAlgorithm := some newAlg } : Inv).manifestD).getD [])) = some fx := hfx
        rw [e] at this
        exact this
      cases hfx
      have hold : Dict.NK inv.fixityD ∧ ∀ a fm, (a, fm) ∈ inv.fixityD → KnownAlg a ∧ Dict.NK fm ∧ (∀ e ∈ fm, DigestText a e.1) ∧
          fm.Pairwise (fun x y => ¬ SameDigest a x.1 y.1) ∧ ∀ p ∈ listed fm, p ∈ listed m := by
        unfold Inv.fixityD
        cases hf : inv.fixity with
        | none => exact ⟨Dict.NK_nil, fun a fm hm => by cases hm⟩
        | some fx => exact h0 fx hf
      refine ⟨Dict.NK_set hold.1 _ _, fun a fm hm => ?_⟩
      rcases Dict.mem_set_imp hm with hm | hm
      · exact hold.2 a fm hm
      · obtain ⟨rfl, rfl⟩ := Prod.mk.inj hm
        exact ⟨known_of h.algName, h.manifestKeys, h.manifestRules.digests, h.manifestRules.distinct, fun p hp => hp⟩
    · exact h0
  | some fx =>
    dsimp only
    intro fx' hfx'
    cases hf : inv.fixity with
    | none => rw [hf] at hfx'; cases hfx'
    | some fx0 =>
      rw [hf] at hfx'
      cases hfx'
      obtain ⟨k1, k2⟩ := h0 fx0 hf
      refine ⟨List.Sublist.nodup (List.Sublist.map Prod.fst (List.filter_sublist (p := fun e : Str × DigestMap => decide (e.1 ∈ fx)) (l := fx0))) k1, ?_⟩
      intro a fm hm
      exact k2 a fm (List.mem_of_mem_filter hm)

/-- How the digests of an inventory were replaced. -/
structure Recoded (f : Str → Str) (m m' : DigestMap) (vs vs' : Dict Str VBlock) : Prop where
  inj : ∀ d ∈ Dict.keys m, ∀ d' ∈ Dict.keys m, f d = f d' → d = d'
  manifest : m' = m.map (fun e => (f e.1, e.2))
  versions : vs' = vs.map (fun e => (e.1, { e.2 with state := e.2.state.map (fun st => st.map (fun x => (f x.1, x.2))) }))

theorem Recoded.refl (m : DigestMap) (vs : Dict Str VBlock) : Recoded _root_.id m m vs vs := by
  refine ⟨fun _ _ _ _ h => h, by simp, ?_⟩
  conv_lhs => rw [← List.map_id vs]
  refine List.map_congr_left (fun e _ => ?_)
  obtain ⟨v, c, ms, u, st⟩ := e
  cases st <;> simp

/-- A change of the algorithm that succeeds replaces every digest by the new digest of its files. -/
theorem changeDigest_recoded {E : Env} {s : FS} {base : Path} {inv0 inv1 : Inv} {alg newAlg : Str} {m : DigestMap}
    {vs : Dict Str VBlock} {style : Option Nat} {n : Nat} {fixity : Option (List Str)} (hg : Good inv0 alg m vs style n)
    (he : newAlg ≠ alg)
    (hch : changeDigest E s base alg newAlg (changeFixity { inv0 with digestAlgorithm := some newAlg } alg newAlg fixity) = .ok inv1)
    (hdis : TellsApart E s base newAlg m) :
    ∃ f, Recoded f m inv1.manifestD vs inv1.versionsD ∧ Renames E s base newAlg m f ∧ Dict.NK inv1.manifestD ∧
      inv1.versions = some inv1.versionsD ∧
      ∀ v b, (v, b) ∈ vs → ∀ st, GoodBlock m b st → (st.map (fun e => f e.1)).Nodup := by
  obtain ⟨h1, h2, h3, h4, h5⟩ := changeDigest_ok hch
  rw [changeFixity_eq] at h1 h4 h5
  obtain ⟨m1, hm1⟩ := h2
  have hmd : inv1.manifestD = m1 := by unfold Inv.manifestD; rw [hm1]; rfl
  obtain ⟨o2n, h6, h7⟩ := h5 he
  have h6 : rehash E s base newAlg inv0.manifestD [] [] = .ok (o2n, inv1.manifestD) := h6
  have h7 : rehashVersions o2n inv0.versionsD = .ok inv1.versionsD := h7
  rw [hg.manifestD, hmd] at h6
  rw [hg.versionsD] at h7
  obtain ⟨f, r1, r2, r3, r4, r5⟩ := rehash_ok hg.manifestKeys h6
  have hinj : ∀ d ∈ Dict.keys m, ∀ d' ∈ Dict.keys m, f d = f d' → d = d' := by
    intro d hd d' hd' hff
    obtain ⟨ps, hps⟩ := Dict.exists_of_mem_keys hd
    obtain ⟨ps', hps'⟩ := Dict.exists_of_mem_keys hd'
    have hps := Dict.mem_of_get? hps
    have hps' := Dict.mem_of_get? hps'
    obtain ⟨n1, n2⟩ := newDigest_ok.mp (r1 _ hps)
    obtain ⟨n1', n2'⟩ := newDigest_ok.mp (r1 _ hps')
    obtain ⟨c, hc⟩ := List.exists_mem_of_ne_nil _ n1
    obtain ⟨c', hc'⟩ := List.exists_mem_of_ne_nil _ n1'
    obtain ⟨b, hb, hdb⟩ := digestAt_ok.mp (n2 c hc)
    obtain ⟨b', hb', hdb'⟩ := digestAt_ok.mp (n2' c' hc')
    refine hdis d c d' c' b b' ⟨ps, hps, hc⟩ ⟨ps', hps', hc'⟩ hb hb' ?_
    have : f d = f d' := hff
    rw [hdb, hdb']
    exact congrArg some this
  have hnd : (m.map (fun e => f e.1)).Nodup := by
    have hk : (m.map Prod.fst).Nodup := hg.manifestKeys
    unfold List.Nodup at hk ⊢
    rw [List.pairwise_map] at hk ⊢
    refine hk.imp_of_mem ?_
    intro a b ha hb hab hff
    exact hab (hinj _ (Dict.mem_keys_of_mem (k := a.1) (v := a.2) ha) _ (Dict.mem_keys_of_mem (k := b.1) (v := b.2) hb) hff)
  have hm' := r3 hnd
  have hstk : ∀ v b, (v, b) ∈ vs → ∀ st, GoodBlock m b st → (∀ d ∈ Dict.keys st, d ∈ Dict.keys m) := by
    intro v b hvb st hgb d hd
    obtain ⟨ps, hps⟩ := Dict.exists_of_mem_keys hd
    obtain ⟨ps', _, hm⟩ := hgb.digests _ (Dict.mem_of_get? hps)
    exact Dict.mem_keys_of_mem hm
  have hstn : ∀ v b, (v, b) ∈ vs → ∀ st, GoodBlock m b st → (st.map (fun e => f e.1)).Nodup := by
    intro v b hvb st hgb
    have hk : (st.map Prod.fst).Nodup := hgb.keys
    unfold List.Nodup at hk ⊢
    rw [List.pairwise_map] at hk ⊢
    refine hk.imp_of_mem ?_
    intro x y hx hy hab hff
    exact hab (hinj _ (hstk v b hvb st hgb _ (Dict.mem_keys_of_mem (k := x.1) (v := x.2) hx)) _
      (hstk v b hvb st hgb _ (Dict.mem_keys_of_mem (k := y.1) (v := y.2) hy)) hff)
  have hvs := rehashVersions_ok (f := f) (fun v b hvb => by
    obtain ⟨st, hgb⟩ := hg.blocks v b hvb
    rw [hgb.state]
    exact ⟨fun d hd => r2 d (hstk v b hvb st hgb d hd), hstn v b hvb st hgb⟩) h7
  have hvs' : inv1.versionsD = vs.map (fun e => (e.1, { e.2 with state := e.2.state.map (fun st => st.map (fun x => (f x.1, x.2))) })) := by
    rw [hvs]
    refine List.map_congr_left (fun e he => ?_)
    obtain ⟨st, hgb⟩ := hg.blocks e.1 e.2 he
    rw [hgb.state]
    rfl
  have hv1 : inv1.versions = some inv1.versionsD := by
    have : inv1.versionsD ≠ [] := by
      rw [hvs']
      intro hc
      have hc : vs = [] := by simpa using hc
      have := (hg.names.2.2.2 (styleName style n)).mpr ⟨n, hg.names.2.1, le_refl _, rfl⟩
      rw [hc] at this
      cases this
    unfold Inv.versionsD at this ⊢
    cases hv : inv1.versions with
    | none => rw [hv] at this; exact absurd rfl this
    | some x => rfl
  rw [hmd]
  exact ⟨f, ⟨hinj, hm', hvs'⟩, r1, r4, hv1, hstn⟩

/-- The inventory after a change of the algorithm is in order if the one before is. -/
theorem changeDigest_parsed {E : Env} (hhash : HashLib E.raw) {s : FS} {base : Path} {inv0 inv1 : Inv} {alg newAlg : Str} {m : DigestMap}
    {vs : Dict Str VBlock} {style : Option Nat} {n : Nat} {fixity : Option (List Str)} (h : Parsed inv0 alg m vs style n)
    (hch : changeDigest E s base alg newAlg (changeFixity { inv0 with digestAlgorithm := some newAlg } alg newAlg fixity) = .ok inv1)
    (hnew : newAlg = c!"sha512" ∨ newAlg = c!"sha256") (hdis : newAlg ≠ alg → TellsApart E s base newAlg m) :
    ∃ f m1 vs1, Parsed inv1 newAlg m1 vs1 style n ∧ Recoded f m m1 vs vs1 ∧ (newAlg = alg → f = _root_.id) ∧
      (newAlg ≠ alg → Renames E s base newAlg m f) ∧ inv1.contentDirectory = inv0.contentDirectory ∧ inv1.type = inv0.type ∧
      inv1.id = inv0.id := by
  have hfix := changeFixity_ok h.good newAlg fixity
  obtain ⟨h1, h2, h3, h4, h5⟩ := changeDigest_ok hch
  rw [changeFixity_eq] at h1 h4 h5
  have hcd : inv1.contentDirectory = inv0.contentDirectory := by rw [h1]
  have hty : inv1.type = inv0.type := by rw [h1]
  have hid : inv1.id = inv0.id := by rw [h1]
  have hhd : inv1.head = inv0.head := by rw [h1]
  have hal : inv1.digestAlgorithm = some newAlg := by rw [h1]
  have hfx : inv1.fixity = (changeFixity { inv0 with digestAlgorithm := some newAlg } alg newAlg fixity).fixity := by rw [h1]
  obtain ⟨m1, hm1⟩ := h2
  have hmd : inv1.manifestD = m1 := by unfold Inv.manifestD; rw [hm1]; rfl
  have hg := h.good
  by_cases he : newAlg = alg
  · subst he
    obtain ⟨h6, h7⟩ := h4 rfl
    have h6 : inv1.manifestD = inv0.manifestD := h6
    have h7 : inv1.versions = inv0.versions := h7
    rw [hmd, hg.manifestD] at h6
    subst h6
    rw [hg.versions] at h7
    refine ⟨_root_.id, m1, vs, ⟨?_, h.normal, h.styleOK, h.limit⟩, Recoded.refl m1 vs, fun _ => rfl, fun hne => absurd rfl hne, hcd, hty, hid⟩
    have hidm : ∀ l : DigestMap, l.map (fun e => (_root_.id e.1, e.2)) = l := fun l => List.map_id l
    refine hg.recode _root_.id ?_ (fun _ _ _ _ hs => hs) (by rw [hidm]) hg.manifestKeys (List.Perm.refl _) ?_ hid hty hal hg.algName
      hcd hhd hm1 h7 ?_
    · intro d hd
      obtain ⟨ps, hps⟩ := Dict.exists_of_mem_keys hd
      exact hg.manifestRules.digests (d, ps) (Dict.mem_of_get? hps)
    · intro v b hvb
      obtain ⟨st, hgb⟩ := hg.blocks v b hvb
      exact ⟨b, st, st, hvb, hgb.state, hgb.state, hgb.keys, by rw [hidm], rfl, rfl⟩
    · intro fx' hfx'
      rw [hfx] at hfx'
      obtain ⟨k1, k2⟩ := hfix fx' hfx'
      exact ⟨k1, fun a fm ha => ⟨fm, List.Perm.refl _, k2 a fm ha⟩⟩
  · obtain ⟨f, ⟨hinj, hm', hvs'⟩, r1, r4, hv1, hstn⟩ := changeDigest_recoded hg he hch (hdis he)
    rw [hmd] at hm' r4
    have hform : ∀ d ∈ Dict.keys m, DigestForm newAlg (f d) ∧ normalizedDigest (f d) newAlg = f d := by
      intro d hd
      obtain ⟨ps, hps⟩ := Dict.exists_of_mem_keys hd
      obtain ⟨n1, n2⟩ := newDigest_ok.mp (r1 _ (Dict.mem_of_get? hps))
      obtain ⟨c, hc⟩ := List.exists_mem_of_ne_nil _ n1
      obtain ⟨b, hb, hdb⟩ := digestAt_ok.mp (n2 c hc)
      exact digestForm_raw hhash hnew hdb
    refine ⟨f, m1, inv1.versionsD, ⟨?_, ?_, h.styleOK, h.limit⟩, ⟨hinj, hm', hvs'⟩, fun e => absurd e he, fun _ => r1, hcd, hty, hid⟩
    · refine hg.recode f (fun d hd => Or.inl (hform d hd).1) ?_ (by rw [hm']) r4 ?_ ?_ hid hty hal hnew hcd hhd hm1 hv1 ?_
      · intro d hd d' hd' hs
        rw [sameDigest_iff, (hform d hd).2, (hform d' hd').2] at hs
        rw [hinj d hd d' hd' hs]
        exact sameDigest_iff.mpr rfl
      · rw [hvs', Dict.keys_map_val]
      · intro v b hvb
        obtain ⟨st, hgb⟩ := hg.blocks v b hvb
        refine ⟨{ b with state := some (st.map (fun x => (f x.1, x.2))) }, st, st.map (fun x => (f x.1, x.2)), ?_, hgb.state, rfl, ?_,
          List.Perm.refl _, rfl, rfl⟩
        · rw [hvs']
          refine List.mem_map.mpr ⟨(v, b), hvb, ?_⟩
          simp [hgb.state]
        · unfold Dict.NK
          rw [List.map_map]
          exact hstn v b hvb st hgb
      · intro fx' hfx'
        rw [hfx] at hfx'
        obtain ⟨k1, k2⟩ := hfix fx' hfx'
        exact ⟨k1, fun a fm ha => ⟨fm, List.Perm.refl _, k2 a fm ha⟩⟩
    · intro d hd
      rw [hm'] at hd
      obtain ⟨e, he', rfl⟩ := List.mem_map.mp hd
      obtain ⟨e0, he0, rfl⟩ := List.mem_map.mp he'
      exact (hform e0.1 (Dict.mem_keys_of_mem (k := e0.1) (v := e0.2) he0)).2

/-- What a later version starts from. -/
theorem ground_next {inv : Inv} {alg : Str} {m : DigestMap} {vs : Dict Str VBlock} {style : Option Nat} {n : Nat}
    (h : Parsed inv alg m vs style n) {sv : Str} (hsv : sv ∈ supported) {metadata : Option VBlock} (hmeta : GoodMeta metadata)
    {norm : Option Str} {fd dd : Bool} {old : Option Str} {nv : NV}
    (hlim : n + 1 ≤ styleLimit style)
    (hn : NV.nextVersion inv sv metadata norm fd dd false old = .ok nv) :
    Ground nv alg m vs style n { metadata.getD {} with state := some [] } := by
  obtain ⟨_, type, ht, rfl⟩ := nextVersion_ok h.numbered hn
  obtain ⟨b, rfl, t, hb, htt⟩ := hmeta.created
  have hg := h.good
  have htr : ∃ t, type = some t ∧ TypeRule none t := by
    rcases ht with ⟨_, rfl⟩ | ⟨cur, _, _, _, rfl⟩
    · exact hg.type
    · exact ⟨_, rfl, typeRule_uri hsv⟩
  refine ⟨hg.id, htr, hg.algorithm, hg.algName, hg.contentDirectory, hg.manifest, hg.manifestKeys, hg.manifestRules, h.normal, ?_,
    hg.versionKeys, h.styleOK, hlim, hg.names.2.2.2, rfl, hg.blocks, hg.used, hg.fixity, ⟨t, hb, htt⟩,
    fun u hu => hmeta.user b u rfl hu, rfl, rfl⟩
  show some (Dict.set inv.versionsD _ _) = _
  rw [hg.versionsD]
  rfl

theorem foldl_fixity {ts : List Str} (hts : ∀ t ∈ ts, KnownAlg t) : ∀ (inv : Inv),
    (∀ fx, inv.fixity = some fx → Dict.NK fx ∧ ∀ a fm, (a, fm) ∈ fx → KnownAlg a ∧ fm = []) →
    ∃ fx', ts.foldl (fun inv t => inv.addFixityType t none) inv = { inv with fixity := fx' } ∧
      ∀ fx, fx' = some fx → Dict.NK fx ∧ ∀ a fm, (a, fm) ∈ fx → KnownAlg a ∧ fm = [] := by
  induction ts with
  | nil => intro inv h; exact ⟨inv.fixity, rfl, h⟩
  | cons t ts ih =>
    intro inv h
    obtain ⟨fx', h1, h2⟩ := ih (fun x hx => hts x (by simp [hx])) (inv.addFixityType t none) (by
      intro fx hfx
      have hfx : some (Dict.set inv.fixityD t []) = some fx := hfx
      cases hfx
      have hold : Dict.NK inv.fixityD ∧ ∀ a fm, (a, fm) ∈ inv.fixityD → KnownAlg a ∧ fm = [] := by
        unfold Inv.fixityD
        cases hf : inv.fixity with
        | none => exact ⟨Dict.NK_nil, fun a fm hm => by cases hm⟩
        | some fx => exact h fx hf
      refine ⟨Dict.NK_set hold.1 _ _, fun a fm hm => ?_⟩
      rcases Dict.mem_set_imp hm with hm | hm
      · exact hold.2 a fm hm
      · obtain ⟨rfl, rfl⟩ := Prod.mk.inj hm
        exact ⟨hts _ (by simp), rfl⟩)
    exact ⟨fx', h1, h2⟩

/-- What a first version starts from. -/
theorem ground_first {id sv alg cd : Str} {metadata : Option VBlock} {dedupe : Bool} {fixity : List Str} {norm : Option Str} {nv : NV}
    (hid : id ≠ []) (hsv : sv ∈ supported) (halg : alg = c!"sha512" ∨ alg = c!"sha256")
    (hcd : '/' ∉ cd ∧ cd ≠ c!"." ∧ cd ≠ c!"..") (hfx : ∀ t ∈ fixity, KnownAlg t) (hmeta : GoodMeta metadata)
    (h : NV.firstVersion id sv (some alg) (some cd) metadata dedupe fixity norm = .ok nv) :
    Ground nv alg [] [] none 0 (metadata.getD {}) ∧ nv.norm = norm ∧ nv.inv.contentDirectoryToUse = cd ∧
      nv.oldDigestAlgorithm = none ∧ nv.forwardDelta = none ∧ nv.dedupe = dedupe ∧ nv.inv.id = some id ∧ nv.inv.type = some (typeUri sv) := by
  obtain ⟨b, rfl, t, hb, htt⟩ := hmeta.created
  have hst := hmeta.noState b rfl
  unfold NV.firstVersion at h
  simp only at h
  obtain ⟨fx', e1, e2⟩ := foldl_fixity hfx (Inv.initManifestAndVersions
    { Inv.setSpecVersion { id := some id } sv with digestAlgorithm := some alg }) (fun fx hf => by cases hf)
  rw [e1] at h
  have hadd : ∀ inv : Inv, inv.versions = some [] →
      inv.addVersion none (some b) none none = .ok { inv with versions := some [(c!"v1", b)], head := some c!"v1" } := by
    intro inv hv
    have hvd : inv.versionsD = [] := by unfold Inv.versionsD; rw [hv]; rfl
    unfold Inv.addVersion Inv.nextVersionDir Inv.versionDirectories
    rw [hvd]
    rfl
  rw [hadd _ rfl] at h
  cases h
  refine ⟨⟨⟨id, hid, ?_⟩, ⟨_, ?_, typeRule_uri hsv⟩, ?_, halg, ?_, ?_, Dict.NK_nil, ?_, (by intro d hd; cases hd), ?_, Dict.NK_nil,
    trivial, by decide, ?_, ?_, (by intro v b hm; cases hm), (by intro d ps hm; cases hm), ?_, ⟨t, hb, htt⟩,
    fun u hu => hmeta.user b u rfl hu, ?_, rfl⟩, rfl, ?_, rfl, rfl, rfl, ?_, ?_⟩
  · dsimp only; split <;> rfl
  · dsimp only; split <;> rfl
  · dsimp only; split <;> rfl
  · dsimp only
    intro cd' hcd'
    split at hcd'
    · cases hcd'
    · cases hcd'; exact hcd
  · dsimp only; split <;> rfl
  · exact ⟨by simp, List.Pairwise.nil, by simp [listed], List.nodup_nil, by simp [listed]⟩
  · dsimp only; split <;> rfl
  · intro v
    constructor
    · intro hv; cases hv
    · rintro ⟨i, h1, h2, _⟩; omega
  · dsimp only; split <;> rfl
  · intro fx hfx'
    have hfx' : fx' = some fx := by
      dsimp only at hfx'
      split at hfx' <;> exact hfx'
    obtain ⟨k1, k2⟩ := e2 fx hfx'
    refine ⟨k1, fun a fm ha => ?_⟩
    obtain ⟨k3, rfl⟩ := k2 a fm ha
    exact ⟨k3, Dict.NK_nil, by simp, List.Pairwise.nil, by simp [listed]⟩
  · show b.state.getD [] = []
    rw [hst]; rfl
  · dsimp only
    split
    · rename_i he; rw [he]; rfl
    · rfl
  · dsimp only; split <;> rfl
  · dsimp only; split <;> rfl

end Ocfl
