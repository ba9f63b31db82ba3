import Verif.Proofs.Good
import Verif.Model.Object

/-!
# Good inventories in another order and with other spellings of digests
-/

namespace Ocfl
open Spec Ocfl.Inv

theorem listed_map_key (f : Str → Str) (m : DigestMap) : listed (m.map (fun e => (f e.1, e.2))) = listed m := by
  unfold listed
  rw [List.map_map]
  rfl

theorem GoodBlock.congr {m m' : DigestMap} {b b' : VBlock} {st st' : DigestMap} (f : Str → Str)
    (hm : ∀ d ps, (d, ps) ∈ m → (f d, ps) ∈ m') (hk : Dict.NK st')
    (hst : st'.Perm (st.map (fun e => (f e.1, e.2)))) (hc : b'.created = b.created) (hu : b'.user = b.user)
    (hs : b'.state = some st') (h : GoodBlock m b st) : GoodBlock m' b' st' := by
  have hl : (listed st').Perm (listed st) := by
    rw [← listed_map_key f st]; exact listed_perm hst
  refine ⟨by rw [hc]; exact h.created, hs, hk, by rw [hu]; exact h.user, ?_, ?_, hl.nodup_iff.mpr h.unique, ?_⟩
  · intro e he
    obtain ⟨e0, he0, rfl⟩ := List.mem_map.mp (hst.mem_iff.mp he)
    obtain ⟨ps, h1, h2⟩ := h.digests e0 he0
    exact ⟨ps, h1, hm _ _ h2⟩
  · intro p hp
    exact h.paths p (hl.mem_iff.mp hp)
  · intro p hp segs hseg
    rw [hl.mem_iff]
    exact h.noConflict p (hl.mem_iff.mp hp) segs hseg

/-- An inventory with other digests, maybe of another algorithm, and in another order is good as well. -/
theorem Good.recode {inv inv' : Inv} {alg alg' : Str} {m m' : DigestMap} {vs vs' : Dict Str VBlock} {style : Option Nat} {n : Nat}
    (h : Good inv alg m vs style n) (f : Str → Str) (hf : ∀ d ∈ Dict.keys m, DigestText alg' (f d))
    (hd : ∀ d ∈ Dict.keys m, ∀ d' ∈ Dict.keys m, SameDigest alg' (f d) (f d') → SameDigest alg d d')
    (hm : m'.Perm (m.map (fun e => (f e.1, e.2)))) (hmk : Dict.NK m')
    (hvk : (Dict.keys vs').Perm (Dict.keys vs))
    (hb : ∀ v b, (v, b) ∈ vs → ∃ b' st st', (v, b') ∈ vs' ∧ b.state = some st ∧ b'.state = some st' ∧
      Dict.NK st' ∧ st'.Perm (st.map (fun e => (f e.1, e.2))) ∧ b'.created = b.created ∧ b'.user = b.user)
    (h1 : inv'.id = inv.id) (h2 : inv'.type = inv.type) (h3 : inv'.digestAlgorithm = some alg') (halg : alg' = c!"sha512" ∨ alg' = c!"sha256")
    (h4 : inv'.contentDirectory = inv.contentDirectory) (h5 : inv'.head = inv.head) (h6 : inv'.manifest = some m')
    (h7 : inv'.versions = some vs')
    (h8 : ∀ fx', inv'.fixity = some fx' → Dict.NK fx' ∧ ∀ a fm', (a, fm') ∈ fx' →
      ∃ fm, fm'.Perm fm ∧ KnownAlg a ∧ Dict.NK fm ∧ (∀ e ∈ fm, DigestText a e.1) ∧ fm.Pairwise (fun x y => ¬ SameDigest a x.1 y.1) ∧
        ∀ p ∈ listed fm, p ∈ listed m) : Good inv' alg' m' vs' style n := by
  have hcd : inv'.contentDirectoryToUse = inv.contentDirectoryToUse := by unfold contentDirectoryToUse; rw [h4]
  have hl : (listed m').Perm (listed m) := by rw [← listed_map_key f m]; exact listed_perm hm
  have hmm : ∀ d ps, (d, ps) ∈ m → (f d, ps) ∈ m' := fun d ps hdp =>
    hm.mem_iff.mpr (List.mem_map.mpr ⟨(d, ps), hdp, rfl⟩)
  have hvk' : Dict.NK vs' := hvk.nodup_iff.mpr h.versionKeys
  have hback : ∀ v b', (v, b') ∈ vs' → ∃ b st st', (v, b) ∈ vs ∧ b.state = some st ∧ b'.state = some st' ∧
      Dict.NK st' ∧ st'.Perm (st.map (fun e => (f e.1, e.2))) ∧ b'.created = b.created ∧ b'.user = b.user := by
    intro v b' hvb
    obtain ⟨b, hg⟩ := Dict.exists_of_mem_keys (hvk.mem_iff.mp (Dict.mem_keys_of_mem hvb))
    obtain ⟨b'', st, st', hx, hrest⟩ := hb v b (Dict.mem_of_get? hg)
    have h1 := Dict.get?_of_mem hvk' hvb
    rw [Dict.get?_of_mem hvk' hx, Option.some.injEq] at h1
    subst h1
    exact ⟨b, st, st', Dict.mem_of_get? hg, hrest⟩
  refine ⟨by rw [h1]; exact h.id, by rw [h2]; exact h.type, h3, halg,
    by rw [h4]; exact h.contentDirectory, h6, hmk, ?_, h7, hvk', ?_, by rw [h5]; exact h.head, ?_, ?_, ?_⟩
  · rw [hcd]
    obtain ⟨m1, m2, m3, m4, m5⟩ := h.manifestRules
    refine manifestRules_perm hvk.symm hm.symm ⟨?_, ?_, ?_, ?_, ?_⟩
    · intro e he
      obtain ⟨e0, he0, rfl⟩ := List.mem_map.mp he
      exact hf _ (Dict.mem_keys_of_mem (k := e0.1) (v := e0.2) he0)
    · rw [List.pairwise_map]
      refine List.Pairwise.imp_of_mem ?_ m2
      intro a b ha hb' hab hs
      exact hab (hd _ (Dict.mem_keys_of_mem (k := a.1) (v := a.2) ha) _ (Dict.mem_keys_of_mem (k := b.1) (v := b.2) hb') hs)
    · rw [listed_map_key]; exact m3
    · unfold PathsUnique; rw [listed_map_key]; exact m4
    · rw [listed_map_key]; exact m5
  · obtain ⟨n1, n2, n3, n4⟩ := h.names
    refine ⟨n1, n2, n3, ?_⟩
    intro v
    rw [hvk.mem_iff]
    exact n4 v
  · intro v b' hvb
    obtain ⟨b, st, st', hx, e1, e2, e3, e4, e5, e6⟩ := hback v b' hvb
    obtain ⟨st0, hg⟩ := h.blocks v b hx
    have := hg.state
    rw [e1, Option.some.injEq] at this
    subst this
    exact ⟨st', hg.congr f hmm e3 e4 e5 e6 e2⟩
  · intro d ps hdp hne
    obtain ⟨⟨d0, ps0⟩, hd0, he⟩ := List.mem_map.mp (hm.mem_iff.mp hdp)
    simp only [Prod.mk.injEq] at he
    obtain ⟨rfl, rfl⟩ := he
    obtain ⟨v, b, st, hvb, hbs, hdk⟩ := h.used d0 ps0 hd0 hne
    obtain ⟨b', st0, st', hx, e1, e2, e3, e4, _, _⟩ := hb v b hvb
    rw [hbs, Option.some.injEq] at e1
    subst e1
    refine ⟨v, b', st', hx, e2, ?_⟩
    obtain ⟨qs, hqs⟩ := Dict.exists_of_mem_keys hdk
    exact Dict.mem_keys_of_mem (v := qs) (e4.mem_iff.mpr (List.mem_map.mpr ⟨(d0, qs), Dict.mem_of_get? hqs, rfl⟩))
  · intro fx' hfx'
    obtain ⟨hk', hall⟩ := h8 fx' hfx'
    refine ⟨hk', ?_⟩
    intro a fm' ha
    obtain ⟨fm, hp, k1, k2, k3, k4, k5⟩ := hall a fm' ha
    refine ⟨k1, (Dict.NK_perm hp).mpr k2, fun e he => k3 e (hp.mem_iff.mp he), ?_, ?_⟩
    · refine (hp.pairwise_iff ?_).mpr k4
      exact fun hn hs => hn (sameDigest_symm hs)
    · intro p hpm
      exact hl.mem_iff.mpr (k5 p ((listed_perm hp).mem_iff.mp hpm))

/-- An inventory with other spellings of the digests and in another order is good as well. -/
theorem Good.congr {inv inv' : Inv} {alg : Str} {m m' : DigestMap} {vs vs' : Dict Str VBlock} {style : Option Nat} {n : Nat}
    (h : Good inv alg m vs style n) (f : Str → Str) (hf : ∀ d ∈ Dict.keys m, DigestText alg (f d))
    (hd : ∀ d ∈ Dict.keys m, ∀ d' ∈ Dict.keys m, SameDigest alg (f d) (f d') → SameDigest alg d d')
    (hm : m'.Perm (m.map (fun e => (f e.1, e.2)))) (hmk : Dict.NK m')
    (hvk : (Dict.keys vs').Perm (Dict.keys vs))
    (hb : ∀ v b, (v, b) ∈ vs → ∃ b' st st', (v, b') ∈ vs' ∧ b.state = some st ∧ b'.state = some st' ∧
      Dict.NK st' ∧ st'.Perm (st.map (fun e => (f e.1, e.2))) ∧ b'.created = b.created ∧ b'.user = b.user)
    (h1 : inv'.id = inv.id) (h2 : inv'.type = inv.type) (h3 : inv'.digestAlgorithm = inv.digestAlgorithm)
    (h4 : inv'.contentDirectory = inv.contentDirectory) (h5 : inv'.head = inv.head) (h6 : inv'.manifest = some m')
    (h7 : inv'.versions = some vs')
    (h8 : ∀ fx', inv'.fixity = some fx' → Dict.NK fx' ∧ ∃ fx, inv.fixity = some fx ∧ ∀ a fm', (a, fm') ∈ fx' →
      ∃ fm, (a, fm) ∈ fx ∧ fm'.Perm fm) : Good inv' alg m' vs' style n := by
  refine h.recode f hf hd hm hmk hvk hb h1 h2 (by rw [h3]; exact h.algorithm) h.algName h4 h5 h6 h7 ?_
  intro fx' hfx'
  obtain ⟨hk', fx, hfx, hall⟩ := h8 fx' hfx'
  refine ⟨hk', ?_⟩
  intro a fm' ha
  obtain ⟨fm, hafm, hp⟩ := hall a fm' ha
  exact ⟨fm, hp, (h.fixity fx hfx).2 a fm hafm⟩

/-! ## Normal spelling of digests -/

theorem hex_lower {c : Char} (h : Hex c) : Hex (asciiLower c) := by
  unfold Hex at h ⊢
  simp only [List.mem_cons, List.not_mem_nil, or_false] at h
  rcases h with h|h|h|h|h|h|h|h|h|h|h|h|h|h|h|h|h|h|h|h|h|h <;> subst h <;> decide

theorem digestText_normalized {alg d : Str} (ha : alg = c!"sha512" ∨ alg = c!"sha256") (h : DigestText alg d) :
    DigestText alg (normalizedDigest d alg) := by
  have hnc : ¬ CaseSensitive alg := by rcases ha with rfl | rfl <;> (unfold CaseSensitive; decide)
  have hn : normalizedDigest d alg = d.map asciiLower := by
    unfold normalizedDigest
    rcases ha with rfl | rfl <;> rfl
  have hkn : KnownAlg alg := by rcases ha with rfl | rfl <;> (left; decide)
  have hform : ∀ x, DigestForm alg x → DigestForm alg (x.map asciiLower) := by
    rintro x ⟨h1, _, _⟩
    refine ⟨?_, fun hc => absurd hc hnc, fun hk => absurd hkn hk⟩
    intro n hl
    obtain ⟨h3, h4⟩ := h1 n hl
    refine ⟨by simpa using h3, ?_⟩
    intro c hc
    obtain ⟨c', hc', rfl⟩ := List.mem_map.mp hc
    exact hex_lower (h4 c' hc')
  rw [hn]
  rcases h with h | ⟨d', rfl, h⟩
  · exact Or.inl (hform d h)
  · refine Or.inr ⟨d'.map asciiLower, ?_, hform d' h⟩
    rw [List.map_append]
    rfl

/-- Re-keying puts the entries in another order at most. -/
theorem normalizeMap_perm {alg : Str} {m : DigestMap} (hm : Dict.NK m) (hd : DistinctUpToCase alg m) :
    (normalizeMap alg m).Perm (m.map (fun e => (normalizedDigest e.1 alg, e.2))) := by
  obtain ⟨h1, h2, h3⟩ := normalizeMap_spec hm hd
  have hmk : Dict.NK (m.map (fun e => (normalizedDigest e.1 alg, e.2))) := by
    unfold Dict.NK at hm ⊢
    rw [List.map_map]
    unfold List.Nodup at hm ⊢
    rw [List.pairwise_map] at hm ⊢
    refine List.Pairwise.imp_of_mem ?_ hm
    intro a b ha hb hab he
    exact hab (hd _ (Dict.mem_keys_of_mem (k := a.1) (v := a.2) ha) _ (Dict.mem_keys_of_mem (k := b.1) (v := b.2) hb) he)
  refine (List.perm_ext_iff_of_nodup (List.Nodup.of_map _ h1) (List.Nodup.of_map _ hmk)).mpr ?_
  rintro ⟨k, ps⟩
  constructor
  · intro hk
    obtain ⟨d, hdm, rfl⟩ := h3 k (Dict.mem_keys_of_mem hk)
    have hg := Dict.get?_of_mem h1 hk
    rw [h2 d hdm] at hg
    exact List.mem_map.mpr ⟨(d, ps), Dict.mem_of_get? hg, rfl⟩
  · intro hk
    obtain ⟨⟨d, ps'⟩, hdm, he⟩ := List.mem_map.mp hk
    simp only [Prod.mk.injEq] at he
    obtain ⟨rfl, rfl⟩ := he
    have hg := h2 d (Dict.mem_keys_of_mem hdm)
    rw [Dict.get?_of_mem hm hdm] at hg
    exact Dict.mem_of_get? hg

/-- The block with digests in normal spelling. -/
def normalizeBlock (alg : Str) (b : VBlock) : VBlock := { b with state := b.state.map (normalizeMap alg) }

theorem Good.distinct {inv : Inv} {alg : Str} {m : DigestMap} {vs : Dict Str VBlock} {style : Option Nat} {n : Nat}
    (h : Good inv alg m vs style n) : DistinctUpToCase alg m := by
  have h2 := nodup_norm_iff.mpr h.manifestRules.distinct
  intro k hk k' hk' he
  by_contra hne
  obtain ⟨⟨_, v⟩, hv, rfl⟩ := List.mem_map.mp hk
  obtain ⟨⟨_, v'⟩, hv', rfl⟩ := List.mem_map.mp hk'
  have := List.inj_on_of_nodup_map h2 hv hv' he
  rw [this] at hne
  exact hne rfl

theorem GoodBlock.distinct {m : DigestMap} {b : VBlock} {st : DigestMap} {alg : Str} (h : GoodBlock m b st)
    (hd : DistinctUpToCase alg m) : DistinctUpToCase alg st := by
  have hsub : ∀ k ∈ Dict.keys st, k ∈ Dict.keys m := by
    intro k hk
    obtain ⟨v, hv⟩ := Dict.exists_of_mem_keys hk
    obtain ⟨ps, _, hps⟩ := h.digests _ (Dict.mem_of_get? hv)
    exact Dict.mem_keys_of_mem hps
  exact fun k hk k' hk' he => hd k (hsub k hk) k' (hsub k' hk') he

/-- Normal spelling keeps an inventory good. -/
theorem Good.normalize {inv inv' : Inv} {alg : Str} {m : DigestMap} {vs : Dict Str VBlock} {style : Option Nat} {n : Nat}
    (h : Good inv alg m vs style n) (hok : inv.normalizeDigests alg = (inv', .ok ())) :
    Good inv' alg (normalizeMap alg m) (vs.map (fun e => (e.1, normalizeBlock alg e.2))) style n := by
  have hinv : inv' = Inv.mk inv.id inv.type inv.digestAlgorithm inv.contentDirectory inv.head
      (some (normalizeMap alg m)) (some (vs.map (fun e => (e.1, normalizeBlock alg e.2)))) inv.fixity := by
    unfold normalizeDigests at hok
    split at hok
    · cases hok
    · cases hok
      rw [h.manifest, h.versions]
      rfl
  subst hinv
  have hd := h.distinct
  refine h.congr (fun d => normalizedDigest d alg) ?_ ?_ (normalizeMap_perm h.manifestKeys hd)
    (normalizeMap_spec h.manifestKeys hd).1 ?_ ?_ rfl rfl rfl rfl rfl rfl rfl ?_
  · intro d hdm
    obtain ⟨⟨_, v⟩, hv, rfl⟩ := List.mem_map.mp hdm
    exact digestText_normalized h.algName (h.manifestRules.digests _ hv)
  · intro d _ d' _ hs
    rw [sameDigest_iff, C05_idempotent, C05_idempotent] at hs
    exact sameDigest_iff.mpr hs
  · rw [Dict.keys_map_val]
  · intro v b hvb
    obtain ⟨st, hg⟩ := h.blocks v b hvb
    refine ⟨normalizeBlock alg b, st, normalizeMap alg st, List.mem_map.mpr ⟨(v, b), hvb, rfl⟩, hg.state, ?_,
      (normalizeMap_spec hg.keys (hg.distinct hd)).1, normalizeMap_perm hg.keys (hg.distinct hd), rfl, rfl⟩
    unfold normalizeBlock
    rw [hg.state]
    rfl
  · intro fx hfx
    exact ⟨(h.fixity fx hfx).1, fx, hfx, fun a fm ha => ⟨fm, ha, .refl _⟩⟩

theorem Good.sorted {inv : Inv} {alg : Str} {m : DigestMap} {vs : Dict Str VBlock} {style : Option Nat} {n : Nat}
    (h : Good inv alg m vs style n) :
    Good inv.sorted alg (Dict.sorted m) (Dict.sorted (vs.map (fun e => (e.1, e.2.sorted)))) style n := by
  have hid : ∀ l : DigestMap, l.map (fun e => (_root_.id e.1, e.2)) = l := fun l => List.map_id l
  refine h.congr _root_.id ?_ (fun _ _ _ _ h => h) ?_ (Dict.NK_sorted.mpr h.manifestKeys) ?_ ?_ rfl rfl rfl rfl rfl ?_ ?_ ?_
  · intro d hdm
    obtain ⟨⟨_, v⟩, hv, rfl⟩ := List.mem_map.mp hdm
    exact h.manifestRules.digests _ hv
  · rw [hid]; exact Dict.sorted_perm m
  · refine ((Dict.sorted_perm _).map Prod.fst).trans ?_
    rw [show List.map Prod.fst (vs.map (fun e => (e.1, e.2.sorted))) = Dict.keys vs from Dict.keys_map_val vs _]
  · intro v b hvb
    obtain ⟨st, hg⟩ := h.blocks v b hvb
    refine ⟨b.sorted, st, Dict.sorted st, (Dict.sorted_perm _).mem_iff.mpr (List.mem_map.mpr ⟨(v, b), hvb, rfl⟩), hg.state,
      ?_, Dict.NK_sorted.mpr hg.keys, ?_, rfl, rfl⟩
    · unfold VBlock.sorted
      rw [hg.state]
      rfl
    · rw [hid]; exact Dict.sorted_perm st
  · unfold Inv.sorted; rw [h.manifest]; rfl
  · unfold Inv.sorted; rw [h.versions]; rfl
  · intro fx' hfx'
    obtain ⟨fx, hfx, rfl⟩ := Option.map_eq_some_iff.mp hfx'
    obtain ⟨h1, h2⟩ := h.fixity fx hfx
    refine ⟨Dict.NK_sorted.mpr (Dict.NK_map_val h1 (fun e => Dict.sorted e.2)), fx, hfx, ?_⟩
    intro a fm' ha
    obtain ⟨⟨a', fm⟩, he, hb⟩ := List.mem_map.mp ((Dict.sorted_perm _).mem_iff.mp ha)
    simp only [Prod.mk.injEq] at hb
    obtain ⟨rfl, rfl⟩ := hb
    exact ⟨fm, he, Dict.sorted_perm fm⟩

end Ocfl
