import Verif.Proofs.AddSource
import Verif.Proofs.GoodPerm

/-!
# The form of computed digests
-/

namespace Ocfl

open Spec FS Ocfl.Inv

theorem digestForm_raw {raw : Str → Bytes → Str} (h : HashLib raw) {alg d : Str} (ha : alg = c!"sha512" ∨ alg = c!"sha256")
    {b : Bytes} (hd : fileDigest raw alg b = some d) : DigestForm alg d ∧ normalizedDigest d alg = d := by
  have hnc : ¬ CaseSensitive alg := by rcases ha with rfl | rfl <;> (unfold CaseSensitive; decide)
  have hkn : KnownAlg alg := by rcases ha with rfl | rfl <;> (left; decide)
  have hn : normalizedDigest d alg = d.map asciiLower := by
    unfold normalizedDigest
    rcases ha with rfl | rfl <;> rfl
  have hd' : d = raw alg b := by
    unfold fileDigest at hd
    rw [if_pos (by rcases ha with rfl | rfl <;> simp)] at hd
    exact (Option.some.inj hd).symm
  obtain ⟨k, hk⟩ : ∃ k, hexLength alg = some k := by rcases ha with rfl | rfl <;> exact ⟨_, rfl⟩
  obtain ⟨h1, h2⟩ := h alg k hk b
  rw [← hd'] at h1 h2
  refine ⟨⟨?_, fun hc => absurd hc hnc, fun hk => absurd hkn hk⟩, ?_⟩
  · intro k' hk'
    rw [hk, Option.some.injEq] at hk'
    subst hk'
    refine ⟨h1, fun c hc => ?_⟩
    exact (show ∀ c ∈ c!"0123456789abcdef", Hex c by unfold Hex; decide) c (h2 c hc)
  · rw [hn]
    conv_rhs => rw [← List.map_id d]
    refine List.map_congr_left (fun c hc => ?_)
    exact (show ∀ c ∈ c!"0123456789abcdef", asciiLower c = _root_.id c by decide) c (h2 c hc)

theorem distinct_of_normal {alg : Str} {m : DigestMap} (hk : Dict.NK m) (hn : ∀ d ∈ Dict.keys m, normalizedDigest d alg = d) :
    m.Pairwise (fun a b => ¬ SameDigest alg a.1 b.1) := by
  have h : (m.map Prod.fst).Nodup := hk
  unfold List.Nodup at h
  rw [List.pairwise_map] at h
  refine h.imp_of_mem ?_
  intro a b ha hb hab hs
  rw [sameDigest_iff, hn _ (Dict.mem_keys_of_mem (k := a.1) (v := a.2) ha), hn _ (Dict.mem_keys_of_mem (k := b.1) (v := b.2) hb)] at hs
  exact hab hs

end Ocfl
