import Verif.Proofs.Digest
import Verif.Spec.Digest

/-! # C05, C71: digests -/

namespace Ocfl
open Spec

theorem asciiLower_eq (c : Char) : asciiLower c = c.toLower := by
  apply char_toNat_inj
  rw [asciiLower_toNat]
  unfold Char.toLower
  have hA : c.val ≥ 'A'.val ∧ c.val ≤ 'Z'.val ↔ 65 ≤ c.toNat ∧ c.toNat ≤ 90 := by
    simp only [ge_iff_le, UInt32.le_iff_toNat_le]; exact Iff.rfl
  by_cases h : c.val ≥ 'A'.val ∧ c.val ≤ 'Z'.val
  · rw [if_pos (hA.mp h)]
    simp only [h, and_self, dif_pos]
    have := hA.mp h
    have h2 : c.val.toNat = c.toNat := rfl
    change c.toNat + 32 = (c.val + _).toNat
    rw [UInt32.toNat_add]
    simp
    omega
  · rw [if_neg (fun h' => h (hA.mpr h'))]
    simp only [h, dif_neg, not_false_eq_true]

/-- **C05.** Normalising is idempotent. -/
theorem C05_idempotent (d alg : Str) :
    normalizedDigest (normalizedDigest d alg) alg = normalizedDigest d alg := by
  unfold normalizedDigest
  split
  · rfl
  · rw [List.map_map]
    congr 1
    funext c
    exact asciiLower_idem c

theorem isSpecEx_iff (alg : Str) : isSpecEx alg = true ↔ CaseSensitive alg := by
  unfold isSpecEx CaseSensitive; simp

/-- **C05.** For a case-insensitive algorithm two digests have the same normal form exactly when
they differ only in letter case. -/
theorem C05_identifies (d d' alg : Str) (h : ¬ CaseSensitive alg) :
    normalizedDigest d alg = normalizedDigest d' alg ↔ SameUpToCase d d' := by
  have hs : isSpecEx alg = false := by
    cases hx : isSpecEx alg with
    | false => rfl
    | true => exact absurd ((isSpecEx_iff alg).mp hx) h
  unfold normalizedDigest SameUpToCase
  simp only [hs, Bool.false_eq_true, if_false]
  induction d generalizing d' with
  | nil =>
    cases d' with
    | nil => simp
    | cons c d' => simp
  | cons c d ih =>
    cases d' with
    | nil => simp
    | cons c' d' =>
      rw [List.map_cons, List.map_cons, List.cons.injEq, List.forall₂_cons, asciiLower_eq, asciiLower_eq]
      exact and_congr Iff.rfl (ih d')

example : ¬ CaseSensitive c!"sha512" ∧ SameUpToCase c!"aBf0" c!"AbF0" := by
  refine ⟨by unfold CaseSensitive; decide, ?_⟩
  unfold SameUpToCase
  simp only [List.forall₂_cons, List.Forall₂.nil, and_true]
  decide

/-- **C05.** For the case-sensitive algorithms nothing changes. -/
theorem C05_case_sensitive (d alg : Str) (h : CaseSensitive alg) : normalizedDigest d alg = d := by
  unfold normalizedDigest; rw [if_pos ((isSpecEx_iff alg).mpr h)]

example : CaseSensitive c!"sha256-spec-ex" ∧ normalizedDigest c!"aB" c!"sha256-spec-ex" = c!"aB" :=
  ⟨Or.inr rfl, by decide⟩

/-- **C05.** Normalising never changes whether a digest is well formed. -/
theorem C05_well_formed (d alg : Str) (m : Str → Bool) (h : digestRegex alg = some m) :
    m (normalizedDigest d alg) = m d := by
  unfold digestRegex at h
  by_cases hs : isSpecEx alg = true
  · unfold normalizedDigest; rw [if_pos hs]
  · have hn : normalizedDigest d alg = d.map asciiLower := by unfold normalizedDigest; rw [if_neg hs]
    have hs' : alg ≠ c!"sha512-spec-ex" ∧ alg ≠ c!"sha256-spec-ex" := by
      rw [isSpecEx_iff] at hs; unfold CaseSensitive at hs; push Not at hs; exact hs
    rw [hn]
    simp only [hs'.1, hs'.2, if_false] at h
    repeat' split at h
    all_goals first
      | (simp only [Option.some.injEq] at h; rw [← h]; exact matchHex_lower _ _)
      | cases h

example : ∃ m, digestRegex c!"md5" = some m ∧ m c!"d41d8cd98f00b204e9800998ecf8427E" = true :=
  ⟨matchHex 32, rfl, by decide⟩

/-- The shape of every hash function of `hashlib`: lower-case hexadecimal of the right length. -/
def HexDigests (raw : Str → Bytes → Str) : Prop :=
  ∀ alg n b, hexLength alg = some n → (raw alg b).length = n ∧ ∀ c ∈ raw alg b, isHexLower c = true

theorem lower_of_hexLower {s : Str} (h : ∀ c ∈ s, isHexLower c = true) : s.map asciiLower = s := by
  induction s with
  | nil => rfl
  | cons c s ih =>
    rw [List.map_cons, ih (fun x hx => h x (List.mem_cons_of_mem _ hx))]
    congr 1
    apply char_toNat_inj
    rw [asciiLower_toNat, if_neg]
    have := isHexLower_iff.mp (h c (by simp))
    omega

theorem matchHex_of_hexLower {s : Str} {n : Nat} (hl : s.length = n) (h : ∀ c ∈ s, isHexLower c = true) :
    matchHex n s = true := by
  subst hl
  unfold matchHex
  simp only [List.take_length, List.drop_length, Bool.and_eq_true, decide_eq_true_eq, true_and]
  refine ⟨?_, rfl⟩
  rw [List.all_eq_true]
  intro c hc
  rw [isHexAny_iff]
  have := isHexLower_iff.mp (h c hc)
  omega

/-- **C71** (partial). Every digest `file_digest` computes is in normal form, and it is well formed
for its algorithm except for `sha512-spec-ex` (`C71_violated`). -/
theorem C71_computed_digest_partial (raw : Str → Bytes → Str) (hraw : HexDigests raw) (alg d : Str) (b : Bytes)
    (h : fileDigest raw alg b = some d) :
    normalizedDigest d alg = d ∧
    (alg ≠ c!"sha512-spec-ex" → ∃ m, digestRegex alg = some m ∧ m d = true) := by
  unfold fileDigest at h
  split at h
  · rename_i hreal
    simp only [Option.some.injEq] at h
    subst h
    obtain ⟨n, hn, m, hm, hmn⟩ : ∃ n, hexLength alg = some n ∧ ∃ m, digestRegex alg = some m ∧ m = matchHex n := by
      rcases hreal with rfl | rfl | rfl | rfl | rfl | rfl | rfl | rfl
      · exact ⟨128, rfl, _, rfl, rfl⟩
      · exact ⟨64, rfl, _, rfl, rfl⟩
      · exact ⟨40, rfl, _, rfl, rfl⟩
      · exact ⟨32, rfl, _, rfl, rfl⟩
      · exact ⟨128, rfl, _, rfl, rfl⟩
      · exact ⟨40, rfl, _, rfl, rfl⟩
      · exact ⟨64, rfl, _, rfl, rfl⟩
      · exact ⟨96, rfl, _, rfl, rfl⟩
    obtain ⟨hl, hc⟩ := hraw alg n b hn
    refine ⟨?_, fun _ => ⟨m, hm, by rw [hmn]; exact matchHex_of_hexLower hl hc⟩⟩
    unfold normalizedDigest
    split
    · rfl
    · exact lower_of_hexLower hc
  · split at h
    · rename_i ha
      refine ⟨C05_case_sensitive _ _ (Or.inl ha), fun hne => absurd ha hne⟩
    · split at h
      · rename_i ha
        refine ⟨C05_case_sensitive _ _ (Or.inr ha), fun _ => ⟨matchSpecEx, by rw [ha]; rfl, ?_⟩⟩
        simp only [Option.some.injEq] at h
        obtain ⟨hl, hc⟩ := hraw c!"sha256" 64 b rfl
        subst h
        generalize hr : raw c!"sha256" b = r at hl hc
        have h6 : (r.take 6).length = 6 := by simp [hl]
        have h3 : (r.drop (r.length - 3)).length = 3 := by simp; omega
        have e1 : (r.take 6 ++ c!"..." ++ r.drop (r.length - 3)).take 6 = r.take 6 := by
          rw [List.append_assoc]; exact List.take_left' h6
        have e2 : (r.take 6 ++ c!"..." ++ r.drop (r.length - 3)).drop 6 = c!"..." ++ r.drop (r.length - 3) := by
          rw [List.append_assoc]; exact List.drop_left' h6
        have e3 : (r.take 6 ++ c!"..." ++ r.drop (r.length - 3)).drop 9 = r.drop (r.length - 3) :=
          List.drop_left' (by simp [hl])
        have e4 : (r.take 6 ++ c!"..." ++ r.drop (r.length - 3)).drop 12 = [] := by
          apply List.drop_eq_nil_of_le
          simp [hl]
        unfold matchSpecEx
        rw [e1, e2, e3, e4]
        simp only [Bool.and_eq_true, decide_eq_true_eq, List.all_eq_true]
        refine ⟨⟨⟨⟨?_, fun c h => hc c (List.mem_of_mem_take h)⟩, rfl⟩,
          fun c h => hc c (List.mem_of_mem_drop (List.mem_of_mem_take h))⟩, rfl⟩
        simp [hl]
      · cases h

/-- Example hash functions of the right shape. -/
def exRaw (alg : Str) (_ : Bytes) : Str := List.replicate ((hexLength alg).getD 0) 'a'

theorem exRaw_hex : HexDigests exRaw := by
  intro alg n b h
  unfold exRaw
  rw [h]
  refine ⟨by simp, ?_⟩
  intro c hc
  rw [List.eq_of_mem_replicate hc]
  decide

example : HexDigests exRaw ∧ (fileDigest exRaw c!"sha256-spec-ex" []).isSome = true := ⟨exRaw_hex, by decide⟩

/-- **C71** is false of the code for `sha512-spec-ex`: the digests it computes never match the
regular expression it checks them with. -/
theorem C71_violated (raw : Str → Bytes → Str) (hraw : HexDigests raw) (b : Bytes) :
    ∃ d m, fileDigest raw c!"sha512-spec-ex" b = some d ∧ digestRegex c!"sha512-spec-ex" = some m ∧ m d = false := by
  refine ⟨_, matchSpecEx, rfl, rfl, ?_⟩
  obtain ⟨hl, hc⟩ := hraw c!"sha512" 128 b rfl
  generalize raw c!"sha512" b = r at hl hc
  cases hm : matchSpecEx (r.take 15 ++ c!"..." ++ r.drop (r.length - 3)) with
  | false => rfl
  | true =>
    exfalso
    unfold matchSpecEx at hm
    simp only [Bool.and_eq_true] at hm
    have h1 := hm.2
    rw [atDollar_iff] at h1
    have hlen : ((r.take 15 ++ c!"..." ++ r.drop (r.length - 3)).drop 12).length = 9 := by simp [hl]
    rcases h1 with h1 | h1 <;> rw [h1] at hlen <;> simp at hlen

end Ocfl
