import Verif.Proofs.DigestMap
import Verif.Props.VersionDir
import Verif.Props.Digest
import Verif.Spec.Inventory
import Verif.Model.NewVersion

/-! # Lemmas on inventories -/

namespace Ocfl
open Spec Ocfl.Inv

/-! ## version directories -/

theorem parse_styleName {w : Option Nat} (hw : StyleOK w) {n : Nat} (h0 : 0 < n) (hn : n ≤ styleLimit w) :
    parseVersionDirectory (styleName w n) = .ok n := by
  rw [C02_parse_version_directory]
  cases w with
  | none =>
    refine ⟨natStr n, spells_unpadded n, ?_, by omega⟩
    simp only [styleLimit] at hn
    exact (natStr_length_le_iff (by decide)).mpr (by omega)
  | some w =>
    simp only [StyleOK] at hw
    simp only [styleLimit] at hn
    refine ⟨padStr w n, spells_padded w n, ?_, by omega⟩
    have hpos : 0 < 10 ^ (w - 1) := Nat.pow_pos (by decide)
    have hle : (natStr n).length ≤ w - 1 := (natStr_length_le_iff (by omega)).mpr (by omega)
    rw [padStr_length (by omega)]; omega

theorem next_styleName {w : Option Nat} (hw : StyleOK w) {n : Nat} (h0 : 0 < n) (hn : n ≤ styleLimit w) :
    nextVersionDirectory (styleName w n) =
      match w with
      | none => .ok (styleName w (n + 1))
      | some _ => if n + 1 ≤ styleLimit w then .ok (styleName w (n + 1)) else .error .objectException := by
  cases w with
  | none => exact C01_next_unpadded n h0
  | some w =>
    simp only [StyleOK] at hw
    have hpos : 0 < 10 ^ (w - 1) := Nat.pow_pos (by decide)
    have hl : styleLimit (some w) = 10 ^ (w - 1) - 1 := rfl
    have hs := C01_next_padded w n hw.1 (by omega)
    simp only [styleName]
    rw [hs]
    by_cases h : n + 1 < 10 ^ (w - 1)
    · rw [if_pos h, if_pos (by omega)]
    · rw [if_neg h, if_neg (by omega)]

theorem parse_inj_style {w : Option Nat} (hw : StyleOK w) {m n : Nat} (hm : 0 < m) (hm' : m ≤ styleLimit w)
    (hn : 0 < n) (hn' : n ≤ styleLimit w) (h : styleName w m = styleName w n) : m = n := by
  have h1 := parse_styleName hw hm hm'
  have h2 := parse_styleName hw hn hn'
  rw [h, h2] at h1
  simpa using h1.symm

theorem parseKeys_ok {ks : List Str} {ps : List (Nat × Str)} (h : parseKeys ks = .ok ps) :
    ps.map Prod.snd = ks ∧ ∀ p ∈ ps, parseVersionDirectory p.2 = .ok p.1 := by
  induction ks generalizing ps with
  | nil => simp [parseKeys] at h; subst h; simp
  | cons k ks ih =>
    unfold parseKeys at h
    split at h
    · cases h
    · rename_i n hn
      split at h
      · cases h
      · rename_i qs hqs
        simp at h; subst h
        obtain ⟨h1, h2⟩ := ih hqs
        refine ⟨by simp [h1], ?_⟩
        intro p hp
        rcases List.mem_cons.mp hp with rfl | hp
        · exact hn
        · exact h2 p hp

theorem parseKeys_of {ks : List Str} {f : Str → Nat} (h : ∀ k ∈ ks, parseVersionDirectory k = .ok (f k)) :
    parseKeys ks = .ok (ks.map (fun k => (f k, k))) := by
  induction ks with
  | nil => rfl
  | cons k ks ih =>
    unfold parseKeys
    rw [h k (by simp), ih (fun x hx => h x (List.mem_cons_of_mem _ hx))]
    rfl

/-- What `version_directories` returns: the keys, all well formed, in the order of their
numbers. -/
theorem versionDirectories_ok {inv : Inv} {vs : List Str} (h : inv.versionDirectories = .ok vs) :
    vs.Perm (Dict.keys inv.versionsD) ∧
    ∃ f : Str → Nat, (∀ v ∈ vs, parseVersionDirectory v = .ok (f v)) ∧ vs.Pairwise (fun a b => f a ≤ f b) := by
  unfold versionDirectories at h
  split at h
  · cases h
  · rename_i ps hps
    simp at h
    obtain ⟨h1, h2⟩ := parseKeys_ok hps
    have hperm := List.perm_insertionSort (fun a b : Nat × Str => a.1 ≤ b.1) ps
    refine ⟨?_, fun v => (parseVersionDirectory v).toOption.getD 0, ?_, ?_⟩
    · rw [← h, ← h1]; exact hperm.map _
    · intro v hv
      rw [← h] at hv
      obtain ⟨p, hp, rfl⟩ := List.mem_map.mp hv
      simp only [h2 p (hperm.mem_iff.mp hp)]; rfl
    · rw [← h]
      have hs := List.pairwise_insertionSort (fun a b : Nat × Str => a.1 ≤ b.1) ps
      rw [List.pairwise_map]
      refine List.Pairwise.imp_of_mem ?_ hs
      intro a b ha hb hab
      simp only [h2 a (hperm.mem_iff.mp ha), h2 b (hperm.mem_iff.mp hb)]
      exact hab

theorem versionDirectories_error {inv : Inv} {e : PyErr} (h : inv.versionDirectories = .error e) :
    e = .objectException ∧ ∃ k ∈ Dict.keys inv.versionsD, parseVersionDirectory k = .error .objectException := by
  unfold versionDirectories at h
  split at h
  · rename_i e' he
    simp at h; subst h
    generalize Dict.keys inv.versionsD = ks at he
    induction ks with
    | nil => simp [parseKeys] at he
    | cons k ks ih =>
      unfold parseKeys at he
      split at he
      · rename_i e2 h2
        simp at he; subst he
        have : e2 = .objectException := by
          unfold parseVersionDirectory at h2
          split at h2
          · simp at h2; exact h2.symm
          · simp only at h2
            split at h2
            · simp at h2; exact h2.symm
            · cases h2
        subst this
        exact ⟨rfl, k, by simp, h2⟩
      · split at he
        · rename_i e2 h2
          simp at he; subst he
          obtain ⟨h1, k', hk', hp⟩ := ih h2
          exact ⟨h1, k', List.mem_cons_of_mem _ hk', hp⟩
        · cases he
  · cases h

/-! ## the loop that finds the highest version -/

theorem highestLoop_append (l : List Str) (x : Str) (n : Nat) (hx : parseVersionDirectory x = .ok n) :
    ∀ (hi : Nat) (v : Option Str) {m : Nat} {u : Option Str}, highestLoop l hi v = .ok (m, u) →
      highestLoop (l ++ [x]) hi v = .ok (max m n, some x) := by
  induction l with
  | nil =>
    intro hi v m u h
    simp [highestLoop] at h
    obtain ⟨rfl, rfl⟩ := h
    simp [highestLoop, hx]
  | cons k l ih =>
    intro hi v m u h
    simp only [List.cons_append]
    unfold highestLoop at h ⊢
    split at h
    · cases h
    · rename_i n' hn'
      exact ih _ _ h

/-- `1, 2, ..., k` -/
def upTo (k : Nat) : List Nat := (List.range k).map (· + 1)

theorem upTo_succ (k : Nat) : upTo (k + 1) = upTo k ++ [k + 1] := by
  simp [upTo, List.range_succ]

theorem mem_upTo {k n : Nat} : n ∈ upTo k ↔ 0 < n ∧ n ≤ k := by
  simp only [upTo, List.mem_map, List.mem_range]
  constructor
  · rintro ⟨a, ha, rfl⟩; omega
  · rintro ⟨h1, h2⟩; exact ⟨n - 1, by omega, by omega⟩

theorem upTo_pairwise (k : Nat) : (upTo k).Pairwise (· < ·) := by
  unfold upTo
  rw [List.pairwise_map]
  exact List.pairwise_lt_range.imp (by intro a b h; omega)

theorem parseKeys_style {w : Option Nat} (hw : StyleOK w) {k : Nat} (hk : k ≤ styleLimit w) :
    parseKeys ((upTo k).map (styleName w)) = .ok ((upTo k).map (fun n => (n, styleName w n))) := by
  have : ∀ l : List Nat, (∀ n ∈ l, 0 < n ∧ n ≤ styleLimit w) →
      parseKeys (l.map (styleName w)) = .ok (l.map (fun n => (n, styleName w n))) := by
    intro l
    induction l with
    | nil => intro _; rfl
    | cons n l ih =>
      intro h
      have hn := h n (by simp)
      simp only [List.map_cons]
      unfold parseKeys
      rw [parse_styleName hw hn.1 hn.2, ih (fun x hx => h x (List.mem_cons_of_mem _ hx))]
  refine this _ (fun n hn => ?_)
  have := mem_upTo.mp hn
  omega

theorem versionDirectories_style {inv : Inv} {w : Option Nat} (hw : StyleOK w) {k : Nat} (hk : k ≤ styleLimit w)
    (hkeys : Dict.keys inv.versionsD = (upTo k).map (styleName w)) :
    inv.versionDirectories = .ok ((upTo k).map (styleName w)) := by
  unfold versionDirectories
  rw [hkeys, parseKeys_style hw hk]
  simp only [Except.ok.injEq]
  rw [List.Pairwise.insertionSort_eq]
  · simp
  · rw [List.pairwise_map]
    exact (upTo_pairwise k).imp (fun h => Nat.le_of_lt h)

theorem highestLoop_style {w : Option Nat} (hw : StyleOK w) {k : Nat} (hk : k ≤ styleLimit w) :
    highestLoop ((upTo k).map (styleName w)) 0 none = .ok (k, if k = 0 then none else some (styleName w k)) := by
  induction k with
  | zero => rfl
  | succ k ih =>
    rw [upTo_succ, List.map_append]
    simp only [List.map_cons, List.map_nil]
    rw [highestLoop_append _ _ _ (parse_styleName hw (by omega) hk) _ _ (ih (by omega))]
    simp

theorem nextVersionDir_style {inv : Inv} {w : Option Nat} (hw : StyleOK w) {k : Nat} (hk : k ≤ styleLimit w)
    (hkeys : Dict.keys inv.versionsD = (upTo k).map (styleName w)) (w' : Option Nat) (hw' : k = 0 → w' = w) :
    inv.nextVersionDir w' =
      if k + 1 ≤ styleLimit w ∨ w = none then .ok (styleName w (k + 1)) else .error .objectException := by
  unfold nextVersionDir
  rw [versionDirectories_style hw hk hkeys]
  simp only
  rw [highestLoop_style hw hk]
  simp only
  by_cases h0 : k = 0
  · subst h0
    rw [hw' rfl, if_pos rfl, C02_first_version_directory]
    have hl : 1 ≤ styleLimit w := by
      cases w with
      | none => decide
      | some w =>
        simp only [StyleOK] at hw
        simp only [styleLimit]
        have : 10 ^ 1 ≤ 10 ^ (w - 1) := Nat.pow_le_pow_right (by decide) (by omega)
        omega
    rw [if_pos (Or.inl hl)]
    cases w with
    | none => rfl
    | some w => simp only [StyleOK] at hw; simp [hw, styleName]
  · rw [if_neg h0, if_neg h0]
    simp only [Option.getD_some]
    rw [next_styleName hw (by omega) hk]
    cases w with
    | none => simp
    | some w => simp

end Ocfl
