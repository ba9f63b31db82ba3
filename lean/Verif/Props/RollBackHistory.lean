import Verif.Props.RollBack
import Verif.Props.History
import Verif.Props.LibraryValid

/-!
# C108 for objects made by the library
-/

namespace Ocfl

open Spec FS Prog Ocfl.Inv Validator

/-- What is left after going back is an object of the first `k` trees. -/
theorem Sound.rolledBack {E : Env} {s s' : FS} {base : Path} {dv : Str} {trees : List Tree} {recs : List Rec} (h : Sound E s base dv trees recs)
    (hw' : s'.WF) {k : Nat} (hk : 1 ≤ k) (hkn : k ≤ trees.length) {r : Rec} (hr : recs[k - 1]? = some r) {names : List Str}
    (hnames : ∀ v, v ∈ names ↔ ∃ i, 1 ≤ i ∧ i ≤ k ∧ v = styleName none i)
    (hrb : RolledBack s s' base (styleName none k) dv r.alg names) : Sound E s' base dv (trees.take k) (recs.take k) := by
  have hlen : (trees.take k).length = k := by rw [List.length_take]; omega
  refine ⟨hw', hrb.root, by rw [List.length_take, List.length_take, h.length], ?_, ?_, ?_, ?_, ?_, h.spec, hrb.declaration, ?_⟩
  · intro e
    have := congrArg List.length e
    rw [List.length_take, h.length, Nat.min_eq_left hkn] at this
    exact absurd this (by simp; omega)
  · intro i x hx
    have hi : i < k := by
      by_contra hc
      rw [List.getElem?_take, if_neg hc] at hx
      cases hx
    rw [List.getElem?_take_of_lt hi] at hx
    have hv := h.versions i x hx
    rw [List.take_take, Nat.min_eq_left (by omega)]
    refine hv.frame ?_
    intro w q hwq
    refine hrb.versions w ((hnames w).mpr ?_) q
    rcases hwq with rfl | hwq
    · exact ⟨i + 1, by omega, by omega, rfl⟩
    · obtain ⟨l, h1, h2, rfl⟩ := (hv.describes.parsed.good.names.2.2.2 w).mp hwq
      rw [List.length_take] at h2
      exact ⟨l, h1, by omega, rfl⟩
  · exact h.mono.sublist (List.take_sublist _ _)
  · exact fun a ha b hb => h.same a (List.mem_of_mem_take ha) b (List.mem_of_mem_take hb)
  · intro x hx
    have hxr : x = r := by
      rw [List.getLast?_eq_getElem?, List.length_take, h.length, Nat.min_eq_left hkn, List.getElem?_take_of_lt (by omega), hr] at hx
      exact (Option.some.inj hx).symm
    subst hxr
    have hv := h.versions _ _ hr
    rw [Nat.sub_add_cancel hk] at hv
    obtain ⟨h1, d, h2, h3⟩ := hv.stored
    rw [List.append_assoc] at h1 h3
    exact ⟨hrb.inventory.trans h1, d, h2, hrb.sidecar.trans h3⟩
  · intro w q hl
    have hfile : ∀ {b}, look s' (base ++ [w]) = some (.file b) → q = [] := by
      intro b hb
      by_contra hq
      have := look_prefix hw' (p := base ++ [w]) (q := base ++ w :: q) ⟨q, by simp⟩ (by
        intro e
        have := congrArg List.length e
        simp at this
        exact hq this) (n := (look s' (base ++ w :: q)).get (Option.isSome_iff_ne_none.mpr hl)) (by simp)
      rw [hb] at this
      cases this
    have hv := h.versions _ _ hr
    rw [Nat.sub_add_cancel hk] at hv
    obtain ⟨h1, d, h2, h3⟩ := hv.stored
    rw [List.append_assoc] at h1 h3
    have hlast : (recs.take k).getLast? = some r := by
      rw [List.getLast?_eq_getElem?, List.length_take, h.length, Nat.min_eq_left hkn, List.getElem?_take_of_lt (by omega), hr]
    rcases hrb.rest w q hl with e | e | e | e | ⟨e, he⟩
    · subst e
      exact .inr ⟨hfile hrb.declaration, .inr (.inl rfl)⟩
    · subst e
      exact .inr ⟨hfile (hrb.inventory.trans h1), .inl rfl⟩
    · subst e
      exact .inr ⟨hfile (hrb.sidecar.trans h3), .inr (.inr ⟨r, hlast, rfl⟩)⟩
    · obtain ⟨i, h1, h2, rfl⟩ := (hnames w).mp e
      exact .inl ⟨i - 1, by omega, by rw [Nat.sub_add_cancel h1]⟩
    · exfalso
      rw [he] at hl
      rcases h.only w q hl with ⟨i, _, e'⟩ | ⟨_, e' | e' | ⟨x, _, e'⟩⟩
      · have := styleName_head none (i + 1)
        rw [← e'] at this
        rcases e with rfl | rfl <;> cases this
      all_goals
        have := congrArg List.head? e'
        rcases e with rfl | rfl <;> cases this

/-- **C108** for objects made by the library: if such an object, created and updated from source directories with whatever settings, is reported
valid, and it is taken back to its version `k`, then it is reported valid again, and each version that is left can be extracted as it was. No
further conditions; the digest algorithm may have changed from version to version. -/
theorem C108_history {E : Env} (hE : Libraries E) (hcwd : ∀ w ∈ E.cwd, SafeName w) {objdir : Str} {trees : List Tree} {s s' : FS}
    (h : History E (absComps E.cwd objdir) trees s) (hno : NoCollision E.raw (InTrees trees)) (hlen : trees.length ≤ 99999)
    {cfg : Config} (hlax : cfg.lax = false) {es : List Entry} (hv : validateObject E cfg 0 s objdir = .ok (true, es)) {k : Nat} (hk : 1 ≤ k)
    (hkn : k < trees.length) {j : Json} {vs : List (Str × Json)} {alg spec : Str} (hw' : s'.WF)
    (hj : StoredJson E.lib s (absComps E.cwd objdir ++ [styleName none k, c!"inventory.json"]) j) (hvs : Member j c!"versions" (.obj vs))
    (halg : InventoryAlg j alg) (hspec : InventorySpec j spec)
    (hrb : RolledBack s s' (absComps E.cwd objdir) (styleName none k) spec alg (vs.map Prod.fst)) :
    (∃ es', validateObject E cfg 0 s' objdir = .ok (true, es')) ∧
    ∀ i t version dstdir, i < k → trees[i]? = some t → (version = styleName none (i + 1) ∨ (version = c!"head" ∧ i + 1 = k)) →
      ¬ absComps E.cwd objdir <+: absComps E.cwd dstdir → look s' (dstParent E dstdir) = some .dir → Vacant s' (absComps E.cwd dstdir) →
      ∃ s'' md, run (extract E objdir version dstdir) s' = (s'', .ok md) ∧ ∀ r b, FileBelow s'' (absComps E.cwd dstdir) r b ↔ t r b := by
  obtain ⟨dv, recs, hs⟩ := history_sound hE.json hE.hash hE.word hcwd h hno hlen
  obtain ⟨r, hr, _, hvs'⟩ := hs.at hk (by omega)
  have := storedJson_unique hj (hvs'.json hE.json)
  subst this
  have hwf := storedJson_wf hE.json hj
  have hg := hvs'.describes.parsed.good
  have := member_str_unique hwf halg hg.writtenAlg
  subst this
  have hspec := (hs.version_type hk (by omega) hvs').mp hspec
  have hdv : dv = c!"1.1" ∨ trees.length ≤ 2 := by
    rcases (C74 hE hcwd h hno hlen hlax).mp ⟨es, hv⟩ with hc | hc
    · exact .inl ((hs.declared (v := c!"1.1")).mp hc).symm
    · exact .inr hc
  have hsd : spec = dv := by
    rw [hspec]
    split
    · rfl
    · rcases hdv with e | e
      · exact e.symm
      · omega
  subst hsd
  have hnames : ∀ v, v ∈ vs.map Prod.fst ↔ ∃ i, 1 ≤ i ∧ i ≤ k ∧ v = styleName none i := by
    intro v
    have e := member_unique hwf hvs hg.writtenView.versions
    cases e
    rw [((Dict.sorted_perm _).map Prod.fst).mem_iff, List.map_map]
    have := hg.names.2.2.2 v
    rw [List.length_take, Nat.min_eq_left (by omega)] at this
    exact this
  have hs' := hs.rolledBack hw' hk (by omega) hr hnames hrb
  have hno' : NoCollision E.raw (InTrees (trees.take k)) := by
    intro alg ha b b' hb hb'
    refine hno alg ha b b' ?_ ?_
    · obtain ⟨t, ht, x⟩ := hb
      exact ⟨t, List.mem_of_mem_take ht, x⟩
    · obtain ⟨t, ht, x⟩ := hb'
      exact ⟨t, List.mem_of_mem_take ht, x⟩
  refine ⟨(C73 hE hlax hw').mpr ⟨hs'.isDir, hs'.valid hE hno' ?_ _⟩, ?_⟩
  · rcases hdv with e | e
    · exact .inl e
    · rw [List.length_take]
      exact .inr (by omega)
  · intro i t version dstdir hik ht hver hout hp hvac
    obtain ⟨s'', md, h1, h2, _⟩ := hs'.extract hE.json hcwd hno' (k := i) (t := t) (by rw [List.getElem?_take_of_lt hik]; exact ht)
      (by rw [List.length_take, Nat.min_eq_left (by omega)]; exact hver) hout hp hvac
    exact ⟨s'', md, h1, h2⟩

end Ocfl
