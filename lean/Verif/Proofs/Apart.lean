import Verif.Spec.Apart
import Verif.Proofs.BuildDirs
import Verif.Proofs.ExtractTop
import Verif.Props.History
import Verif.Props.Crash

/-!
# Taking an object apart: proofs
-/

namespace Ocfl

open Spec FS Prog

/-! ## The directory of a joined name -/

/-- Empty, or a slash at the end. -/
def SlashEnd (y : Str) : Prop := y = [] ∨ ∃ z, y = z ++ ['/']

theorem osPathSplit_slashEnd {y w : Str} (hy : SlashEnd y) (hw : '/' ∉ w) : (osPathSplit (y ++ w)).2 = w := by
  have h : ((y ++ w).reverse.takeWhile (· ≠ '/')).reverse = w := by
    rw [List.reverse_append, List.takeWhile_append_of_pos]
    · rcases hy with rfl | ⟨z, rfl⟩
      · simp
      · simp
    · intro c hc
      have : c ∈ w := by simpa using hc
      simp only [decide_eq_true_eq, ne_eq]
      rintro rfl; exact hw this
  unfold osPathSplit
  simp only
  split <;> exact h

theorem splitOn_append_last {w : Str} (hw : '/' ∉ w) (x : Str) : splitOn '/' (x ++ '/' :: w) = splitOn '/' x ++ [w] := by
  have hx := joinWith_splitOn '/' x
  conv_lhs => rw [← hx]
  rw [show joinWith '/' (splitOn '/' x) ++ '/' :: w = joinWith '/' (splitOn '/' x ++ [w]) from by
    rw [joinWith_append (splitOn_ne_nil _ _) (by simp)]; rfl]
  refine splitOn_joinWith (by simp) ?_
  intro u hu
  rcases List.mem_append.mp hu with h | h
  · exact splitOn_no_sep h
  · rw [List.mem_singleton.mp h]; exact hw

theorem osNormpath_join {p w : Str} (hw : SafeName w) : ∃ y, SlashEnd y ∧ osNormpath (osPathJoin p w) = y ++ w := by
  have hs : '/' ∉ w := hw.2.2.2
  have e0 : osPathJoin p w = if p = [] ∨ endsWith p c!"/" then p ++ w else p ++ c!"/" ++ w := by
    unfold osPathJoin
    split
    · exact absurd (List.mem_cons_self) hs
    · rfl
  have e1 : ∃ xs, splitOn '/' (osPathJoin p w) = xs ++ [w] := by
    rw [e0]
    by_cases hp : p = []
    · subst hp
      rw [if_pos (Or.inl rfl), List.nil_append]
      exact ⟨[], splitOn_of_no_sep hs⟩
    · by_cases he : endsWith p c!"/" = true
      · rw [if_pos (Or.inr he)]
        obtain ⟨q, hq⟩ := endsWith_iff.mp he
        have e1 : p = q ++ ['/'] := hq
        rw [e1, List.append_assoc]
        exact ⟨_, splitOn_append_last hs q⟩
      · rw [if_neg (by rintro (h | h); exact hp h; exact he h), List.append_assoc]
        exact ⟨_, splitOn_append_last hs p⟩
  obtain ⟨xs, hxs⟩ := e1
  unfold osNormpath
  simp only
  generalize hlead : (if startsWith (osPathJoin p w) c!"//" = true ∧ ¬ startsWith (osPathJoin p w) c!"///" = true then c!"//"
    else if startsWith (osPathJoin p w) c!"/" = true then c!"/" else []) = lead
  have hl : SlashEnd lead := by
    subst hlead
    split
    · exact Or.inr ⟨['/'], rfl⟩
    · split
      · exact Or.inr ⟨[], rfl⟩
      · exact Or.inl rfl
  rw [hxs, List.foldl_append]
  generalize xs.foldl (normpathStep (decide (lead ≠ []))) [] = acc
  have h2 : [w].foldl (normpathStep (decide (lead ≠ []))) acc = acc ++ [w] := by
    show normpathStep _ acc w = _
    unfold normpathStep
    rw [if_neg (by rintro (h | h); exact hw.1 h; exact hw.2.1 h), if_pos (Or.inl hw.2.2.1)]
  rw [h2]
  have h3 : ∃ y, SlashEnd y ∧ lead ++ joinWith '/' (acc ++ [w]) = y ++ w := by
    by_cases ha : acc = []
    · subst ha; exact ⟨lead, hl, rfl⟩
    · rw [joinWith_append ha (by simp)]
      exact ⟨lead ++ joinWith '/' acc ++ ['/'], Or.inr ⟨_, rfl⟩, by simp [joinWith]⟩
  obtain ⟨y, hy, he⟩ := h3
  rw [he, if_neg (by
    intro h
    exact hw.1 (List.append_eq_nil_iff.mp h).2)]
  exact ⟨y, hy, rfl⟩

/-- The directory in which `extract` looks for a name in a directory. -/
theorem dstParent_join (E : Env) (p : Str) {w : Str} (hw : SafeName w) : dstParent E (osPathJoin p w) = absComps E.cwd p := by
  obtain ⟨y, hy, he⟩ := osNormpath_join (p := p) hw
  have h1 := (dstParent_resolve E (osPathJoin p w)).1
  rw [he, osPathSplit_slashEnd hy hw.2.2.2, resolve_name _ hw, absComps_osPathJoin _ _ hw] at h1
  exact (List.append_inj' h1 rfl).1

theorem versionNo_unpaddedName {m : Nat} (h0 : m ≠ 0) (h : m ≤ 99999) : VersionNo (unpaddedName m) m :=
  ⟨natStr m, spells_unpadded m, (natStr_length_le_iff (by decide : 0 < 5)).mpr (by omega), h0⟩

/-! ## The first tree is not empty -/

theorem History.first {E : Env} {base : Path} {trees : List Tree} {s : FS} (h : History E base trees s)
    (hpos : ∀ {base' : Path} {ts : List Tree} {s' : FS}, History E base' ts s' → (∃ rest, trees = ts ++ rest) → ts ≠ []) :
    ∀ t, trees[0]? = some t → ∃ r b, t r b := by
  induction h with
  | create _ _ _ _ _ nonempty _ _ =>
    intro t ht
    simp only [List.getElem?_cons_zero, Option.some.injEq] at ht
    subst ht; exact nonempty
  | @build base o srcdir objdir metadata s s' inv n _ _ _ _ _ _ _ nonempty _ _ =>
    intro t ht
    simp only [versionTrees, List.getElem?_map] at ht
    rcases hn : (List.range n)[0]? with _ | x
    · rw [hn] at ht; cases ht
    · rw [hn] at ht
      simp only [Option.map_some, Option.some.injEq] at ht
      obtain ⟨_, hx⟩ := List.getElem?_eq_some_iff.mp hn
      rw [List.getElem_range] at hx
      subst hx ht; exact nonempty
  | elsewhere _ _ _ ih => exact ih hpos
  | copied _ _ _ ih => exact ih hpos
  | @update base trees o srcdir objdir metadata abort s s' inv before _ _ _ _ _ ih =>
    intro t ht
    have hne := hpos before ⟨_, rfl⟩
    rw [List.getElem?_append_left (List.length_pos_iff.mpr hne)] at ht
    exact ih (fun h ⟨rest, e⟩ => hpos h ⟨rest ++ [FileBelow s (absComps E.cwd srcdir)], by rw [e, List.append_assoc]⟩) t ht

/-! ## The versions, one after the other -/

/-- What is below `dst` after the first versions were extracted. -/
structure TakenApart (s s1 : FS) (dst : Path) (trees : List Tree) (n : Nat) : Prop where
  wf : s1.WF
  frame : ∀ q, ¬ dst <+: q → look s1 q = look s q
  root : look s1 dst = some .dir
  only : ∀ w r, look s1 (dst ++ w :: r) ≠ none → ∃ k < n, w = unpaddedName (k + 1)
  dirs : ∀ k < n, look s1 (dst ++ [unpaddedName (k + 1)]) = some .dir
  files : ∀ k < n, ∀ t, trees[k]? = some t → ∀ r b, FileBelow s1 (dst ++ [unpaddedName (k + 1)]) r b ↔ t r b

theorem run_takeApart {E : Env} (hlib : E.lib.Lawful) (hhash : HashLib E.raw) (hword : WordClass E.isWord)
    (hcwd : ∀ w ∈ E.cwd, SafeName w) {objdir dstdir : Str} {trees : List Tree} {s : FS}
    (h : History E (absComps E.cwd objdir) trees s) (hno : NoCollision E.raw (InTrees trees)) (hlen : trees.length ≤ 99999)
    (hout : ¬ absComps E.cwd objdir <+: absComps E.cwd dstdir)
    (hdst : look s (absComps E.cwd dstdir) = some .dir) (hempty : ∀ r, r ≠ [] → look s (absComps E.cwd dstdir ++ r) = none) :
    ∀ n ≤ trees.length, ∃ s1, run (takeApart E objdir dstdir n) s = (s1, .ok ()) ∧
      TakenApart s s1 (absComps E.cwd dstdir) trees n := by
  obtain ⟨dv0, recs0, hs0⟩ := history_sound hlib hhash hword hcwd h hno hlen
  have hapart : ∀ q, absComps E.cwd objdir <+: q → ¬ absComps E.cwd dstdir <+: q := by
    intro q hq hd
    rcases List.prefix_or_prefix_of_prefix hq hd with h1 | ⟨r, h1⟩
    · exact hout h1
    · by_cases hr : r = []
      · subst hr
        rw [List.append_nil] at h1
        exact hout (h1 ▸ List.prefix_refl _)
      · have := hempty r hr
        rw [h1, hs0.isDir] at this
        cases this
  intro n
  induction n with
  | zero =>
    intro _
    refine ⟨s, rfl, hs0.wf, fun _ _ => rfl, hdst, ?_, fun k hk => absurd hk (by omega), fun k hk => absurd hk (by omega)⟩
    intro w r hl
    exact absurd (hempty (w :: r) (by simp)) hl
  | succ n ih =>
    intro hn
    obtain ⟨s1, hr1, hT⟩ := ih (by omega)
    have hist1 : History E (absComps E.cwd objdir) trees s1 := .elsewhere h hT.wf (fun q hq => hT.frame q (hapart q hq))
    obtain ⟨dv, recs, hs⟩ := history_sound hlib hhash hword hcwd hist1 hno hlen
    have hsafe : SafeName (unpaddedName (n + 1)) := styleName_safe none (n + 1)
    have habs := absComps_osPathJoin E.cwd dstdir hsafe
    obtain ⟨t, hk⟩ : ∃ t, trees[n]? = some t := ⟨trees[n], List.getElem?_eq_getElem (by omega)⟩
    have hout1 : ¬ absComps E.cwd objdir <+: absComps E.cwd (osPathJoin dstdir (unpaddedName (n + 1))) := by
      intro hc
      refine hapart _ hc ?_
      rw [habs]; exact List.prefix_append _ _
    have hnone : ∀ r, look s1 (absComps E.cwd dstdir ++ unpaddedName (n + 1) :: r) = none := by
      intro r
      by_contra hc
      obtain ⟨k, hkn, he⟩ := hT.only _ _ hc
      have := unpaddedName_inj he
      omega
    have hvac : Vacant s1 (absComps E.cwd (osPathJoin dstdir (unpaddedName (n + 1)))) := by
      rw [habs]
      exact ⟨Or.inl (hnone []), fun r _ => by rw [List.append_assoc]; exact hnone r⟩
    obtain ⟨s2, md, hr2, hf2, hfr2⟩ := hs.extract hlib hcwd hno hk (Or.inl rfl) hout1
      (by rw [dstParent_join E dstdir hsafe]; exact hT.root) hvac
    obtain ⟨hw2, inv, v, _, _, j, m, vs, states, _, _, _, _, _, hX⟩ := run_extract hlib hcwd hT.wf hout1 (hs.plain hlib) hr2
    rw [habs] at hf2 hfr2 hX
    have hr : run (takeApart E objdir dstdir (n + 1)) s = (s2, .ok ()) := by
      show run (Prog.bind _ _) s = _
      rw [run_bind_ok hr1, run_bind_ok (show run (Ocfl.extract E objdir (unpaddedName (n + 1)) _) s1 = _ from hr2)]
      rfl
    have hother : ∀ k, k < n → ∀ q, look s2 (absComps E.cwd dstdir ++ unpaddedName (k + 1) :: q) =
        look s1 (absComps E.cwd dstdir ++ unpaddedName (k + 1) :: q) := by
      intro k hk q
      refine hfr2 _ ?_
      intro hc
      rw [List.prefix_append_right_inj] at hc
      obtain ⟨u, hu⟩ := hc
      have := unpaddedName_inj (List.cons.inj hu).1
      omega
    refine ⟨s2, hr, hw2, ?_, ?_, ?_, ?_, ?_⟩
    · intro q hq
      rw [hfr2 q (fun hc => hq ((List.prefix_append _ _).trans hc)), hT.frame q hq]
    · rw [hfr2 _ (by
        intro hc
        have := hc.length_le
        simp only [List.length_append, List.length_cons, List.length_nil] at this
        omega)]
      exact hT.root
    · intro w r hl
      by_cases hc : absComps E.cwd dstdir ++ [unpaddedName (n + 1)] <+: absComps E.cwd dstdir ++ w :: r
      · rw [List.prefix_append_right_inj] at hc
        obtain ⟨u, hu⟩ := hc
        exact ⟨n, by omega, (List.cons.inj hu).1.symm⟩
      · rw [hfr2 _ hc] at hl
        obtain ⟨k, hk, he⟩ := hT.only w r hl
        exact ⟨k, by omega, he⟩
    · intro k hk
      by_cases he : k = n
      · subst he; exact hX.root
      · rw [hother k (by omega) []]; exact hT.dirs k (by omega)
    · intro k hk' t' ht'
      by_cases he : k = n
      · subst he
        rw [hk] at ht'
        cases ht'
        exact hf2
      · intro r b
        rw [← hT.files k (by omega) t' ht' r b]
        unfold FileBelow
        rw [List.append_assoc, show [unpaddedName (k + 1)] ++ r = unpaddedName (k + 1) :: r from rfl, hother k (by omega) r]

theorem TakenApart.sources {s s1 : FS} {dst : Path} {trees : List Tree} {n : Nat} (h : TakenApart s s1 dst trees n) (hn : n ≤ 99999) :
    VersionSources s1 dst n := by
  intro w
  constructor
  · rintro ⟨m, hd, _⟩
    exact h.only w [] (by rw [hd]; simp)
  · rintro ⟨k, hk, rfl⟩
    exact ⟨k + 1, h.dirs k hk, versionNo_unpaddedName (by omega) (by omega)⟩

theorem TakenApart.trees {s s1 : FS} {dst : Path} {trees : List Tree} (h : TakenApart s s1 dst trees trees.length) :
    versionTrees s1 dst trees.length = trees := by
  apply List.ext_getElem?
  intro k
  by_cases hk : k < trees.length
  · rw [versionTrees, List.getElem?_map, List.getElem?_range hk, List.getElem?_eq_getElem hk]
    simp only [Option.map_some, Option.some.injEq]
    funext r b
    exact propext (h.files k hk _ (List.getElem?_eq_getElem hk) r b)
  · rw [List.getElem?_eq_none (by simp [versionTrees]; omega), List.getElem?_eq_none (by omega)]

end Ocfl
