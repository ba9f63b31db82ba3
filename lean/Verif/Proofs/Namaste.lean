import Verif.Model.Namaste
import Verif.Spec.Namaste
import Verif.Proofs.Walk
import Verif.Proofs.Place
import Verif.Proofs.Utf8

/-! # Lemmas about Namaste files -/

namespace Ocfl

open Spec FS Prog

theorem isSpace_iff {c : Char} : isSpace c = true ↔ Blank c := by
  unfold isSpace Blank
  simp only [Bool.or_eq_true, Bool.and_eq_true, decide_eq_true_eq, List.mem_cons, List.not_mem_nil, or_false]
  omega

theorem takeWhile_blank {s : Str} : ∀ c ∈ s.takeWhile isSpace, Blank c := by
  intro c hc
  exact isSpace_iff.mp (List.mem_takeWhile_imp hc)

theorem dropWhile_head {s : Str} : ∀ c ∈ (s.dropWhile isSpace).head?, ¬ Blank c := by
  intro c hc hb
  have := List.head?_dropWhile_not isSpace s
  rw [Option.mem_def] at hc
  rw [hc] at this
  simp [isSpace_iff.mpr hb] at this

theorem stripped_strip (text : Str) : Stripped text (strip text) := by
  refine ⟨text.takeWhile isSpace, ((text.dropWhile isSpace).reverse.takeWhile isSpace).reverse, ?_, takeWhile_blank, ?_, ?_, ?_⟩
  · unfold strip
    rw [List.append_assoc, ← List.reverse_append, List.takeWhile_append_dropWhile, List.reverse_reverse,
      List.takeWhile_append_dropWhile]
  · intro c hc
    rw [List.mem_reverse] at hc
    exact takeWhile_blank c hc
  · intro c hc
    unfold strip at hc
    by_cases he : (text.dropWhile isSpace).reverse.dropWhile isSpace = []
    · rw [he] at hc; simp at hc
    · apply dropWhile_head (s := text) c
      have := List.takeWhile_append_dropWhile (p := isSpace) (l := (text.dropWhile isSpace).reverse)
      have := congrArg List.reverse this
      rw [List.reverse_append, List.reverse_reverse] at this
      rw [← this, List.head?_append]
      rw [Option.mem_def] at hc
      rw [hc]
      rfl
  · intro c hc
    unfold strip at hc
    rw [List.getLast?_reverse] at hc
    exact dropWhile_head c hc

theorem dropWhile_blank {p s : Str} (hp : ∀ c ∈ p, Blank c) : (p ++ s).dropWhile isSpace = s.dropWhile isSpace := by
  rw [List.dropWhile_append_of_pos]
  intro c hc
  exact isSpace_iff.mpr (hp c hc)

theorem strip_of_stripped {text core : Str} (h : Stripped text core) : strip text = core := by
  obtain ⟨pre, post, rfl, h1, h2, h3, h4⟩ := h
  unfold strip
  rw [List.append_assoc, dropWhile_blank h1]
  by_cases hc : core = []
  · subst hc
    have : ([] ++ post : Str).dropWhile isSpace = [] := by
      have := dropWhile_blank (s := []) h2
      simpa using this
    rw [this]; rfl
  · have e : (core ++ post).dropWhile isSpace = core ++ post := by
      apply dropWhile_eq_of_not
      intro c hc'
      rw [Bool.eq_false_iff]
      intro hb
      apply h3 c _ (isSpace_iff.mp hb)
      rw [List.head?_append] at hc'
      cases core with
      | nil => exact absurd rfl hc
      | cons a core => exact hc'
    rw [e, List.reverse_append, dropWhile_blank (by intro c hc; exact h2 c (List.mem_reverse.mp hc)), dropWhile_eq_of_not,
      List.reverse_reverse]
    intro c hc'
    rw [List.head?_reverse] at hc'
    rw [Bool.eq_false_iff]
    intro hb
    exact h4 c hc' (isSpace_iff.mp hb)

theorem safeChar_iff {isWord : Char → Bool} {c d : Char} :
    SafeChar isWord c d ↔ d = (if isWord c || c = '.' || c = '-' || c = ':' then c else '_') := by
  unfold SafeChar
  by_cases h : isWord c = true ∨ c = '.' ∨ c = '-' ∨ c = ':'
  · rw [if_pos (by simpa [Bool.or_eq_true, or_assoc] using h)]
    simp [h]
  · rw [if_neg (by simpa [Bool.or_eq_true, or_assoc] using h)]
    simp [h]

theorem forall₂_map {isWord : Char → Bool} {l t : Str} :
    List.Forall₂ (SafeChar isWord) l t ↔ t = l.map (fun c => if isWord c || c = '.' || c = '-' || c = ':' then c else '_') := by
  induction l generalizing t with
  | nil => simp
  | cons c l ih =>
    cases t with
    | nil => simp
    | cons d t => rw [List.forall₂_cons, ih, safeChar_iff, List.map_cons, List.cons.injEq]

theorem isTvalue_iff {isWord : Char → Bool} {text t : Str} : IsTvalue isWord text t ↔ contentToTvalue isWord text = t := by
  unfold IsTvalue contentToTvalue
  constructor
  · rintro ⟨core, h1, h2⟩
    rw [strip_of_stripped h1]
    exact (forall₂_map.mp h2).symm
  · intro h
    exact ⟨strip text, stripped_strip text, forall₂_map.mpr h.symm⟩

/-! ## Listing names -/

theorem listNamesLoop_eq {ws : List Str} (hws : ∀ w ∈ ws, SafeName w) : ∀ (l : List (Str × Node)), (∀ e ∈ l, SafeName e.1) →
    listNamesLoop (joinWith '/' ws) (l.map (fun (name, node) =>
      (if rstripSlash (joinWith '/' ws) = [] then name else rstripSlash (joinWith '/' ws) ++ '/' :: name,
        decide (node = Node.dir)))) = .ok (l.map Prod.fst) := by
  intro l
  induction l with
  | nil => intro _; rfl
  | cons x l ih =>
    intro h
    obtain ⟨n, node⟩ := x
    have hn : SafeName n := h (n, node) (by simp)
    have ih := ih (fun e he => h e (by simp [he]))
    rw [List.map_cons]
    unfold listNamesLoop
    dsimp only
    have hname : (if rstripSlash (joinWith '/' ws) = [] then n else rstripSlash (joinWith '/' ws) ++ '/' :: n) =
        joinWith '/' (ws ++ [n]) := by
      rw [rstripSlash_join (isComp_list hws)]
      by_cases hne : ws = []
      · subst hne; rfl
      · rw [if_neg (fun hc => hne ((joinWith_eq_nil (isComp_list hws)).mp hc)), joinWith_append hne (by simp)]
        rfl
    have hrel : fswRelpath (joinWith '/' (ws ++ [n])) (joinWith '/' ws) = .ok (joinWith '/' [n]) :=
      fswRelpath_append (ws := ws) (vs := [n]) (isComp_list hws) (by simpa using SafeName.isComp hn)
        (Or.inl rfl) (Or.inl rfl)
    rw [hname, hrel]
    dsimp only
    rw [ih]
    dsimp only
    have hj : joinWith '/' [n] = n := rfl
    rw [hj, if_pos hn.1]
    rfl

theorem listdirNames_eq {s : FS} (h : s.WF) {base : Path} {ws : List Str} (hws : ∀ w ∈ ws, SafeName w) {dir : Str}
    (hdir : dir = joinWith '/' ws ∨ dir = '/' :: joinWith '/' ws)
    (hd : FS.look s (base ++ ws) = some .dir) :
    fswListdirNames s base dir = .ok ((FS.children s (base ++ ws)).map Prod.fst) := by
  unfold fswListdirNames FS.listdir
  have e1 : lstripSlash dir = joinWith '/' ws := by
    rcases hdir with rfl | rfl
    · exact lstripSlash_join (isComp_list hws)
    · exact lstripSlash_slash (isComp_list hws)
  rw [e1]
  dsimp only
  rw [FS.resolve_join base hws, hd]
  dsimp only
  exact listNamesLoop_eq hws _ (fun e he => FS.children_safe h (n := e.2) he)

theorem mem_names {s : FS} (h : s.WF) {p : Path} {n : Str} :
    n ∈ (FS.children s p).map Prod.fst ↔ look s (p ++ [n]) ≠ none := by
  rw [List.mem_map]
  constructor
  · rintro ⟨⟨m, node⟩, hm, rfl⟩
    rw [(FS.mem_children h).mp hm]; simp
  · intro hl
    obtain ⟨node, hn⟩ := Option.ne_none_iff_exists'.mp hl
    exact ⟨(n, node), (FS.mem_children h).mpr hn, rfl⟩

theorem sortStr_perm (l : List Str) : (sortStr l).Perm l := List.perm_insertionSort _ l

theorem char_toNat_inj {a b : Char} (h : a.toNat = b.toNat) : a = b := Char.toNat_inj.mp h

theorem strLe_total (a b : Str) : strLe a b = true ∨ strLe b a = true := by
  induction a generalizing b with
  | nil => simp [strLe]
  | cons x a ih =>
    cases b with
    | nil => simp [strLe]
    | cons y b =>
      unfold strLe
      by_cases hxy : x = y
      · subst hxy; simpa using ih b
      · rw [if_neg hxy, if_neg (Ne.symm hxy)]
        have : x.toNat ≠ y.toNat := fun h => hxy (char_toNat_inj h)
        simp only [decide_eq_true_eq]
        omega

theorem strLe_trans (a b c : Str) (h1 : strLe a b = true) (h2 : strLe b c = true) : strLe a c = true := by
  induction a generalizing b c with
  | nil => simp [strLe]
  | cons x a ih =>
    cases b with
    | nil => simp [strLe] at h1
    | cons y b =>
      cases c with
      | nil => simp [strLe] at h2
      | cons z c =>
        unfold strLe at h1 h2 ⊢
        by_cases hxy : x = y
        · subst hxy
          rw [if_pos rfl] at h1
          by_cases hxz : x = z
          · subst hxz
            rw [if_pos rfl] at h2 ⊢
            exact ih b c h1 h2
          · rw [if_neg hxz] at h2 ⊢
            exact h2
        · rw [if_neg hxy] at h1
          by_cases hyz : y = z
          · subst hyz
            rw [if_neg hxy]; exact h1
          · rw [if_neg hyz] at h2
            simp only [decide_eq_true_eq] at h1 h2
            rw [if_neg (by rintro rfl; omega)]
            simp only [decide_eq_true_eq]
            omega

theorem strLe_antisymm (a b : Str) (h1 : strLe a b = true) (h2 : strLe b a = true) : a = b := by
  induction a generalizing b with
  | nil =>
    cases b with
    | nil => rfl
    | cons y b => simp [strLe] at h2
  | cons x a ih =>
    cases b with
    | nil => simp [strLe] at h1
    | cons y b =>
      unfold strLe at h1 h2
      by_cases hxy : x = y
      · subst hxy
        rw [if_pos rfl] at h1 h2
        rw [ih b h1 h2]
      · rw [if_neg hxy] at h1
        rw [if_neg (Ne.symm hxy)] at h2
        simp only [decide_eq_true_eq] at h1 h2
        omega

instance : Std.Total (fun a b : Str => strLe a b = true) := ⟨strLe_total⟩
instance : IsTrans Str (fun a b : Str => strLe a b = true) := ⟨strLe_trans⟩

theorem sortStr_sorted (l : List Str) : (sortStr l).Pairwise (fun a b => strLe a b = true) :=
  List.pairwise_insertionSort (fun a b => strLe a b = true) l

/-- A sorted list is determined by its members. -/
theorem sorted_unique {l l' : List Str} (hp : l.Perm l') (h : l.Pairwise (fun a b => strLe a b = true))
    (h' : l'.Pairwise (fun a b => strLe a b = true)) : l = l' :=
  hp.eq_of_pairwise (fun a b _ _ h1 h2 => strLe_antisymm a b h1 h2) h h'

end Ocfl
