import Verif.Model.FswTree
import Verif.Proofs.FS
import Mathlib.Data.List.Perm.Subperm
import Mathlib.Data.List.Nodup

/-! # Lemmas about walking directories -/

namespace Ocfl

open Spec

theorem isComp_list {ws : List Str} (h : ∀ w ∈ ws, SafeName w) : ∀ w ∈ ws, IsComp w :=
  fun w hw => SafeName.isComp (h w hw)

theorem joinWith_head {ws : List Str} (h : ∀ w ∈ ws, IsComp w) : ∀ c ∈ (joinWith '/' ws).head?, c ≠ '/' := by
  intro c hc
  cases ws with
  | nil => simp [joinWith] at hc
  | cons w ws =>
    have hw := h w (by simp)
    obtain ⟨a, w', rfl⟩ : ∃ a w', w = a :: w' := by
      cases w with
      | nil => exact absurd rfl hw.1
      | cons a w' => exact ⟨a, w', rfl⟩
    have ha : a ≠ '/' := by
      rintro rfl
      exact hw.2 (by simp)
    cases ws with
    | nil => simp [joinWith] at hc; rw [← hc]; exact ha
    | cons x xs => simp [joinWith] at hc; rw [← hc]; exact ha

theorem lstripSlash_join {ws : List Str} (h : ∀ w ∈ ws, IsComp w) : lstripSlash (joinWith '/' ws) = joinWith '/' ws := by
  unfold lstripSlash
  apply dropWhile_eq_of_not
  intro a ha
  simpa using joinWith_head h a ha

theorem lstripSlash_slash {ws : List Str} (h : ∀ w ∈ ws, IsComp w) :
    lstripSlash ('/' :: joinWith '/' ws) = joinWith '/' ws := by
  have : lstripSlash ('/' :: joinWith '/' ws) = lstripSlash (joinWith '/' ws) := by simp [lstripSlash]
  rw [this, lstripSlash_join h]

theorem rstripSlash_join {ws : List Str} (h : ∀ w ∈ ws, IsComp w) : rstripSlash (joinWith '/' ws) = joinWith '/' ws := by
  by_cases hne : ws = []
  · subst hne; rfl
  · exact rstripSlash_of (joinWith_not_slash hne h)

theorem joinWith_eq_nil {ws : List Str} (h : ∀ w ∈ ws, IsComp w) : joinWith '/' ws = [] ↔ ws = [] := by
  constructor
  · intro he
    by_contra hne
    exact joinWith_ne_nil hne h he
  · rintro rfl; rfl

/-- `_fsw_relpath` removes the names of the start directory. -/
theorem fswRelpath_append {ws vs : List Str} (hws : ∀ w ∈ ws, IsComp w) (hvs : ∀ w ∈ vs, IsComp w) {p st : Str}
    (hp : p = joinWith '/' (ws ++ vs) ∨ p = '/' :: joinWith '/' (ws ++ vs))
    (hst : st = joinWith '/' ws ∨ st = '/' :: joinWith '/' ws) :
    fswRelpath p st = .ok (joinWith '/' vs) := by
  have hall : ∀ w ∈ ws ++ vs, IsComp w := by
    intro w hw
    rcases List.mem_append.mp hw with hw | hw
    · exact hws w hw
    · exact hvs w hw
  have e1 : lstripSlash p = joinWith '/' (ws ++ vs) := by
    rcases hp with rfl | rfl
    · exact lstripSlash_join hall
    · exact lstripSlash_slash hall
  have e2 : lstripSlash st = joinWith '/' ws := by
    rcases hst with rfl | rfl
    · exact lstripSlash_join hws
    · exact lstripSlash_slash hws
  unfold fswRelpath
  dsimp only
  rw [e1, e2]
  by_cases hne : ws = []
  · subst hne; simp [joinWith]
  · rw [if_neg (fun hc => hne ((joinWith_eq_nil hws).mp hc)), splitOn_joinWith hne (fun w hw => (hws w hw).2),
      splitOn_joinWith (by simp [hne]) (fun w hw => (hall w hw).2), if_neg (by simp), if_neg (by simp)]
    simp

/-- The string for a directory during a walk. -/
def dstr (ws : List Str) : Str := '/' :: joinWith '/' ws

theorem osPathJoin_dstr {ws : List Str} {n : Str} (h : ∀ w ∈ ws, IsComp w) (hn : IsComp n) :
    osPathJoin (dstr ws) n = dstr (ws ++ [n]) := by
  have hhead : n.head? ≠ some '/' := by
    intro hc
    cases n with
    | nil => simp at hc
    | cons a n => simp at hc; subst hc; exact hn.2 (by simp)
  by_cases hne : ws = []
  · subst hne
    have e : dstr [] = ['/'] := rfl
    rw [e]
    unfold osPathJoin
    split
    · simp at hhead
    · rw [if_pos (by right; decide)]
      rfl
  · unfold dstr
    rw [osPathJoin_of (by simp) _ hhead, joinWith_append hne (by simp)]
    · rfl
    · have := endsWith_slash_append (a := ['/']) (joinWith_ne_nil hne h)
      rw [List.singleton_append] at this
      rw [this, joinWith_not_slash hne h]

/-- The names of the directories in a directory. -/
def dirNames (s : FS) (p : Path) : List Str := ((FS.children s p).filter (fun e => e.2 = .dir)).map Prod.fst

/-- The names of the files in a directory. -/
def fileNames (s : FS) (p : Path) : List Str := ((FS.children s p).filter (fun e => e.2 ≠ .dir)).map Prod.fst

theorem mem_dirNames {s : FS} (h : s.WF) {p : Path} {w : Str} :
    w ∈ dirNames s p ↔ FS.look s (p ++ [w]) = some .dir := by
  unfold dirNames
  rw [List.mem_map]
  constructor
  · rintro ⟨⟨w', n⟩, hm, rfl⟩
    rw [List.mem_filter] at hm
    have : n = .dir := by simpa using hm.2
    rw [← FS.mem_children h, ← this]
    exact hm.1
  · intro hl
    exact ⟨(w, .dir), List.mem_filter.mpr ⟨(FS.mem_children h).mpr hl, by simp⟩, rfl⟩

theorem mem_fileNames {s : FS} (h : s.WF) {p : Path} {w : Str} :
    w ∈ fileNames s p ↔ ∃ b, FS.look s (p ++ [w]) = some (.file b) := by
  unfold fileNames
  rw [List.mem_map]
  constructor
  · rintro ⟨⟨w', n⟩, hm, rfl⟩
    rw [List.mem_filter] at hm
    have hn : n ≠ .dir := by simpa using hm.2
    cases n with
    | dir => exact absurd rfl hn
    | file b => exact ⟨b, (FS.mem_children h).mp hm.1⟩
  · rintro ⟨b, hl⟩
    exact ⟨(w, .file b), List.mem_filter.mpr ⟨(FS.mem_children h).mpr hl, by simp⟩, rfl⟩

theorem dirNames_nodup {s : FS} (h : s.WF) (p : Path) : (dirNames s p).Nodup :=
  List.Nodup.sublist (List.Sublist.map _ List.filter_sublist) (FS.children_names_nodup h p)

theorem fileNames_nodup {s : FS} (h : s.WF) (p : Path) : (fileNames s p).Nodup :=
  List.Nodup.sublist (List.Sublist.map _ List.filter_sublist) (FS.children_names_nodup h p)

/-- What a walk reports for a directory. -/
def visitOf (s : FS) (base : Path) (ws : List Str) : Visit :=
  ⟨dstr ws, dirNames s (base ++ ws), fileNames s (base ++ ws)⟩

theorem walkEntries_eq {ws : List Str} (hws : ∀ w ∈ ws, SafeName w) : ∀ (l : List (Str × Node)), (∀ e ∈ l, SafeName e.1) →
    walkEntries (dstr ws) (l.map (fun (name, node) =>
      (if rstripSlash (joinWith '/' ws) = [] then name else rstripSlash (joinWith '/' ws) ++ '/' :: name,
        decide (node = Node.dir)))) =
    .ok ((l.filter (fun e => e.2 = .dir)).map Prod.fst, (l.filter (fun e => e.2 ≠ .dir)).map Prod.fst) := by
  intro l
  induction l with
  | nil => intro _; rfl
  | cons x l ih =>
    intro h
    obtain ⟨n, node⟩ := x
    have hn : SafeName n := h (n, node) (by simp)
    have ih := ih (fun e he => h e (by simp [he]))
    rw [List.map_cons]
    unfold walkEntries
    dsimp only
    have hname : (if rstripSlash (joinWith '/' ws) = [] then n else rstripSlash (joinWith '/' ws) ++ '/' :: n) =
        joinWith '/' (ws ++ [n]) := by
      rw [rstripSlash_join (isComp_list hws)]
      by_cases hne : ws = []
      · subst hne; rfl
      · rw [if_neg (fun hc => hne ((joinWith_eq_nil (isComp_list hws)).mp hc)), joinWith_append hne (by simp)]
        rfl
    have hrel : fswRelpath (joinWith '/' (ws ++ [n])) (dstr ws) = .ok (joinWith '/' [n]) :=
      fswRelpath_append (ws := ws) (vs := [n]) (isComp_list hws) (by simpa using SafeName.isComp hn)
        (Or.inl rfl) (Or.inr rfl)
    rw [hname, hrel]
    dsimp only
    rw [ih]
    dsimp only
    have hj : joinWith '/' [n] = n := rfl
    rw [hj, if_neg (by rintro (h | h | h); exacts [hn.2.2.1 h, hn.2.1 h, hn.1 h])]
    cases node with
    | dir => simp
    | file b => simp

theorem walkDir_eq {s : FS} (h : s.WF) {base : Path} {ws : List Str} (hws : ∀ w ∈ ws, SafeName w)
    (hd : FS.look s (base ++ ws) = some .dir) : walkDir s base (dstr ws) = .ok (visitOf s base ws) := by
  unfold walkDir FS.listdir
  have e1 : lstripSlash (dstr ws) = joinWith '/' ws := lstripSlash_slash (isComp_list hws)
  rw [e1]
  dsimp only
  rw [FS.resolve_join base hws, hd]
  dsimp only
  rw [walkEntries_eq hws (FS.children s (base ++ ws)) (fun e he => FS.children_safe h (n := e.2) he)]
  rfl

/-- The directories a walk comes to, in order, up to a depth; `next` gives the names followed. -/
def treeWalk (next : List Str → List Str) : (depth : Nat) → List Str → List (List Str)
  | 0, _ => []
  | d + 1, ws => ws :: (next ws).flatMap (fun n => treeWalk next d (ws ++ [n]))

theorem mem_treeWalk {next : List Str → List Str} {d : Nat} {ws q : List Str} :
    q ∈ treeWalk next d ws ↔
      ∃ r, q = ws ++ r ∧ r.length < d ∧ ∀ a w b, r = a ++ w :: b → w ∈ next (ws ++ a) := by
  induction d generalizing ws with
  | zero => simp [treeWalk]
  | succ d ih =>
    unfold treeWalk
    rw [List.mem_cons, List.mem_flatMap]
    constructor
    · rintro (rfl | ⟨n, hn, hq⟩)
      · exact ⟨[], by simp, by simp, by simp⟩
      · rw [ih] at hq
        obtain ⟨r, rfl, hr, hall⟩ := hq
        refine ⟨n :: r, by simp, by simp; omega, ?_⟩
        intro a w b he
        cases a with
        | nil =>
          simp only [List.nil_append, List.cons.injEq] at he
          rw [← he.1]; simpa using hn
        | cons x a =>
          simp only [List.cons_append, List.cons.injEq] at he
          have := hall a w b he.2
          rw [he.1] at this
          simpa using this
    · rintro ⟨r, rfl, hr, hall⟩
      cases r with
      | nil => left; simp
      | cons n r =>
        right
        refine ⟨n, by simpa using hall [] n r rfl, ?_⟩
        rw [ih]
        refine ⟨r, by simp, by simp at hr; omega, ?_⟩
        intro a w b he
        have := hall (n :: a) w b (by simp [he])
        simpa using this

/-- In the order of a walk no directory comes after one of those below it, and none comes twice. -/
theorem treeWalk_pairwise {next : List Str → List Str} (hn : ∀ ws, (next ws).Nodup) (d : Nat) (ws : List Str) :
    (treeWalk next d ws).Pairwise (fun a b => ¬ b <+: a) := by
  induction d generalizing ws with
  | zero => simp [treeWalk]
  | succ d ih =>
    unfold treeWalk
    rw [List.pairwise_cons]
    constructor
    · intro q hq hc
      rw [List.mem_flatMap] at hq
      obtain ⟨n, _, hq⟩ := hq
      obtain ⟨r, rfl, _⟩ := mem_treeWalk.mp hq
      have := hc.length_le
      simp at this
      omega
    · have key : ∀ l : List Str, l.Nodup → (l.flatMap (fun n => treeWalk next d (ws ++ [n]))).Pairwise (fun a b => ¬ b <+: a) := by
        intro l
        induction l with
        | nil => simp
        | cons x l ihl =>
          intro hl
          rw [List.nodup_cons] at hl
          rw [List.flatMap_cons, List.pairwise_append]
          refine ⟨ih _, ihl hl.2, ?_⟩
          intro a ha b hb hc
          obtain ⟨r, rfl, _⟩ := mem_treeWalk.mp ha
          rw [List.mem_flatMap] at hb
          obtain ⟨y, hy, hb⟩ := hb
          obtain ⟨r', rfl, _⟩ := mem_treeWalk.mp hb
          simp only [List.append_assoc, List.singleton_append] at hc
          rw [List.prefix_append_right_inj, List.cons_prefix_cons] at hc
          exact hl.1 (hc.1 ▸ hy)
      exact key _ (hn ws)

theorem treeWalk_nodup {next : List Str → List Str} (hn : ∀ ws, (next ws).Nodup) (d : Nat) (ws : List Str) :
    (treeWalk next d ws).Nodup :=
  (treeWalk_pairwise hn d ws).imp (fun {a b} h (e : a = b) => h (e ▸ List.prefix_rfl))

/-- A directory that is there and all of whose directories are at depth less than `d`. -/
def DepthOk (s : FS) (base : Path) (d : Nat) (ws : List Str) : Prop :=
  (∀ w ∈ ws, SafeName w) ∧ FS.look s (base ++ ws) = some .dir ∧
    ∀ r, FS.look s (base ++ ws ++ r) = some .dir → r.length < d

theorem DepthOk_child {s : FS} (h : s.WF) {base : Path} {d : Nat} {ws : List Str} {n : Str}
    (hd : DepthOk s base (d + 1) ws) (hn : n ∈ dirNames s (base ++ ws)) : DepthOk s base d (ws ++ [n]) := by
  have hl := (mem_dirNames h).mp hn
  refine ⟨?_, by rw [← List.append_assoc]; exact hl, ?_⟩
  · intro w hw
    exact FS.look_names h hl w (by simp at hw ⊢; tauto)
  · intro r hr
    have := hd.2.2 (n :: r) (by simpa using hr)
    simp at this
    omega

theorem walkLoop_eq {s : FS} (h : s.WF) {base : Path} {prune : Visit → List Str} {next : List Str → List Str}
    (hp : ∀ ws, prune (visitOf s base ws) = next ws) (hsub : ∀ ws, ∀ n ∈ next ws, n ∈ dirNames s (base ++ ws)) :
    ∀ (fuel : Nat) (stack : List (Nat × List Str)), (∀ e ∈ stack, DepthOk s base e.1 e.2) →
      (stack.flatMap (fun e => treeWalk next e.1 e.2)).length < fuel →
      walkLoop s base prune fuel (stack.map (fun e => dstr e.2)) =
        .ok ((stack.flatMap (fun e => treeWalk next e.1 e.2)).map (visitOf s base)) := by
  intro fuel
  induction fuel with
  | zero => intro stack _ hl; omega
  | succ fuel ih =>
    intro stack hok hlen
    cases stack with
    | nil => rfl
    | cons e stack =>
      obtain ⟨d, ws⟩ := e
      have hd : DepthOk s base d ws := hok (d, ws) (by simp)
      obtain ⟨d, rfl⟩ : ∃ d', d = d' + 1 := by
        have := hd.2.2 [] (by simpa using hd.2.1)
        exact ⟨d - 1, by simp at this; omega⟩
      rw [List.map_cons]
      unfold walkLoop
      rw [walkDir_eq h hd.1 hd.2.1]
      dsimp only
      rw [hp]
      have hstack : (next ws).map (osPathJoin (dstr ws)) ++ stack.map (fun e => dstr e.2) =
          ((next ws).map (fun n => (d, ws ++ [n])) ++ stack).map (fun e => dstr e.2) := by
        rw [List.map_append, List.map_map]
        congr 1
        apply List.map_congr_left
        intro n hn
        have hs := FS.look_names h ((mem_dirNames h).mp (hsub ws n hn)) n (by simp)
        exact osPathJoin_dstr (isComp_list hd.1) (SafeName.isComp hs)
      have hflat : ((d + 1, ws) :: stack).flatMap (fun e => treeWalk next e.1 e.2) =
          ws :: (((next ws).map (fun n => (d, ws ++ [n])) ++ stack).flatMap (fun e => treeWalk next e.1 e.2)) := by
        rw [List.flatMap_cons, List.flatMap_append, List.flatMap_map]
        rfl
      rw [hflat] at hlen ⊢
      rw [hstack, ih]
      · rfl
      · intro e he
        rcases List.mem_append.mp he with he | he
        · obtain ⟨n, hn, rfl⟩ := List.mem_map.mp he
          exact DepthOk_child h hd (hsub ws n hn)
        · exact hok e (by simp [he])
      · simpa using hlen

/-- More than the length of the longest path. -/
def FS.depth (s : FS) : Nat := s.foldr (fun e n => max e.1.length n) 0 + 1

theorem depth_key {s : FS} {p : Path} (hp : p ∈ Dict.keys s) : p.length < FS.depth s := by
  unfold FS.depth Dict.keys at *
  induction s with
  | nil => simp at hp
  | cons x s ih =>
    rw [List.map_cons, List.mem_cons] at hp
    rw [List.foldr_cons]
    rcases hp with rfl | hp
    · omega
    · have := ih hp; omega

theorem depth_look {s : FS} {p : Path} {n : Node} (hl : FS.look s p = some n) : p.length < FS.depth s := by
  by_cases hp : p = []
  · subst hp; simp [FS.depth]
  · exact depth_key (FS.look_keys hp hl)

theorem depthOk_depth {s : FS} {base : Path} {ws : List Str} (hws : ∀ w ∈ ws, SafeName w)
    (hd : FS.look s (base ++ ws) = some .dir) : DepthOk s base (FS.depth s) ws := by
  refine ⟨hws, hd, fun r hr => ?_⟩
  have := depth_look hr
  simp at this
  omega

/-- All directories a walk comes to are there. -/
theorem treeWalk_look {s : FS} (h : s.WF) {base : Path} {next : List Str → List Str}
    (hsub : ∀ ws, ∀ n ∈ next ws, n ∈ dirNames s (base ++ ws)) {d : Nat} {ws q : List Str}
    (hd : FS.look s (base ++ ws) = some .dir) (hq : q ∈ treeWalk next d ws) : FS.look s (base ++ q) = some .dir := by
  obtain ⟨r, rfl, -, hall⟩ := mem_treeWalk.mp hq
  rcases List.eq_nil_or_concat r with rfl | ⟨r', n, rfl⟩
  · simpa using hd
  · have := hsub _ n (hall r' n [] (by simp))
    rw [mem_dirNames h] at this
    simpa using this

theorem treeWalk_length {s : FS} (h : s.WF) {base : Path} {next : List Str → List Str}
    (hsub : ∀ ws, ∀ n ∈ next ws, n ∈ dirNames s (base ++ ws)) (hn : ∀ ws, (next ws).Nodup) {d : Nat} {ws : List Str}
    (hd : FS.look s (base ++ ws) = some .dir) : (treeWalk next d ws).length ≤ s.length + 1 := by
  have h1 : ((treeWalk next d ws).map (base ++ ·)).Nodup := by
    exact List.Nodup.map (fun a b hab => List.append_cancel_left hab) (treeWalk_nodup hn d ws)
  have h2 : (treeWalk next d ws).map (base ++ ·) ⊆ [] :: Dict.keys s := by
    intro p hp
    obtain ⟨q, hq, rfl⟩ := List.mem_map.mp hp
    have hl := treeWalk_look h hsub hd hq
    by_cases he : base ++ q = []
    · rw [he]; simp
    · exact List.mem_cons_of_mem _ (FS.look_keys he hl)
  have := (List.subperm_of_subset h1 h2).length_le
  simpa [Dict.keys] using this

/-- A walk with pruning gives exactly the directories that can be reached through the names that
are followed. -/
theorem walkPruned_eq {s : FS} (h : s.WF) {base : Path} {prune : Visit → List Str} {next : List Str → List Str}
    (hp : ∀ ws, prune (visitOf s base ws) = next ws) (hsub : ∀ ws, ∀ n ∈ next ws, n ∈ dirNames s (base ++ ws))
    (hn : ∀ ws, (next ws).Nodup) {ws : List Str} (hws : ∀ w ∈ ws, SafeName w)
    (hd : FS.look s (base ++ ws) = some .dir) {dir : Str} (hdir : dir = joinWith '/' ws ∨ dir = dstr ws) :
    fswWalkPruned s base prune dir = .ok ((treeWalk next (FS.depth s) ws).map (visitOf s base)) := by
  unfold fswWalkPruned
  have hst : (if startsWith dir c!"/" then dir else '/' :: dir) = dstr ws := by
    rcases hdir with rfl | rfl
    · rw [if_neg]
      · rfl
      · intro hc
        obtain ⟨t, ht⟩ := startsWith_iff.mp hc
        exact joinWith_head (isComp_list hws) '/' (by rw [ht]; rfl) rfl
    · rw [if_pos]
      exact startsWith_iff.mpr ⟨_, rfl⟩
  rw [hst]
  have := walkLoop_eq h hp hsub (s.length + 2) [(FS.depth s, ws)] (by simpa using depthOk_depth hws hd)
    (by
      have := treeWalk_length h hsub hn (d := FS.depth s) hd
      simp; omega)
  simpa using this

/-- The directories below a directory. -/
theorem mem_treeWalk_dirs {s : FS} (h : s.WF) {base : Path} {ws q : List Str} (hd : FS.look s (base ++ ws) = some .dir) :
    q ∈ treeWalk (fun ws => dirNames s (base ++ ws)) (FS.depth s) ws ↔ ws <+: q ∧ FS.look s (base ++ q) = some .dir := by
  constructor
  · intro hq
    refine ⟨?_, treeWalk_look h (fun _ _ hn => hn) hd hq⟩
    obtain ⟨r, rfl, -⟩ := mem_treeWalk.mp hq
    exact List.prefix_append _ _
  · rintro ⟨⟨r, rfl⟩, hl⟩
    rw [mem_treeWalk]
    refine ⟨r, rfl, ?_, ?_⟩
    · have := depth_look hl
      simp at this
      omega
    · intro a w b he
      subst he
      rw [mem_dirNames h]
      by_cases hb : b = []
      · subst hb; simpa using hl
      · apply FS.look_above h b hb (n := .dir)
        simpa using hl

theorem joinWith_getLast {ws : List Str} (hne : ws ≠ []) (h : ∀ w ∈ ws, IsComp w) :
    (joinWith '/' ws).getLast? ≠ some '/' := by
  intro hc
  have := joinWith_not_slash hne h
  rw [Bool.eq_false_iff] at this
  apply this
  rw [endsWith_iff]
  rw [List.getLast?_eq_some_iff] at hc
  exact hc

theorem osPathSplit_join {ws : List Str} {n : Str} (h : ∀ w ∈ ws, IsComp w) (hn : IsComp n) :
    osPathSplit (joinWith '/' (ws ++ [n])) = (joinWith '/' ws, n) := by
  have hnr : ∀ a ∈ n.reverse, decide (a ≠ '/') = true := by
    intro a ha
    rw [List.mem_reverse] at ha
    simp only [decide_eq_true_eq]
    rintro rfl
    exact hn.2 ha
  by_cases hne : ws = []
  · subst hne
    have e : joinWith '/' ([] ++ [n]) = n := rfl
    have e2 : joinWith '/' ([] : List Str) = [] := rfl
    rw [e, e2]
    unfold osPathSplit
    dsimp only
    have h1 : List.takeWhile (fun x => decide (x ≠ '/')) n.reverse = n.reverse := List.takeWhile_eq_self_iff.mpr hnr
    have h2 : List.dropWhile (fun x => decide (x ≠ '/')) n.reverse = [] := List.dropWhile_eq_nil_iff.mpr hnr
    rw [h1, h2]
    simp
  · have e : joinWith '/' (ws ++ [n]) = joinWith '/' ws ++ '/' :: n := by
      rw [joinWith_append hne (by simp)]; rfl
    rw [e]
    have er : (joinWith '/' ws ++ '/' :: n).reverse = n.reverse ++ '/' :: (joinWith '/' ws).reverse := by simp
    have h1 : List.takeWhile (fun x => decide (x ≠ '/')) (n.reverse ++ '/' :: (joinWith '/' ws).reverse) = n.reverse := by
      rw [List.takeWhile_append_of_pos hnr]; simp
    have h2 : List.dropWhile (fun x => decide (x ≠ '/')) (n.reverse ++ '/' :: (joinWith '/' ws).reverse) =
        '/' :: (joinWith '/' ws).reverse := by
      rw [List.dropWhile_append_of_pos hnr]; simp
    have h3 : List.dropWhile (fun x => decide (x = '/')) ('/' :: (joinWith '/' ws).reverse) = (joinWith '/' ws).reverse := by
      rw [List.dropWhile_cons_of_pos (by simp)]
      apply dropWhile_eq_of_not
      intro a ha
      rw [List.head?_reverse] at ha
      have := joinWith_getLast hne h
      simp only [decide_eq_false_iff_not]
      rintro rfl
      exact this ha
    unfold osPathSplit
    dsimp only
    rw [er, h1, h2, if_pos]
    · rw [List.reverse_reverse, List.reverse_reverse, h3, List.reverse_reverse]
    · refine ⟨by simp, ?_⟩
      intro hall
      rw [List.all_eq_true] at hall
      rcases List.eq_nil_or_concat (joinWith '/' ws) with he | ⟨t, c, he⟩
      · exact joinWith_ne_nil hne h he
      · rw [List.concat_eq_append] at he
        have := hall c (by rw [he]; simp)
        simp only [decide_eq_true_eq] at this
        subst this
        exact joinWith_getLast hne h (by rw [he]; simp)

theorem osDirname_join {ws : List Str} (h : ∀ w ∈ ws, IsComp w) (hne : ws ≠ []) :
    osDirname (joinWith '/' ws) = joinWith '/' ws.dropLast := by
  rcases List.eq_nil_or_concat ws with rfl | ⟨t, n, rfl⟩
  · exact absurd rfl hne
  · rw [List.concat_eq_append] at h ⊢
    unfold osDirname
    rw [osPathSplit_join (fun w hw => h w (by simp [hw])) (h n (by simp)), List.dropLast_concat]

theorem osBasename_join {ws : List Str} {n : Str} (h : ∀ w ∈ ws, IsComp w) (hn : IsComp n) :
    osBasename (joinWith '/' (ws ++ [n])) = n := by
  unfold osBasename
  rw [osPathSplit_join h hn]

theorem osPathJoin_join_join {ws vs : List Str} (h : ∀ w ∈ ws, IsComp w) (hv : ∀ w ∈ vs, IsComp w) (hne : vs ≠ []) :
    osPathJoin (joinWith '/' ws) (joinWith '/' vs) = joinWith '/' (ws ++ vs) := by
  by_cases hw : ws = []
  · subst hw; simp [joinWith, osPathJoin_nil]
  · rw [osPathJoin_of (joinWith_ne_nil hw h) (joinWith_not_slash hw h), joinWith_append hw hne]
    intro hc
    exact joinWith_head hv '/' hc rfl

theorem osPathJoin_dstr_join {ws vs : List Str} (h : ∀ w ∈ ws, IsComp w) (hv : ∀ w ∈ vs, IsComp w) (hne : vs ≠ []) :
    osPathJoin (dstr ws) (joinWith '/' vs) = dstr (ws ++ vs) := by
  have hhead : (joinWith '/' vs).head? ≠ some '/' := fun hc => joinWith_head hv '/' hc rfl
  by_cases hw : ws = []
  · subst hw
    have e : dstr [] = ['/'] := rfl
    rw [e]
    unfold osPathJoin
    split
    · rename_i heq
      rw [heq] at hhead
      simp at hhead
    · rw [if_pos (by right; decide)]
      rfl
  · unfold dstr
    rw [osPathJoin_of (by simp) _ hhead, joinWith_append hw hne]
    · rfl
    · have := endsWith_slash_append (a := ['/']) (joinWith_ne_nil hw h)
      rw [List.singleton_append] at this
      rw [this, joinWith_not_slash hw h]

end Ocfl
