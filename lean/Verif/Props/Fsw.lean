import Verif.Proofs.Walk
import Verif.Proofs.Place

/-!
# C57 and C59: walking and copying directories

The file system is any state `s`; `base` is the directory the `fsw` file system is opened on; a
directory in it is given by its names `ws`, with or without a leading slash. Paths that are not in
this form (empty components, `.` or `..`, a slash at the end) are not covered.
-/

namespace Ocfl

open Spec FS Prog

/-- A file system used in the examples below. -/
def fsEx : FS :=
  [([c!"r"], .dir), ([c!"r", c!"b"], .dir), ([c!"r", c!"x.txt"], .file [1, 2]),
   ([c!"r", c!"b", c!"y.txt"], .file [3]), ([c!"r", c!"b", c!"c"], .dir), ([c!"r", c!"a"], .dir),
   ([c!"r", c!"b", c!"c", c!"z"], .file [])]

theorem fsEx_wf : fsEx.WF where
  nk := by decide
  noRoot := by decide
  parent := by decide
  names := by decide

theorem dstr_inj {p q : List Str} (hp : ∀ w ∈ p, SafeName w) (hq : ∀ w ∈ q, SafeName w) (e : dstr p = dstr q) : p = q := by
  have e : joinWith '/' p = joinWith '/' q := by unfold dstr at e; simpa using e
  by_cases h1 : p = []
  · subst h1
    have : joinWith '/' q = [] := by rw [← e]; rfl
    exact ((joinWith_eq_nil (isComp_list hq)).mp this).symm
  · by_cases h2 : q = []
    · subst h2
      exact (joinWith_eq_nil (isComp_list hp)).mp e
    · exact joinWith_inj h1 h2 (fun w hw => (hp w hw).2.2.2) (fun w hw => (hq w hw).2.2.2) e

theorem fswWalk_eq {s : FS} (h : s.WF) {base : Path} {ws : List Str} (hws : ∀ w ∈ ws, SafeName w)
    (hd : look s (base ++ ws) = some .dir) {dir : Str} (hdir : dir = joinWith '/' ws ∨ dir = dstr ws) :
    fswWalk s base dir =
      .ok ((treeWalk (fun ws => dirNames s (base ++ ws)) (FS.depth s) ws).map (visitOf s base)) :=
  walkPruned_eq h (fun _ => rfl) (fun _ _ hn => hn) (fun _ => dirNames_nodup h _) hws hd hdir

/-- C57: `fsw_walk` from a directory reports every directory below it (and itself), each with
exactly its entries; no directory comes twice, and none comes before a directory it lies in. -/
theorem C57 {s : FS} (h : s.WF) {base : Path} {ws : List Str} (hws : ∀ w ∈ ws, SafeName w)
    (hd : look s (base ++ ws) = some .dir) {dir : Str}
    (hdir : dir = joinWith '/' ws ∨ dir = '/' :: joinWith '/' ws) :
    ∃ vs, fswWalk s base dir = .ok vs ∧
      (∀ p, p ∈ vs.map Visit.dirpath ↔
        ∃ q, p = '/' :: joinWith '/' q ∧ ws <+: q ∧ look s (base ++ q) = some .dir) ∧
      (∀ v ∈ vs, ∀ q, (∀ w ∈ q, SafeName w) → v.dirpath = '/' :: joinWith '/' q →
        v.dirs.Nodup ∧ v.files.Nodup ∧
        (∀ n, n ∈ v.dirs ↔ look s (base ++ q ++ [n]) = some .dir) ∧
        (∀ n, n ∈ v.files ↔ ∃ b, look s (base ++ q ++ [n]) = some (.file b))) ∧
      vs.Pairwise (fun a b => ∀ qa qb, (∀ w ∈ qa, SafeName w) → (∀ w ∈ qb, SafeName w) →
        a.dirpath = '/' :: joinWith '/' qa → b.dirpath = '/' :: joinWith '/' qb → ¬ qb <+: qa) := by
  have hsafe : ∀ q ∈ treeWalk (fun ws => dirNames s (base ++ ws)) (FS.depth s) ws, ∀ w ∈ q, SafeName w := by
    intro q hq w hw
    have := treeWalk_look h (fun _ _ hn => hn) hd hq
    exact look_names h this w (by simp [hw])
  refine ⟨_, fswWalk_eq h hws hd hdir, ?_, ?_, ?_⟩
  · intro p
    rw [List.map_map, List.mem_map]
    constructor
    · rintro ⟨q, hq, rfl⟩
      have := (mem_treeWalk_dirs h hd).mp hq
      exact ⟨q, rfl, this.1, this.2⟩
    · rintro ⟨q, rfl, h1, h2⟩
      exact ⟨q, (mem_treeWalk_dirs h hd).mpr ⟨h1, h2⟩, rfl⟩
  · intro v hv q hq he
    obtain ⟨q', hq', rfl⟩ := List.mem_map.mp hv
    have : q' = q := dstr_inj (hsafe q' hq') hq he
    subst this
    exact ⟨dirNames_nodup h _, fileNames_nodup h _, fun n => mem_dirNames h, fun n => mem_fileNames h⟩
  · rw [List.pairwise_map]
    refine (treeWalk_pairwise (fun _ => dirNames_nodup h _) _ ws).imp_of_mem ?_
    intro a b ha hb hab qa qb hqa hqb ea eb
    have e1 : a = qa := dstr_inj (hsafe a ha) hqa ea
    have e2 : b = qb := dstr_inj (hsafe b hb) hqb eb
    rw [← e1, ← e2]
    exact hab

theorem walkFilesLoop_eq {s : FS} {base : Path} {ws : List Str} (hws : ∀ w ∈ ws, SafeName w) {dir : Str}
    (hdir : dir = joinWith '/' ws ∨ dir = dstr ws) : ∀ (l : List (List Str)),
    (∀ r ∈ l, ∀ w ∈ r, SafeName w) → (∀ r ∈ l, ∀ n ∈ fileNames s (base ++ ws ++ r), SafeName n) →
    walkFilesLoop dir ((l.map (ws ++ ·)).map (visitOf s base)) =
      .ok (l.flatMap (fun r => (fileNames s (base ++ ws ++ r)).map (fun n => joinWith '/' (r ++ [n])))) := by
  intro l
  induction l with
  | nil => intro _ _; rfl
  | cons r l ih =>
    intro h1 h2
    have hr : ∀ w ∈ r, SafeName w := h1 r (by simp)
    rw [List.map_cons, List.map_cons]
    unfold walkFilesLoop
    have e1 : fswRelpath (visitOf s base (ws ++ r)).dirpath dir = .ok (joinWith '/' r) :=
      fswRelpath_append (isComp_list hws) (isComp_list hr) (Or.inr rfl) hdir
    rw [e1]
    dsimp only
    rw [ih (fun r hr => h1 r (by simp [hr])) (fun r hr => h2 r (by simp [hr]))]
    dsimp only
    have e2 : joinWith '/' r ≠ c!"." := by
      intro hc
      by_cases hne : r = []
      · subst hne; simp [joinWith] at hc
      · have h3 : splitOn '/' (joinWith '/' r) = splitOn '/' c!"." := by rw [hc]
        rw [splitOn_joinWith hne (fun w hw => (hr w hw).2.2.2)] at h3
        have h4 : splitOn '/' c!"." = [c!"."] := rfl
        rw [h4] at h3
        exact (hr c!"." (by rw [h3]; simp)).2.1 rfl
    rw [if_neg e2, List.flatMap_cons]
    congr 2
    have e3 : (visitOf s base (ws ++ r)).files = fileNames s (base ++ ws ++ r) := by
      unfold visitOf; rw [List.append_assoc]
    rw [e3]
    apply List.map_congr_left
    intro n hn
    exact osPathJoin_joinWith (isComp_list hr) (h2 r (by simp) n hn).2.2.2

/-- The files below a directory, by `fsw_walk_files`: each once. -/
theorem walkFiles_names {s : FS} (h : s.WF) {base : Path} {ws : List Str} (hws : ∀ w ∈ ws, SafeName w)
    (hd : look s (base ++ ws) = some .dir) {dir : Str}
    (hdir : dir = joinWith '/' ws ∨ dir = '/' :: joinWith '/' ws) :
    ∃ rs : List Path, fswWalkFiles s base dir = .ok (rs.map (joinWith '/')) ∧ rs.Nodup ∧
      ∀ r, r ∈ rs ↔ r ≠ [] ∧ ∃ b, look s (base ++ ws ++ r) = some (.file b) := by
  obtain ⟨t, ht⟩ : ∃ t : List (List Str), treeWalk (fun ws => dirNames s (base ++ ws)) (FS.depth s) ws =
      t.map (ws ++ ·) := by
    refine ⟨(treeWalk (fun ws => dirNames s (base ++ ws)) (FS.depth s) ws).map (List.drop ws.length), ?_⟩
    rw [List.map_map]
    symm
    rw [List.map_congr_left (g := id)]
    · simp
    · intro q hq
      obtain ⟨r, rfl⟩ := ((mem_treeWalk_dirs h hd).mp hq).1
      simp
  have hmem : ∀ r, r ∈ t ↔ look s (base ++ ws ++ r) = some .dir := by
    intro r
    have h1 : r ∈ t ↔ ws ++ r ∈ t.map (ws ++ ·) := by simp
    rw [h1, ← ht, mem_treeWalk_dirs h hd, List.append_assoc]
    simp
  have htn : t.Nodup := by
    have := treeWalk_nodup (fun ws' => dirNames_nodup h (base ++ ws')) (FS.depth s) ws
    rw [ht] at this
    exact List.Nodup.of_map _ this
  refine ⟨t.flatMap (fun r => (fileNames s (base ++ ws ++ r)).map (fun n => r ++ [n])), ?_, ?_, ?_⟩
  · unfold fswWalkFiles
    rw [fswWalk_eq h hws hd hdir, ht]
    dsimp only
    rw [walkFilesLoop_eq hws hdir, List.map_flatMap]
    · congr 1
      congr 1
      funext r
      rw [List.map_map]
      rfl
    · intro r hr w hw
      exact look_names h ((hmem r).mp hr) w (by simp [hw])
    · intro r hr n hn
      obtain ⟨b, hb⟩ := (mem_fileNames h).mp hn
      exact look_names h hb n (by simp)
  · rw [List.nodup_flatMap]
    constructor
    · intro r _
      exact List.Nodup.map (fun a b hab => by simpa using hab) (fileNames_nodup h _)
    · refine htn.imp ?_
      intro a b hab
      intro x hx hy
      obtain ⟨n, _, rfl⟩ := List.mem_map.mp hx
      obtain ⟨m, _, e⟩ := List.mem_map.mp hy
      have := congrArg List.dropLast e
      simp only [List.dropLast_concat] at this
      exact hab this.symm
  · intro r
    rw [List.mem_flatMap]
    constructor
    · rintro ⟨r', hr', hm⟩
      obtain ⟨n, hn, rfl⟩ := List.mem_map.mp hm
      obtain ⟨b, hb⟩ := (mem_fileNames h).mp hn
      exact ⟨by simp, b, by rw [← List.append_assoc]; exact hb⟩
    · rintro ⟨hne, b, hb⟩
      rcases List.eq_nil_or_concat r with rfl | ⟨r', n, rfl⟩
      · exact absurd rfl hne
      · rw [List.concat_eq_append] at hb ⊢
        rw [← List.append_assoc] at hb
        refine ⟨r', (hmem r').mpr ?_, List.mem_map.mpr ⟨n, (mem_fileNames h).mpr ⟨b, hb⟩, rfl⟩⟩
        have := look_parent h hb
        rwa [List.dropLast_concat] at this

theorem joinWith_inj' {p q : List Str} (hp : ∀ w ∈ p, SafeName w) (hq : ∀ w ∈ q, SafeName w)
    (e : joinWith '/' p = joinWith '/' q) : p = q :=
  dstr_inj hp hq (by unfold dstr; rw [e])

/-- C57 for files: `fsw_walk_files` gives every file below the directory, once, and nothing else. -/
theorem C57_files {s : FS} (h : s.WF) {base : Path} {ws : List Str} (hws : ∀ w ∈ ws, SafeName w)
    (hd : look s (base ++ ws) = some .dir) {dir : Str}
    (hdir : dir = joinWith '/' ws ∨ dir = '/' :: joinWith '/' ws) :
    ∃ l, fswWalkFiles s base dir = .ok l ∧ l.Nodup ∧
      ∀ p, p ∈ l ↔ ∃ r b, r ≠ [] ∧ p = joinWith '/' r ∧ look s (base ++ ws ++ r) = some (.file b) := by
  obtain ⟨rs, he, hnd, hmem⟩ := walkFiles_names h hws hd hdir
  refine ⟨_, he, ?_, ?_⟩
  · rw [List.nodup_map_iff_inj_on hnd]
    intro a ha b hb e
    obtain ⟨-, x, hx⟩ := (hmem a).mp ha
    obtain ⟨-, y, hy⟩ := (hmem b).mp hb
    exact joinWith_inj' (fun w hw => look_names h hx w (by simp [hw])) (fun w hw => look_names h hy w (by simp [hw])) e
  · intro p
    rw [List.mem_map]
    constructor
    · rintro ⟨r, hr, rfl⟩
      obtain ⟨h1, b, hb⟩ := (hmem r).mp hr
      exact ⟨r, b, h1, rfl, hb⟩
    · rintro ⟨r, b, h1, rfl, hb⟩
      exact ⟨r, (hmem r).mpr ⟨h1, b, hb⟩, rfl⟩

example : (fswWalk fsEx [c!"r"] c!"/").toOption.map (List.map Visit.dirpath) =
    some [c!"/", c!"/b", c!"/b/c", c!"/a"] := by decide +kernel

example : fswWalkFiles fsEx [c!"r"] c!"b" = .ok [c!"y.txt", c!"c/z"] := by decide +kernel

example : ∃ l, fswWalkFiles fsEx [c!"r"] c!"b" = .ok l ∧ l.Nodup :=
  have ⟨l, h1, h2, _⟩ := C57_files fsEx_wf (base := [c!"r"]) (ws := [c!"b"]) (by decide) (by decide) (Or.inl rfl)
  ⟨l, h1, h2⟩

/-! ## C59 -/

theorem copydirStep_places {srcBase dstBase : Path} {sws dws r : List Str} (hs : ∀ w ∈ sws, SafeName w)
    (hd : ∀ w ∈ dws, SafeName w) (hr : ∀ w ∈ r, SafeName w) (hne : r ≠ []) (hbase : ∀ w ∈ dstBase, SafeName w)
    {srcPath : Str} (hsp : srcPath = joinWith '/' sws ∨ srcPath = dstr sws)
    (hdiff : srcBase ++ sws ++ r ≠ dstBase ++ dws ++ r) :
    PlacesFile (dstBase ++ dws) (copydirStep srcBase srcPath dstBase (joinWith '/' dws) (joinWith '/' r))
      (srcBase ++ sws ++ r) (dstBase ++ dws ++ r) := by
  have hsr : ∀ w ∈ sws ++ r, SafeName w := by
    intro w hw
    rcases List.mem_append.mp hw with h | h
    · exact hs w h
    · exact hr w h
  have hdr : ∀ w ∈ dws ++ r, SafeName w := by
    intro w hw
    rcases List.mem_append.mp hw with h | h
    · exact hd w h
    · exact hr w h
  have hdrl : ∀ w ∈ (dws ++ r).dropLast, SafeName w := fun w hw => hdr w (List.dropLast_subset _ hw)
  have e1 : resolve srcBase (osPathJoin srcPath (joinWith '/' r)) = srcBase ++ sws ++ r := by
    rcases hsp with rfl | rfl
    · rw [osPathJoin_join_join (isComp_list hs) (isComp_list hr) hne, resolve_join _ hsr, List.append_assoc]
    · rw [osPathJoin_dstr_join (isComp_list hs) (isComp_list hr) hne]
      unfold dstr
      rw [resolve_slash_join _ hsr, List.append_assoc]
  have e2 : osPathJoin (joinWith '/' dws) (joinWith '/' r) = joinWith '/' (dws ++ r) :=
    osPathJoin_join_join (isComp_list hd) (isComp_list hr) hne
  have e3 : resolve dstBase (joinWith '/' (dws ++ r)) = dstBase ++ dws ++ r := by
    rw [resolve_join _ hdr, List.append_assoc]
  have e4 : osDirname (joinWith '/' (dws ++ r)) = joinWith '/' (dws ++ r).dropLast :=
    osDirname_join (isComp_list hdr) (by simp [hne])
  have e5 : resolve dstBase (joinWith '/' (dws ++ r).dropLast) = (dstBase ++ dws ++ r).dropLast := by
    rw [resolve_join _ hdrl, List.append_assoc, List.dropLast_append_of_ne_nil (l' := dstBase) (l := dws ++ r) (by simp [hne])]
  have hall : ∀ w ∈ dstBase ++ dws ++ r, SafeName w := by
    intro w hw
    rw [List.append_assoc] at hw
    rcases List.mem_append.mp hw with h | h
    · exact hbase w h
    · exact hdr w h
  intro s hw hD
  have := places_if_missing hdiff hall false s hw (look_nil s)
  have hrun : run (copydirStep srcBase srcPath dstBase (joinWith '/' dws) (joinWith '/' r)) s =
      run (Prog.get (fun s => Prog.bind
        (if FS.exists_ s (dstBase ++ dws ++ r).dropLast = false then FS.makedirs (dstBase ++ dws ++ r).dropLast false
          else .ret (.ok ()))
        (fun _ => fswCopyfile (srcBase ++ sws ++ r) (dstBase ++ dws ++ r)))) s := by
    unfold copydirStep
    dsimp only
    rw [e1, e2, e3, e4, e5, run_get, run_get]
    by_cases hex : FS.exists_ s (dstBase ++ dws ++ r).dropLast = false
    · rw [if_pos hex, if_pos]
      refine ⟨?_, hex⟩
      intro he
      have he' := joinWith_inj' hdrl hd he
      have : (dstBase ++ dws ++ r).dropLast = dstBase ++ dws := by
        rw [List.append_assoc, List.dropLast_append_of_ne_nil (by simp [hne]), he']
      rw [this] at hex
      unfold exists_ at hex
      rw [hD] at hex
      simp at hex
    · rw [if_neg hex, if_neg (fun hc => hex hc.2)]
  rw [hrun]
  exact this

theorem forEach_map {α β : Type} (f : α → β) (body : β → Prog Unit) (l : List α) :
    forEach body (l.map f) = forEach (fun a => body (f a)) l := by
  induction l with
  | nil => rfl
  | cons a l ih => rw [List.map_cons]; unfold forEach; rw [ih]

/-- C59: copying a directory to a path where nothing is yet creates exactly the files of the
source below that path, with the same bytes, and the directories that hold them; every path outside
the new directory is as before, but for the missing directories on the way to it. -/
theorem C59 {s : FS} (h : s.WF) {srcBase dstBase : Path} {sws dws : List Str} (hs : ∀ w ∈ sws, SafeName w)
    (hd : ∀ w ∈ dws, SafeName w) {srcPath : Str} (hsp : srcPath = joinWith '/' sws ∨ srcPath = '/' :: joinWith '/' sws)
    (hsrc : look s (srcBase ++ sws) = some .dir) (hbase : look s dstBase = some .dir)
    (hdst : look s (dstBase ++ dws) = none)
    (hclear : ∀ q b, q <+: dstBase ++ dws → look s q ≠ some (.file b)) :
    ∃ s', run (fswCopydir srcBase srcPath dstBase (joinWith '/' dws)) s = (s', .ok ()) ∧ s'.WF ∧
      (∀ r b, look s' (dstBase ++ dws ++ r) = some (.file b) ↔ look s (srcBase ++ sws ++ r) = some (.file b)) ∧
      (∀ r, look s' (dstBase ++ dws ++ r) = some .dir ↔
        r = [] ∨ ∃ r' b, r <+: r' ∧ r ≠ r' ∧ look s (srcBase ++ sws ++ r') = some (.file b)) ∧
      (∀ q, q <+: dstBase ++ dws → look s' q = some .dir) ∧
      (∀ q, ¬ q <+: dstBase ++ dws → ¬ dstBase ++ dws <+: q → look s' q = look s q) := by
  have hbn := look_names h hbase
  have hcl : Clear s (dstBase ++ dws) := by
    intro q hq
    cases hl : look s q with
    | none => exact Or.inl rfl
    | some n =>
      cases n with
      | dir => exact Or.inr rfl
      | file b => exact absurd hl (hclear q b hq)
  have hall : ∀ w ∈ dstBase ++ dws, SafeName w := by
    intro w hw
    rcases List.mem_append.mp hw with h | h
    · exact hbn w h
    · exact hd w h
  have er1 : resolve srcBase srcPath = srcBase ++ sws := by
    rcases hsp with rfl | rfl
    · exact resolve_join _ hs
    · exact resolve_slash_join _ hs
  have er2 : resolve dstBase (joinWith '/' dws) = dstBase ++ dws := resolve_join _ hd
  obtain ⟨s1, e1, hw1, hl1⟩ := run_makedirs_ok h false hall hcl (Or.inr hdst)
  -- nothing is below the destination at first
  have hbelow : ∀ r, r ≠ [] → look s (dstBase ++ dws ++ r) = none := by
    intro r hr
    apply look_below_none h (List.prefix_append _ _)
    · intro hc
      rw [List.self_eq_append_right] at hc
      exact hr hc
    · rw [hdst]; simp
  have hnpre : ∀ r, r ≠ [] → ¬ dstBase ++ dws ++ r <+: dstBase ++ dws := by
    intro r hr hc
    have := hc.length_le
    rw [List.length_append] at this
    have := List.length_pos_iff.mpr hr
    omega
  have hbelow1 : ∀ r, r ≠ [] → look s1 (dstBase ++ dws ++ r) = none := by
    intro r hr
    rw [hl1, if_neg (hnpre r hr), hbelow r hr]
  have hfile1 : ∀ q b, look s1 q = some (.file b) ↔ look s q = some (.file b) := by
    intro q b
    rw [hl1]
    split
    · rename_i hq
      constructor
      · intro hc; cases hc
      · intro hc; exact absurd hc (hclear q b hq)
    · rfl
  have hsrc1 : look s1 (srcBase ++ sws) = some .dir := by
    rw [hl1]
    split
    · rfl
    · exact hsrc
  obtain ⟨rs, hrs, hnd, hmem⟩ := walkFiles_names hw1 hs hsrc1 hsp
  have hrs1 : ∀ r ∈ rs, r ≠ [] ∧ (∀ w ∈ r, SafeName w) ∧ ∃ b, look s1 (srcBase ++ sws ++ r) = some (.file b) := by
    intro r hr
    obtain ⟨h1, b, hb⟩ := (hmem r).mp hr
    exact ⟨h1, fun w hw => look_names hw1 hb w (by simp [hw]), b, hb⟩
  have hdisj : ∀ r ∈ rs, ∀ r' ∈ rs, srcBase ++ sws ++ r ≠ dstBase ++ dws ++ r' := by
    intro r hr r' hr' he
    obtain ⟨-, -, b, hb⟩ := hrs1 r hr
    rw [he, hbelow1 r' (hrs1 r' hr').1] at hb
    cases hb
  have hD1 : look s1 (dstBase ++ dws) = some .dir := by rw [hl1, if_pos List.prefix_rfl]
  have hplaces : ∀ r ∈ rs, PlacesFile (dstBase ++ dws)
      (copydirStep srcBase srcPath dstBase (joinWith '/' dws) (joinWith '/' r)) (srcBase ++ sws ++ r) (dstBase ++ dws ++ r) :=
    fun r hr => copydirStep_places hs hd (hrs1 r hr).2.1 (hrs1 r hr).1 hbn hsp (hdisj r hr r hr)
  have hcan : ∀ r ∈ rs, CanPlace s1 (srcBase ++ sws ++ r) (dstBase ++ dws ++ r) := by
    intro r hr
    obtain ⟨hne, hsafe, hb⟩ := hrs1 r hr
    refine ⟨hb, by simp [hne], by rw [hbelow1 r hne]; simp, ?_⟩
    intro q hq
    by_cases hq1 : q <+: dstBase ++ dws
    · right; rw [hl1, if_pos hq1]
    · left
      have hq2 : q <+: dstBase ++ dws ++ r := hq.trans (List.dropLast_prefix _)
      obtain ⟨t, rfl⟩ := (List.prefix_or_prefix_of_prefix hq2 (List.prefix_append _ r)).resolve_left hq1
      apply hbelow1
      rintro rfl
      exact hq1 (by simp)
  obtain ⟨s', e2⟩ := forEach_places_ok rs hplaces hdisj (by
      intro r hr r' hr' hc
      rw [List.dropLast_append_of_ne_nil (hrs1 r' hr').1, List.prefix_append_right_inj] at hc
      obtain ⟨-, -, b, hb⟩ := hrs1 r hr
      obtain ⟨-, -, b', hb'⟩ := hrs1 r' hr'
      have hpre : r <+: r' := hc.trans (List.dropLast_prefix _)
      have : look s1 (srcBase ++ sws ++ r) = some .dir := by
        apply look_prefix hw1 (q := srcBase ++ sws ++ r') (by rw [List.prefix_append_right_inj]; exact hpre) _ hb'
        intro he
        have he := List.append_cancel_left he
        subst he
        have := hc.length_le
        rw [List.length_dropLast] at this
        have := List.length_pos_iff.mpr (hrs1 r hr).1
        omega
      rw [hb] at this
      cases this) s1 hw1 hD1 hcan
  obtain ⟨hw', hfiles, hdirs, -, hrest⟩ := forEach_places rs hplaces hdisj
    (List.Nodup.map (fun a b hab => List.append_cancel_left hab) hnd) s1 s' hw1 hD1 e2
  have hD' : look s' (dstBase ++ dws) = some .dir := by
    by_cases hrs0 : rs = []
    · rw [hrest _ (by rw [hrs0]; simp), hD1]
    · obtain ⟨r, hr⟩ := List.exists_mem_of_ne_nil _ hrs0
      apply hdirs r hr
      rw [List.dropLast_append_of_ne_nil (hrs1 r hr).1]
      exact List.prefix_append _ _
  -- what is at a path below the destination
  have hcase : ∀ r, (r ∈ rs ∧ ∃ b, look s1 (srcBase ++ sws ++ r) = some (.file b) ∧ look s' (dstBase ++ dws ++ r) = some (.file b)) ∨
      ((∃ r' ∈ rs, r <+: r' ∧ r ≠ r') ∧ look s' (dstBase ++ dws ++ r) = some .dir) ∨
      (r ∉ rs ∧ (¬ ∃ r' ∈ rs, r <+: r' ∧ r ≠ r') ∧ look s' (dstBase ++ dws ++ r) = look s1 (dstBase ++ dws ++ r)) := by
    intro r
    by_cases hm : r ∈ rs
    · exact Or.inl ⟨hm, hfiles r hm⟩
    · right
      by_cases hex : ∃ r' ∈ rs, r <+: r' ∧ r ≠ r'
      · left
        refine ⟨hex, ?_⟩
        obtain ⟨r', hr', hp, hne⟩ := hex
        apply hdirs r' hr'
        rw [List.dropLast_append_of_ne_nil (hrs1 r' hr').1, List.prefix_append_right_inj]
        rcases List.eq_nil_or_concat r' with he | ⟨t, w, he⟩
        · exact absurd he (hrs1 r' hr').1
        · rw [List.concat_eq_append] at he
          rw [he] at hp hne ⊢
          rw [List.dropLast_concat]
          exact (prefix_concat.mp hp).resolve_left hne
      · right
        refine ⟨hm, hex, ?_⟩
        apply hrest
        intro r' hr' hp
        rw [List.prefix_append_right_inj] at hp
        by_cases he : r = r'
        · exact hm (he ▸ hr')
        · exact hex ⟨r', hr', hp, he⟩
  refine ⟨s', ?_, hw', ?_, ?_, ?_, ?_⟩
  · unfold fswCopydir
    rw [run_get, er1, er2, if_neg (by simp [isdir, hsrc]), if_neg (by simp [exists_, hdst]), run_bind_ok e1,
      run_bind_ok (a := rs.map (joinWith '/')) (s1 := s1) (by rw [run_look, hrs]), forEach_map]
    exact e2
  · intro r b
    rcases hcase r with ⟨hm, c, hc1, hc2⟩ | ⟨hex, hc⟩ | ⟨hm, hex, hc⟩
    · rw [hc2, ← hfile1, hc1]
    · rw [hc]
      constructor
      · intro hx; cases hx
      · intro hx
        obtain ⟨r', hr', hp, hne⟩ := hex
        obtain ⟨-, -, b', hb'⟩ := hrs1 r' hr'
        have := look_prefix hw1 (p := srcBase ++ sws ++ r) (q := srcBase ++ sws ++ r')
          (by rw [List.prefix_append_right_inj]; exact hp) (fun he => hne (List.append_cancel_left he)) hb'
        rw [(hfile1 _ _).mpr hx] at this
        cases this
    · rw [hc]
      by_cases hr0 : r = []
      · subst hr0
        rw [List.append_nil, List.append_nil, hD1, hsrc]
      · rw [hbelow1 r hr0]
        constructor
        · intro hx; cases hx
        · intro hx
          exact absurd ((hmem r).mpr ⟨hr0, b, (hfile1 _ _).mpr hx⟩) hm
  · intro r
    have hconv : (∃ r' b, r <+: r' ∧ r ≠ r' ∧ look s (srcBase ++ sws ++ r') = some (.file b)) ↔
        ∃ r' ∈ rs, r <+: r' ∧ r ≠ r' := by
      constructor
      · rintro ⟨r', b, h1, h2, h3⟩
        refine ⟨r', (hmem r').mpr ⟨?_, b, (hfile1 _ _).mpr h3⟩, h1, h2⟩
        rintro rfl
        exact h2 (List.prefix_nil.mp h1)
      · rintro ⟨r', h1, h2, h3⟩
        obtain ⟨-, -, b, hb⟩ := hrs1 r' h1
        exact ⟨r', b, h2, h3, (hfile1 _ _).mp hb⟩
    rw [hconv]
    rcases hcase r with ⟨hm, c, hc1, hc2⟩ | ⟨hex, hc⟩ | ⟨hm, hex, hc⟩
    · rw [hc2]
      constructor
      · intro hx; cases hx
      · rintro (rfl | ⟨r', hr', hp, hne⟩)
        · exact absurd rfl (hrs1 [] hm).1
        · obtain ⟨-, -, b', hb'⟩ := hrs1 r' hr'
          have := look_prefix hw1 (p := srcBase ++ sws ++ r) (q := srcBase ++ sws ++ r')
            (by rw [List.prefix_append_right_inj]; exact hp) (fun he => hne (List.append_cancel_left he)) hb'
          rw [hc1] at this
          cases this
    · exact ⟨fun _ => Or.inr hex, fun _ => hc⟩
    · rw [hc]
      by_cases hr0 : r = []
      · subst hr0
        rw [List.append_nil, hD1]
        simp
      · rw [hbelow1 r hr0]
        constructor
        · intro hx; cases hx
        · rintro (rfl | hx)
          · exact absurd rfl hr0
          · exact absurd hx hex
  · intro q hq
    rcases eq_or_ne q (dstBase ++ dws) with rfl | hne
    · exact hD'
    · exact look_prefix hw' hq hne hD'
  · intro q h1 h2
    rw [hrest q, hl1, if_neg h1]
    intro r _ hp
    rcases List.prefix_or_prefix_of_prefix hp (List.prefix_append (dstBase ++ dws) r) with h3 | h3
    · exact h1 h3
    · exact h2 h3

/-- C59, refusal: without a source directory, or with anything at the destination, nothing is
written. -/
theorem C59_refuses {s : FS} {srcBase dstBase : Path} {srcPath dstPath : Str}
    (h : look s (resolve srcBase srcPath) ≠ some .dir ∨ look s (resolve dstBase dstPath) ≠ none) :
    run (fswCopydir srcBase srcPath dstBase dstPath) s = (s, .error .fswException) := by
  unfold fswCopydir
  rw [run_get]
  by_cases hd : FS.isdir s (resolve srcBase srcPath) = false
  · rw [if_pos hd]; rfl
  · rw [if_neg hd, if_pos]
    · rfl
    · unfold exists_
      rw [Option.isSome_iff_ne_none]
      apply h.resolve_left
      unfold isdir at hd
      simpa using hd

example : (run (fswCopydir [c!"r"] c!"/b" [c!"r"] c!"a/new/copy") fsEx).2 = .ok () ∧
    look (run (fswCopydir [c!"r"] c!"/b" [c!"r"] c!"a/new/copy") fsEx).1 [c!"r", c!"a", c!"new", c!"copy", c!"c", c!"z"] =
      some (.file []) := by decide +kernel

example : (run (fswCopydir [c!"r"] c!"/b" [c!"r"] c!"a") fsEx) = (fsEx, .error .fswException) :=
  C59_refuses (by right; decide)

end Ocfl
