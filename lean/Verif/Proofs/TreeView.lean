import Verif.Model.TreeView
import Verif.Spec.TreeView
import Verif.Props.Namaste
import Verif.Proofs.SoundValid

/-!
# The tree view
-/

namespace Ocfl

open Spec FS TreeView

theorem shift_last {n i : Nat} : decide (i + 1 + 1 = n + 1) = decide (i + 1 = n) := by simp

theorem vLines_eq (last : Bool) (vs : List Str) :
    vLines last vs = (vs.mapIdx fun j sub => stem last ++ branch (j + 1 = vs.length) ++ sub).flatMap (· ++ c!"\n") := by
  induction vs with
  | nil => rfl
  | cons v rest ih =>
    cases rest with
    | nil => simp [vLines, indent, stem, branch]
    | cons w rest =>
      show indent 1 last false ++ v ++ c!"\n" ++ vLines last (w :: rest) = _
      rw [ih, List.mapIdx_cons (l := w :: rest), List.flatMap_cons (xs := List.mapIdx _ (w :: rest))]
      have h0 : decide (0 + 1 = (v :: w :: rest).length) = false := by simp
      rw [h0]
      simp only [List.length_cons (a := v), shift_last]
      rfl

theorem lines_eq (rows : List (Str × List Str)) : TreeView.lines rows = (drawing rows).flatMap (· ++ c!"\n") := by
  unfold drawing
  induction rows with
  | nil => rfl
  | cons row rest ih =>
    obtain ⟨note, vs⟩ := row
    cases rest with
    | nil =>
      show indent 0 true false ++ note ++ c!"\n" ++ vLines true vs = _
      rw [vLines_eq]
      simp [indent, branch]
    | cons w rest =>
      show indent 0 false false ++ note ++ c!"\n" ++ vLines false vs ++ TreeView.lines (w :: rest) = _
      rw [ih, vLines_eq, List.mapIdx_cons (l := w :: rest), List.flatten_cons (L := List.mapIdx _ (w :: rest)), List.flatMap_append]
      have h0 : decide (0 + 1 = ((note, vs) :: w :: rest).length) = false := by simp
      rw [h0, List.flatMap_cons]
      simp only [List.length_cons (a := (note, vs)), shift_last]
      rfl

theorem digits_before {ds tail : Str} (hd : ∀ c ∈ ds, isDigit c = true) (ht : ∀ c ∈ tail.head?, isDigit c = false) :
    (ds ++ tail).takeWhile isDigit = ds ∧ (ds ++ tail).dropWhile isDigit = tail := by
  induction ds with
  | nil =>
    cases tail with
    | nil => exact ⟨rfl, rfl⟩
    | cons x t =>
      have := ht x rfl
      simp [this]
  | cons x t ih =>
    have := hd x (by simp)
    have ih := ih (fun c hc => hd c (by simp [hc]))
    simp only [List.cons_append, List.takeWhile_cons, List.dropWhile_cons, this, if_true]
    exact ⟨by rw [ih.1], ih.2⟩

theorem versionLike_iff {name : Str} : Validator.looksLikeVersion name = true ↔ VersionLike name := by
  constructor
  · intro h
    unfold Validator.looksLikeVersion at h
    split at h
    · rename_i r
      rw [Bool.and_eq_true, decide_eq_true_eq] at h
      refine ⟨r.takeWhile isDigit, h.1, fun c hc => List.mem_takeWhile_imp hc, ?_⟩
      have hr := List.takeWhile_append_dropWhile (p := isDigit) (l := r)
      have h2 := h.2
      unfold atDollar at h2
      split at h2
      · rename_i he
        rw [he, List.append_nil] at hr
        exact .inl (by rw [hr])
      · rename_i c he
        rw [decide_eq_true_eq] at h2
        rw [he, h2] at hr
        exact .inr (by rw [List.cons_append, hr])
      · cases h2
    · cases h
  · rintro ⟨ds, hne, hd, rfl | rfl⟩
    · have := digits_before (tail := []) hd (by simp)
      rw [List.append_nil] at this
      show (decide (ds.takeWhile isDigit ≠ []) && atDollar (ds.dropWhile isDigit)) = true
      rw [this.1, this.2]
      simp [hne, atDollar]
    · have := digits_before (tail := c!"\n") hd (by decide)
      show (decide ((ds ++ c!"\n").takeWhile isDigit ≠ []) && atDollar ((ds ++ c!"\n").dropWhile isDigit)) = true
      rw [this.1, this.2]
      simp [hne, atDollar]

/-- Listing what is in a directory, or in what is no directory. -/
theorem listed_names {s : FS} (hw : s.WF) {base : Path} {entry : Str} (hl : look s (base ++ [entry]) ≠ none) :
    ∃ names, fswListdirNames s base entry = .ok names ∧ NamesIn s (base ++ [entry]) (sortStr names) := by
  have hsafe : SafeName entry := look_names hw (Option.ne_none_iff_exists'.mp hl).choose_spec entry (by simp)
  have key : fswListdirNames s base entry = .ok ((FS.children s (base ++ [entry])).map Prod.fst) := by
    cases hn : look s (base ++ [entry]) with
    | none => exact absurd hn hl
    | some n =>
      cases n with
      | dir => exact listdirNames_eq hw (ws := [entry]) (dir := entry) (by simpa using hsafe) (.inl rfl) hn
      | file b =>
        have hc : FS.children s (base ++ [entry]) = [] := by
          refine vacant_children hw (fun r hr => ?_)
          by_contra hc
          obtain ⟨x, hx⟩ := Option.ne_none_iff_exists'.mp hc
          have := look_prefix hw (p := base ++ [entry]) (q := base ++ [entry] ++ r) (List.prefix_append _ _) (by simpa using hr) hx
          rw [hn] at this
          cases this
        have hcomp : ∀ w ∈ [entry], IsComp w := by simpa using SafeName.isComp hsafe
        have hstrip : lstripSlash entry = entry := lstripSlash_join hcomp
        have hrel := fswRelpath_append (ws := [entry]) (vs := []) hcomp (by simp) (p := entry) (st := entry) (.inl rfl) (.inl rfl)
        unfold fswListdirNames FS.listdir
        dsimp only
        rw [hstrip, resolve_name base hsafe, hn, hc]
        dsimp only
        rw [rstripSlash_name hsafe]
        unfold listNamesLoop
        rw [hrel]
        rfl
  refine ⟨_, key, (sortStr_perm _).nodup_iff.mpr (FS.children_names_nodup hw _), sortStr_sorted _, fun n => ?_⟩
  rw [(sortStr_perm _).mem_iff, mem_names hw]

theorem sidecarLike_iff {name : Str} : startsWith name (inventoryFilename ++ c!".") = true ↔ SidecarLike name := by
  rw [startsWith_iff]
  rfl

theorem countFiles_spec {s : FS} (hw : s.WF) {p : Path} (hp : p ≠ []) : FileCount s p (countFiles s p) := by
  have hpred : ∀ e : Path × Node, (p.isPrefixOf e.1 && (match e.2 with | .file _ => true | .dir => false)) = true ↔
      p <+: e.1 ∧ ∃ b, e.2 = .file b := by
    rintro ⟨q, n⟩
    rw [Bool.and_eq_true, List.isPrefixOf_iff_prefix]
    cases n <;> simp
  unfold countFiles
  generalize hf : s.filter (fun e => p.isPrefixOf e.1 && (match e.2 with | .file _ => true | .dir => false)) = l
  have hl : ∀ e, e ∈ l ↔ e ∈ s ∧ p <+: e.1 ∧ ∃ b, e.2 = .file b := by
    intro e
    rw [← hf, List.mem_filter, hpred]
  have hnodup : (l.map Prod.fst).Nodup := by
    rw [← hf]
    exact List.Nodup.sublist (List.Sublist.map Prod.fst List.filter_sublist) hw.nk
  refine ⟨l.map (fun e => e.1.drop p.length), ?_, by simp, ?_⟩
  · have : l.map (fun e => e.1.drop p.length) = (l.map Prod.fst).map (fun q => q.drop p.length) := by simp
    rw [this, List.nodup_map_iff_inj_on hnodup]
    intro a ha b hb hab
    obtain ⟨e, he, rfl⟩ := List.mem_map.mp ha
    obtain ⟨e', he', rfl⟩ := List.mem_map.mp hb
    obtain ⟨_, ⟨t, ht⟩, _⟩ := (hl e).mp he
    obtain ⟨_, ⟨t', ht'⟩, _⟩ := (hl e').mp he'
    rw [← ht, ← ht'] at hab ⊢
    simp only [List.drop_left] at hab
    rw [hab]
  · intro r
    have hne : p ++ r ≠ [] := by simp [hp]
    rw [List.mem_map]
    constructor
    · rintro ⟨e, he, rfl⟩
      obtain ⟨hm, ⟨t, ht⟩, b, hb⟩ := (hl e).mp he
      refine ⟨b, ?_⟩
      rw [← ht, List.drop_left, ht]
      unfold FS.look
      rw [if_neg (by rw [← ht]; simp [hp]), ← hb]
      exact Dict.get?_of_mem hw.nk hm
    · rintro ⟨b, hb⟩
      unfold FS.look at hb
      rw [if_neg hne] at hb
      exact ⟨(p ++ r, .file b), (hl _).mpr ⟨Dict.mem_of_get? hb, ⟨r, rfl⟩, b, rfl⟩, by simp⟩

/-- A line in a version directory. -/
theorem versionNote_spec {s : FS} (hw : s.WF) {base : Path} {cd entry v : Str} (he : SafeName entry) (hv : SafeName v) :
    ∃ remark, versionNote s base cd entry v = remarked (v, remark) ∧ VersionRemark s (base ++ [entry]) cd (v, remark) := by
  unfold versionNote
  split_ifs with h1 h2 h3
  · exact ⟨[], by simp [remarked], .inl ⟨.inl h1, rfl⟩⟩
  · exact ⟨[], by simp [remarked], .inl ⟨.inr (sidecarLike_iff.mp h2), rfl⟩⟩
  · have hr : FS.resolve base (osPathJoin entry v) = base ++ [entry] ++ [v] := by
      rw [List.append_assoc]
      have := osPathJoin_joinWith (ws := [entry]) (b := v) (by simpa using SafeName.isComp he) hv.2.2.2
      rw [show osPathJoin entry v = joinWith '/' [entry, v] from this]
      exact resolve_join base (by simpa using ⟨he, hv⟩)
    refine ⟨c!"(" ++ natStr (countFiles s (base ++ [entry] ++ [v])) ++ c!" files)", by rw [hr]; simp [remarked, decimal], .inr (.inl ⟨?_, h3, _, ?_, rfl⟩)⟩
    · rw [← sidecarLike_iff]; exact fun h => h.elim h1 h2
    · subst h3
      exact countFiles_spec hw (by simp)
  · refine ⟨c!"<--- ???", by simp [remarked], .inr (.inr ⟨?_, h3, rfl⟩)⟩
    rw [← sidecarLike_iff]; exact fun h => h.elim h1 h2

theorem versionNotes_spec {s : FS} (hw : s.WF) {base : Path} {cd entry : Str} (he : SafeName entry) {names : List Str} (hn : ∀ v ∈ names, SafeName v) :
    ∃ es : List (Str × Str), names.map (versionNote s base cd entry) = es.map remarked ∧ es.map Prod.fst = names ∧
      ∀ e ∈ es, VersionRemark s (base ++ [entry]) cd e := by
  induction names with
  | nil => exact ⟨[], rfl, rfl, by simp⟩
  | cons v rest ih =>
    obtain ⟨es, h1, h2, h3⟩ := ih (fun v hv => hn v (by simp [hv]))
    obtain ⟨rm, h4, h5⟩ := versionNote_spec (cd := cd) (base := base) hw he (hn v (by simp))
    refine ⟨(v, rm) :: es, by simp [h1, h4], by simp [h2], ?_⟩
    rintro e he
    rcases List.mem_cons.mp he with rfl | he
    · exact h5
    · exact h3 e he

theorem sidecarLike_head {name : Str} (h : SidecarLike name) : name.head? = some 'i' := by
  obtain ⟨alg, rfl⟩ := h
  rfl

theorem versionLike_head {name : Str} (h : VersionLike name) : name.head? = some 'v' := by
  obtain ⟨ds, _, _, rfl | rfl⟩ := h <;> rfl

open Classical in
theorem rootNote_spec {s : FS} (hw : s.WF) {base : Path} {cd decl entry : Str} (hl : look s (base ++ [entry]) ≠ none) (hdecl : decl.head? = some '0')
    (seen : Bool) :
    ∃ (r : (Str × Str) × List (Str × Str)) (seen' : Bool), r.1.1 = entry ∧
      rootNote s base cd decl seen entry = .ok (remarked r.1, r.2.map remarked, seen') ∧
      (seen' = true ↔ (seen = true ∨ SidecarLike entry)) ∧ RootRemark s base cd decl (seen = true) r := by
  have hsafe : SafeName entry := look_names hw (Option.ne_none_iff_exists'.mp hl).choose_spec entry (by simp)
  unfold rootNote
  by_cases hv : Validator.looksLikeVersion entry = true
  · rw [if_pos hv]
    obtain ⟨names, h1, h2⟩ := listed_names hw hl
    rw [h1]
    have hvl := versionLike_iff.mp hv
    obtain ⟨es, h3, h4, h5⟩ := versionNotes_spec (cd := cd) (base := base) hw hsafe (names := sortStr names) (fun v hvm => by
      have := (h2.mem v).mp hvm
      exact look_names hw (Option.ne_none_iff_exists'.mp this).choose_spec v (by simp))
    refine ⟨((entry, []), es), seen, rfl, ?_, ?_, .inl ⟨hvl, rfl, by rw [h4]; exact h2, h5⟩⟩
    · dsimp only
      rw [h3]
      simp [remarked]
    · refine ⟨.inl, fun h => h.elim id (fun h => ?_)⟩
      have := sidecarLike_head h
      rw [versionLike_head hvl] at this
      cases this
  · rw [if_neg hv]
    rw [versionLike_iff] at hv
    split_ifs with h1 h2 h3
    · refine ⟨((entry, []), []), seen, rfl, by simp [remarked], ⟨.inl, fun h => h.elim id (fun h => ?_)⟩, .inr ⟨hv, rfl, .inl ⟨h1, rfl⟩⟩⟩
      have := sidecarLike_head h
      rcases h1 with rfl | rfl
      · rw [hdecl] at this
        cases this
      · obtain ⟨alg, ha⟩ := h
        have := congrArg List.length ha
        simp [inventoryFilename] at this
    · rw [sidecarLike_iff] at h2
      exact ⟨((entry, c!"<--- multiple inventory digests?"), []), true, rfl, by simp [remarked], ⟨fun _ => .inr h2, fun _ => rfl⟩,
        .inr ⟨hv, rfl, .inr (.inl ⟨h2, .inr ⟨h3, rfl⟩⟩)⟩⟩
    · rw [sidecarLike_iff] at h2
      exact ⟨((entry, []), []), true, rfl, by simp [remarked], ⟨fun _ => .inr h2, fun _ => rfl⟩, .inr ⟨hv, rfl, .inr (.inl ⟨h2, .inl ⟨h3, rfl⟩⟩)⟩⟩
    · rw [sidecarLike_iff] at h2
      refine ⟨((entry, c!"<--- ???"), []), seen, rfl, by simp [remarked], ⟨.inl, fun h => h.elim id (fun h => absurd h h2)⟩,
        .inr ⟨hv, rfl, .inr (.inr ⟨?_, rfl⟩)⟩⟩
      rintro (h | h | h)
      · exact h1 (.inl h)
      · exact h1 (.inr h)
      · exact h2 h

/-- All lines. -/
theorem rootNotes_spec {s : FS} (hw : s.WF) {base : Path} {cd decl : Str} (hdecl : decl.head? = some '0') : ∀ {names : List Str} (seen : Bool),
    (∀ n ∈ names, look s (base ++ [n]) ≠ none) →
    ∃ rows : List ((Str × Str) × List (Str × Str)), rows.map (fun r => r.1.1) = names ∧
      rootNotes s base cd decl seen names = .ok (rows.map (fun r => (remarked r.1, r.2.map remarked))) ∧
      ∀ pre r post, rows = pre ++ r :: post → RootRemark s base cd decl (seen = true ∨ ∃ x ∈ pre, SidecarLike x.1.1) r := by
  intro names
  induction names with
  | nil =>
    intro seen _
    exact ⟨[], rfl, rfl, by simp⟩
  | cons entry rest ih =>
    intro seen hall
    obtain ⟨r, seen', h1, h2, h3, h4⟩ := rootNote_spec (cd := cd) hw (hall entry (by simp)) hdecl seen
    obtain ⟨rows, k1, k2, k3⟩ := ih seen' (fun n hn => hall n (by simp [hn]))
    refine ⟨r :: rows, by simp [h1, k1], ?_, ?_⟩
    · unfold rootNotes
      rw [h2]
      dsimp only
      rw [k2]
      rfl
    · intro pre x post he
      cases pre with
      | nil =>
        have := List.cons.inj he
        rw [← this.1]
        simpa using h4
      | cons y pre =>
        have := List.cons.inj he
        rw [← this.1]
        have hk := k3 pre x post this.2
        rw [h3] at hk
        have e : (seen = true ∨ ∃ x ∈ r :: pre, SidecarLike x.1.1) ↔ ((seen = true ∨ SidecarLike entry) ∨ ∃ x ∈ pre, SidecarLike x.1.1) := by
          simp [h1, or_assoc]
        rw [propext e]
        exact hk

end Ocfl
