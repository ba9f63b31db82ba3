import Verif.Proofs.ValidatorVersions
import Verif.Proofs.WriteVersion
import Verif.Props.Fsw
import Verif.Props.Digest

/-!
# Object validation: the content of the versions
-/

namespace Ocfl

open Spec FS

theorem relpath_entry (cwd : Path) {v w : Str} (hv : SafeName v) (hw : SafeName w) : relpath cwd (v ++ '/' :: w) v = .ok w := by
  have h1 : absComps cwd v = cwd ++ [v] := by
    have := absComps_join (rs := [v]) (by simpa using ⟨hv.1, hv.2.1, hv.2.2.2⟩) (by simp) cwd
    rw [foldl_normStep (by simpa using hv)] at this
    exact this
  have h2 : absComps cwd (v ++ '/' :: w) = cwd ++ [v] ++ [w] := by
    have := absComps_join (rs := [v, w]) (by
      intro x hx
      rcases List.mem_cons.mp hx with rfl | hx
      · exact ⟨hv.1, hv.2.1, hv.2.2.2⟩
      · rw [List.mem_singleton] at hx
        subst hx
        exact ⟨hw.1, hw.2.1, hw.2.2.2⟩) (by simp) cwd
    rw [foldl_normStep (by
      intro x hx
      rcases List.mem_cons.mp hx with rfl | hx
      · exact hv
      · rw [List.mem_singleton] at hx
        subst hx
        exact hw)] at this
    rw [List.append_assoc]
    exact this
  unfold relpath
  rw [if_neg (by simp), h1, h2]
  simp only [sharedLength_append, Nat.sub_self, List.replicate_zero, List.nil_append, List.drop_left]
  rfl

namespace Validator

open W (Pass pass_ret pass_after pass_bind pass_unit_bind pass_err pass_warn pass_errUnless pass_py pass_log pass_ite
  pass_raised pass_abort pass_forEach pass_forM_nil pass_forM_cons)

/-- `p` is the path of a file below the content directory of a version. -/
def ContentFile (s : FS) (base : Path) (v cd p : Str) : Prop :=
  ∃ ws b, ws ≠ [] ∧ p = pathOf (v :: cd :: ws) ∧ look s (base ++ v :: cd :: ws) = some (.file b)

/-- No directory below the content directory of a version is empty. -/
def NoEmpty (s : FS) (base : Path) (v cd : Str) : Prop :=
  ∀ ws, ws ≠ [] → look s (base ++ v :: cd :: ws) = some .dir → ∃ w, look s (base ++ v :: cd :: ws ++ [w]) ≠ none

theorem walk_of_file {s : FS} {base : Path} {v cd : Str} (hv : SafeName v) (hc : SafeName cd) {b : Bytes}
    (hl : look s (base ++ [v, cd]) = some (.file b)) :
    fswWalk s base (joinWith '/' [v, cd]) = .ok [⟨dstr [v, cd], [], []⟩] := by
  have hws : ∀ w ∈ [v, cd], SafeName w := by simp [hv, hc]
  unfold fswWalk fswWalkPruned
  have h0 : startsWith (joinWith '/' [v, cd]) c!"/" = false := by
    rw [Bool.eq_false_iff]
    intro hs
    obtain ⟨t, ht⟩ := startsWith_iff.mp hs
    exact joinWith_head (isComp_list hws) '/' (by rw [ht]; rfl) rfl
  rw [h0]
  simp only [Bool.false_eq_true, if_false]
  have hwalk : walkDir s base (dstr [v, cd]) = .ok ⟨dstr [v, cd], [], []⟩ := by
    unfold walkDir FS.listdir
    have e : lstripSlash (dstr [v, cd]) = joinWith '/' [v, cd] := lstripSlash_slash (isComp_list hws)
    rw [e]
    dsimp only
    rw [FS.resolve_join base hws, hl]
    dsimp only
    have hr : fswRelpath (rstripSlash (joinWith '/' [v, cd])) (dstr [v, cd]) = .ok [] := by
      have := fswRelpath_append (ws := [v, cd]) (vs := []) (isComp_list hws) (by simp) (p := rstripSlash (joinWith '/' [v, cd]))
        (st := dstr [v, cd]) (.inl (rstripSlash_join (isComp_list hws))) (.inr rfl)
      exact this
    unfold walkEntries
    rw [hr]
    rfl
  show walkLoop s base Visit.dirs (s.length + 1 + 1) [dstr [v, cd]] = _
  unfold walkLoop
  rw [hwalk]
  rfl

theorem pass_contentFiles {s : FS} (hw : s.WF) {base : Path} {v cd : Str} (hv : SafeName v) {nd : Node}
    (hl : look s (base ++ [v, cd]) = some nd) :
    (∀ {files : List Str}, Pass (contentFiles s base (osPathJoin v cd)) files →
      NoEmpty s base v cd ∧ ∀ p, p ∈ files ↔ ContentFile s base v cd p) ∧
    (NoEmpty s base v cd → ∃ files, Pass (contentFiles s base (osPathJoin v cd)) files) := by
  have hc : SafeName cd := look_names hw hl cd (by simp)
  have hws : ∀ w ∈ [v, cd], SafeName w := by simp [hv, hc]
  have hj : osPathJoin v cd = joinWith '/' [v, cd] := by
    have := osPathJoin_joinWith (ws := [v]) (b := cd) (by simpa using SafeName.isComp hv) hc.2.2.2
    simpa [joinWith] using this
  rw [hj]
  have hwarn : ∀ {c : Prop} [Decidable c] {u : Unit}, Pass (if c then W.warn c!"W003" else W.ret ()) u := by
    intro c _ u
    rw [pass_ite]
    by_cases h : c
    · exact .inl ⟨h, pass_warn.mpr trivial⟩
    · exact .inr ⟨h, pass_ret.mpr rfl⟩
  cases nd with
  | file b =>
    have hnone : ∀ ws, ws ≠ [] → look s (base ++ v :: cd :: ws) = none := by
      intro ws hne
      rw [show base ++ v :: cd :: ws = base ++ [v, cd] ++ ws by simp]
      cases hn : look s (base ++ [v, cd] ++ ws) with
      | none => rfl
      | some x =>
        have := look_prefix hw (p := base ++ [v, cd]) ⟨ws, rfl⟩ (by simpa using hne) hn
        rw [hl] at this; cases this
    have hempty : NoEmpty s base v cd := by
      intro ws hne hd
      rw [hnone ws hne] at hd; cases hd
    have hnof : ∀ p, ¬ ContentFile s base v cd p := by
      rintro p ⟨ws, b, hne, _, hf⟩
      rw [hnone ws hne] at hf; cases hf
    unfold contentFiles
    rw [walk_of_file hv hc hl]
    simp only [pass_bind, pass_py, Except.ok.injEq, exists_eq_left', pass_forEach, pass_ret, pass_errUnless, List.mem_singleton,
      forall_eq, List.flatMap_cons, List.flatMap_nil, List.map_nil, List.append_nil]
    refine ⟨?_, fun _ => ?_⟩
    · rintro files ⟨_, _, _, _, rfl⟩
      exact ⟨hempty, fun p => ⟨fun h => (by cases h), fun h => absurd h (hnof p)⟩⟩
    · exact ⟨[], (), by simp [dstr], (), hwarn, rfl⟩
  | dir =>
    unfold contentFiles
    rw [fswWalk_eq hw hws hl (.inl rfl)]
    generalize hT : treeWalk (fun ws => dirNames s (base ++ ws)) (FS.depth s) [v, cd] = T
    have hTm : ∀ q, q ∈ T ↔ [v, cd] <+: q ∧ look s (base ++ q) = some .dir := by
      intro q
      rw [← hT]
      exact mem_treeWalk_dirs hw hl
    simp only [pass_bind, pass_py, Except.ok.injEq, exists_eq_left', pass_forEach, pass_ret, pass_errUnless, List.mem_map,
      forall_exists_index, and_imp, forall_apply_eq_imp_iff₂]
    have hcheck : (∀ q ∈ T, ((visitOf s base q).dirpath = '/' :: joinWith '/' [v, cd] ||
        (visitOf s base q).dirs.length + (visitOf s base q).files.length ≠ 0) = true) ↔ NoEmpty s base v cd := by
      constructor
      · intro h ws hne hd
        have hd' : look s (base ++ ([v, cd] ++ ws)) = some .dir := by simpa using hd
        have := h _ ((hTm _).mpr ⟨⟨ws, rfl⟩, hd'⟩)
        rw [Bool.or_eq_true] at this
        rcases this with h1 | h1
        · have h1 : dstr ([v, cd] ++ ws) = dstr [v, cd] := of_decide_eq_true h1
          have hsafe : ∀ w ∈ [v, cd] ++ ws, SafeName w := by
            intro w hwm
            exact look_names hw hd' w (by rw [List.mem_append]; exact .inr hwm)
          have := dstr_inj hsafe hws h1
          have := congrArg List.length this
          simp at this
          exact absurd this hne
        · have h1 : (dirNames s (base ++ ([v, cd] ++ ws))).length + (fileNames s (base ++ ([v, cd] ++ ws))).length ≠ 0 := of_decide_eq_true h1
          have h2 : dirNames s (base ++ ([v, cd] ++ ws)) ≠ [] ∨ fileNames s (base ++ ([v, cd] ++ ws)) ≠ [] := by
            by_contra hno
            push Not at hno
            rw [hno.1, hno.2] at h1
            exact h1 rfl
          rcases h2 with h2 | h2
          · obtain ⟨w, hwm⟩ := List.exists_mem_of_ne_nil _ h2
            rw [mem_dirNames hw] at hwm
            refine ⟨w, ?_⟩
            have : base ++ v :: cd :: ws ++ [w] = base ++ ([v, cd] ++ ws) ++ [w] := by simp
            rw [this, hwm]; simp
          · obtain ⟨w, hwm⟩ := List.exists_mem_of_ne_nil _ h2
            rw [mem_fileNames hw] at hwm
            obtain ⟨b, hb⟩ := hwm
            refine ⟨w, ?_⟩
            have : base ++ v :: cd :: ws ++ [w] = base ++ ([v, cd] ++ ws) ++ [w] := by simp
            rw [this, hb]; simp
      · intro h q hq
        obtain ⟨⟨ws, rfl⟩, hd⟩ := (hTm q).mp hq
        rw [Bool.or_eq_true]
        by_cases hne : ws = []
        · subst hne
          exact .inl (decide_eq_true rfl)
        · right
          obtain ⟨w, hn⟩ := h ws hne (by simpa using hd)
          have e : base ++ v :: cd :: ws ++ [w] = base ++ ([v, cd] ++ ws) ++ [w] := by simp
          rw [e] at hn
          refine decide_eq_true ?_
          show (dirNames s (base ++ ([v, cd] ++ ws))).length + (fileNames s (base ++ ([v, cd] ++ ws))).length ≠ 0
          obtain ⟨nd, hnd⟩ := Option.ne_none_iff_exists'.mp hn
          cases nd with
          | dir =>
            have := List.length_pos_of_mem ((mem_dirNames hw).mpr hnd)
            omega
          | file b =>
            have := List.length_pos_of_mem ((mem_fileNames hw).mpr ⟨b, hnd⟩)
            omega
    rw [hcheck]
    refine ⟨?_, fun h => ⟨_, (), h, (), hwarn, rfl⟩⟩
    rintro files _ h1 _ _ rfl
    refine ⟨h1, fun p => ?_⟩
    simp only [List.mem_flatMap, List.mem_map, exists_exists_and_eq_and]
    have hname : ∀ ws f, (∀ w ∈ [v, cd] ++ ws, SafeName w) → SafeName f →
        lstripSlash (osPathJoin (visitOf s base ([v, cd] ++ ws)).dirpath f) = pathOf (v :: cd :: (ws ++ [f])) := by
      intro ws f h2 h3
      show lstripSlash (osPathJoin (dstr ([v, cd] ++ ws)) f) = _
      rw [osPathJoin_dstr (isComp_list h2) (SafeName.isComp h3)]
      have h4 : ∀ w ∈ [v, cd] ++ ws ++ [f], SafeName w := by
        intro w hwm
        rcases List.mem_append.mp hwm with hwm | hwm
        · exact h2 w hwm
        · rw [List.mem_singleton] at hwm; subst hwm; exact h3
      rw [show dstr ([v, cd] ++ ws ++ [f]) = '/' :: joinWith '/' ([v, cd] ++ ws ++ [f]) from rfl, lstripSlash_slash (isComp_list h4),
        joinWith_eq_pathOf]
      simp
    constructor
    · rintro ⟨q, hq, f, hf, rfl⟩
      obtain ⟨⟨ws, rfl⟩, hd⟩ := (hTm q).mp hq
      obtain ⟨b, hb⟩ := (mem_fileNames hw).mp hf
      have hn := look_names hw hb
      refine ⟨ws ++ [f], b, by simp, hname ws f (fun w hwm => hn w ?_) (hn f (by simp)), by simpa using hb⟩
      rw [List.mem_append, List.mem_append]
      exact .inl (.inr hwm)
    · rintro ⟨ws, b, hne, rfl, hb⟩
      have hn := look_names hw hb
      have hsplit := List.dropLast_append_getLast hne
      have hb' : look s (base ++ ([v, cd] ++ ws.dropLast) ++ [ws.getLast hne]) = some (.file b) := by
        rw [← hb]
        congr 1
        conv_rhs => rw [← hsplit]
        simp
      have hd : look s (base ++ ([v, cd] ++ ws.dropLast)) = some .dir :=
        look_prefix hw ⟨[ws.getLast hne], rfl⟩ (by simp) hb'
      refine ⟨[v, cd] ++ ws.dropLast, (hTm _).mpr ⟨⟨_, rfl⟩, hd⟩, ws.getLast hne, (mem_fileNames hw).mpr ⟨b, hb'⟩, ?_⟩
      have hn' := look_names hw hb'
      rw [hname ws.dropLast (ws.getLast hne) (fun w hwm => hn' w (by rw [List.mem_append, List.mem_append]; exact .inl (.inr hwm))) (hn' _ (by simp)), hsplit]

/-- A loop that collects. -/
theorem forM_collect {α : Type} {body : List Str → α → W (List Str)} {C : α → Prop} {M : α → Str → Prop} :
    ∀ {l : List α},
      (∀ x ∈ l, ∀ seen seen', Pass (body seen x) seen' → C x ∧ ∀ p, p ∈ seen' ↔ p ∈ seen ∨ M x p) →
      (∀ x ∈ l, C x → ∀ seen, ∃ seen', Pass (body seen x) seen') →
      (∀ seen seen', Pass (W.forM body l seen) seen' → (∀ x ∈ l, C x) ∧ ∀ p, p ∈ seen' ↔ p ∈ seen ∨ ∃ x ∈ l, M x p) ∧
      ((∀ x ∈ l, C x) → ∀ seen, ∃ seen', Pass (W.forM body l seen) seen')
  | [], _, _ => by
    refine ⟨fun seen seen' h => ?_, fun _ seen => ⟨seen, pass_forM_nil.mpr rfl⟩⟩
    rw [pass_forM_nil] at h
    subst h
    simp
  | x :: l, h1, h2 => by
    have ih := forM_collect (l := l) (fun y hy => h1 y (by simp [hy])) (fun y hy => h2 y (by simp [hy]))
    refine ⟨fun seen seen' h => ?_, fun hall seen => ?_⟩
    · rw [pass_forM_cons] at h
      obtain ⟨st, ha, hb⟩ := h
      obtain ⟨hc, hm⟩ := h1 x (by simp) _ _ ha
      obtain ⟨hcs, hms⟩ := ih.1 _ _ hb
      refine ⟨?_, fun p => ?_⟩
      · intro y hy
        rcases List.mem_cons.mp hy with rfl | hy
        · exact hc
        · exact hcs y hy
      · rw [hms, hm]
        simp only [List.mem_cons, exists_eq_or_imp, or_assoc]
    · obtain ⟨st, ha⟩ := h2 x (by simp) (hall x (by simp)) seen
      obtain ⟨st', hb⟩ := ih.2 (fun y hy => hall y (by simp [hy])) st
      exact ⟨st', pass_forM_cons.mpr ⟨st, ha, hb⟩⟩

section Content

variable {E : Env} {s : FS} {base : Path} {cd : Str} {df : Dict Str Str} {v : Str}

theorem pass_versionEntry (hw : s.WF) (hv : SafeName v) {w : Str} {nd : Node} (hl : look s (base ++ [v, w]) = some nd) (b : Bool) :
    (∀ seen seen', Pass (versionEntry E s base cd df v seen (v ++ '/' :: w, b)) seen' →
      (¬ (w = c!"inventory.json" ∨ Dict.get? df v = some w) → (w = cd → NoEmpty s base v cd) ∧ (w ≠ cd → nd = .dir)) ∧
      ∀ p, p ∈ seen' ↔ p ∈ seen ∨ (¬ (w = c!"inventory.json" ∨ Dict.get? df v = some w) ∧ w = cd ∧ ContentFile s base v cd p)) ∧
    ((¬ (w = c!"inventory.json" ∨ Dict.get? df v = some w) → (w = cd → NoEmpty s base v cd) ∧ (w ≠ cd → nd = .dir)) →
      ∀ seen, ∃ seen', Pass (versionEntry E s base cd df v seen (v ++ '/' :: w, b)) seen') := by
  have hwn : SafeName w := look_names hw hl w (by simp)
  have hi : inventoryFilename = c!"inventory.json" := rfl
  have hres : FS.resolve base (v ++ '/' :: w) = base ++ [v, w] := by
    have := FS.resolve_join base (ws := [v, w]) (by simp [hv, hwn])
    simpa [joinWith] using this
  have hdir : FS.isdir s (FS.resolve base (v ++ '/' :: w)) = decide (nd = .dir) := by
    rw [hres]
    unfold FS.isdir
    rw [hl]
    cases nd <;> simp
  unfold versionEntry
  simp only [relpath_entry E.cwd hv hwn, pass_bind, pass_py, Except.ok.injEq, exists_eq_left', hi]
  by_cases hskip : w = c!"inventory.json" ∨ Dict.get? df v = some w
  · simp only [hskip, if_true, pass_ret, not_true_eq_false, false_and, or_false, false_implies, true_and]
    exact ⟨fun _ _ h => by subst h; exact fun p => Iff.rfl, fun _ seen => ⟨seen, rfl⟩⟩
  · simp only [hskip, if_false, not_false_eq_true, true_and, true_implies]
    by_cases hcd : w = cd
    · subst hcd
      simp only [if_true, pass_bind, pass_ret, true_and, true_implies, ne_eq, not_true_eq_false, false_implies, and_true]
      obtain ⟨h1, h2⟩ := pass_contentFiles hw hv hl
      constructor
      · rintro seen _ ⟨files, hp, rfl⟩
        obtain ⟨ha, hb⟩ := h1 hp
        exact ⟨ha, fun p => by rw [List.mem_append, hb]⟩
      · intro h seen
        obtain ⟨files, hp⟩ := h2 h
        exact ⟨_, files, hp, rfl⟩
    · simp only [hcd, if_false, false_and, or_false, false_implies, true_and, ne_eq, not_false_eq_true, true_implies, hdir]
      cases nd with
      | dir =>
        simp only [decide_true, if_true, pass_bind, pass_warn, true_and, pass_ret, exists_const, if_false]
        exact ⟨fun _ _ h => by subst h; exact fun p => Iff.rfl, fun _ seen => ⟨seen, rfl⟩⟩
      | file b =>
        simp only [reduceCtorEq, decide_false, Bool.false_eq_true, if_false, pass_bind, pass_err, false_and, exists_false, false_implies,
          implies_true, and_self]

/-- What the directory of a version must be like. -/
def VersionDirOK (s : FS) (base : Path) (cd : Str) (df : Dict Str Str) (v : Str) : Prop :=
  look s (base ++ [v]) = some .dir ∧
  (∀ w b, look s (base ++ [v, w]) = some (.file b) → w = c!"inventory.json" ∨ w = cd ∨ Dict.get? df v = some w) ∧
  (Dict.get? df v ≠ some cd → NoEmpty s base v cd)

theorem pass_versionContent (hw : s.WF) (hv : SafeName v) (hnf : ∀ b, look s (base ++ [v]) ≠ some (.file b))
    (hni : look s (base ++ [v, c!"inventory.json"]) ≠ some .dir) :
    (∀ seen seen', Pass (versionContent E s base cd df seen v) seen' →
      VersionDirOK s base cd df v ∧
      ∀ p, p ∈ seen' ↔ p ∈ seen ∨ (Dict.get? df v ≠ some cd ∧ ContentFile s base v cd p)) ∧
    (VersionDirOK s base cd df v → ∀ seen, ∃ seen', Pass (versionContent E s base cd df seen v) seen') := by
  have hres : FS.resolve base v = base ++ [v] := FS.resolve_name base hv
  cases hl : look s (base ++ [v]) with
  | none =>
    have hbad : ∃ e, listdir s base v = .error e := by
      unfold listdir
      rw [hres]
      dsimp only
      rw [hl]
      exact ⟨_, rfl⟩
    obtain ⟨e, he⟩ := hbad
    constructor
    · intro seen seen' h
      unfold versionContent at h
      rw [he] at h
      cases e <;> simp [pass_bind, pass_err, pass_raised] at h
    · intro h
      have := h.1
      rw [hl] at this; cases this
  | some nd =>
    cases nd with
    | file b => exact absurd hl (hnf b)
    | dir =>
      unfold versionContent
      rw [listdir_name hv hl]
      dsimp only
      have hcol := forM_collect (body := versionEntry E s base cd df v)
        (l := (children s (base ++ [v])).map (fun e => (v ++ '/' :: e.1, decide (e.2 = .dir))))
        (C := fun x => ∀ w nd, look s (base ++ [v, w]) = some nd → x.1 = v ++ '/' :: w →
          (¬ (w = c!"inventory.json" ∨ Dict.get? df v = some w) → (w = cd → NoEmpty s base v cd) ∧ (w ≠ cd → nd = .dir)))
        (M := fun x p => ∃ w, x.1 = v ++ '/' :: w ∧
          (¬ (w = c!"inventory.json" ∨ Dict.get? df v = some w) ∧ w = cd ∧ ContentFile s base v cd p)) (by
          intro x hx seen seen' h
          obtain ⟨⟨w, nd⟩, hm, rfl⟩ := List.mem_map.mp hx
          rw [mem_children hw] at hm
          have hm : look s (base ++ [v, w]) = some nd := by simpa using hm
          obtain ⟨ha, hb⟩ := (pass_versionEntry (E := E) (cd := cd) (df := df) hw hv hm (decide (nd = .dir))).1 seen seen' h
          refine ⟨?_, fun p => ?_⟩
          · intro w' nd' hl' e
            have e' : w = w' := by simpa using e
            subst e'
            rw [hm] at hl'
            cases hl'
            exact ha
          · rw [hb]
            constructor
            · rintro (h | h)
              · exact .inl h
              · exact .inr ⟨w, rfl, h⟩
            · rintro (h | ⟨w', e, h⟩)
              · exact .inl h
              · have e' : w = w' := by simpa using e
                subst e'
                exact .inr h) (by
          intro x hx hC seen
          obtain ⟨⟨w, nd⟩, hm, rfl⟩ := List.mem_map.mp hx
          rw [mem_children hw] at hm
          have hm : look s (base ++ [v, w]) = some nd := by simpa using hm
          exact (pass_versionEntry hw hv hm (decide (nd = .dir))).2 (hC w nd hm rfl) seen)
      have hmem : ∀ w nd, look s (base ++ [v, w]) = some nd →
          (v ++ '/' :: w, decide (nd = .dir)) ∈ (children s (base ++ [v])).map (fun e => (v ++ '/' :: e.1, decide (e.2 = .dir))) := by
        intro w nd h
        refine List.mem_map.mpr ⟨(w, nd), (mem_children hw).mpr ?_, rfl⟩
        simpa using h
      have hcdir : ∀ ws, ws ≠ [] → look s (base ++ v :: cd :: ws) ≠ none → look s (base ++ [v, cd]) = some .dir := by
        intro ws hne hn
        obtain ⟨nd, hnd⟩ := Option.ne_none_iff_exists'.mp hn
        refine look_prefix hw (q := base ++ v :: cd :: ws) ⟨ws, by simp⟩ ?_ hnd
        intro e
        have := congrArg List.length e
        simp at this
        exact hne this
      have hinv : ∀ ws, ws ≠ [] → look s (base ++ v :: cd :: ws) ≠ none → cd ≠ c!"inventory.json" := by
        intro ws hne hn e
        have := hcdir ws hne hn
        rw [e] at this
        exact hni this
      have hC : (∀ x ∈ (children s (base ++ [v])).map (fun e => (v ++ '/' :: e.1, decide (e.2 = .dir))), ∀ w nd,
          look s (base ++ [v, w]) = some nd → x.1 = v ++ '/' :: w →
          (¬ (w = c!"inventory.json" ∨ Dict.get? df v = some w) → (w = cd → NoEmpty s base v cd) ∧ (w ≠ cd → nd = .dir))) ↔
          VersionDirOK s base cd df v := by
        constructor
        · intro h
          refine ⟨hl, ?_, ?_⟩
          · intro w b hf
            have := h _ (hmem w _ hf) w _ hf rfl
            by_contra hno
            push Not at hno
            have := (this (by push Not; exact ⟨hno.1, hno.2.2⟩)).2 hno.2.1
            cases this
          · intro hdf ws hne hd
            have hd' := hcdir ws hne (by rw [hd]; simp)
            have h1 := h _ (hmem cd _ hd') cd _ hd' rfl
            exact (h1 (by
              rintro (h2 | h2)
              · exact hinv ws hne (by rw [hd]; simp) h2
              · exact hdf h2)).1 rfl ws hne hd
        · rintro ⟨_, h2, h3⟩ x hx w nd hm _ hns
          push Not at hns
          refine ⟨?_, ?_⟩
          · rintro rfl
            exact h3 hns.2
          · intro hne
            cases nd with
            | dir => rfl
            | file b =>
              rcases h2 w b hm with h | h | h
              · exact absurd h hns.1
              · exact absurd h hne
              · exact absurd h hns.2
      refine ⟨fun seen seen' h => ?_, fun h seen => hcol.2 (hC.mpr h) seen⟩
      obtain ⟨ha, hb⟩ := hcol.1 seen seen' h
      refine ⟨hC.mp ha, fun p => ?_⟩
      rw [hb]
      refine or_congr Iff.rfl ?_
      constructor
      · rintro ⟨x, _, w, _, hns, rfl, hcf⟩
        push Not at hns
        exact ⟨hns.2, hcf⟩
      · rintro ⟨hdf, hcf⟩
        obtain ⟨ws, b, hne, _, hf⟩ := id hcf
        have hd := hcdir ws hne (by rw [hf]; simp)
        refine ⟨_, hmem cd _ hd, cd, rfl, ?_, rfl, hcf⟩
        rintro (h2 | h2)
        · exact hinv ws hne (by rw [hf]; simp) h2
        · exact hdf h2

theorem pass_versionsContent (hw : s.WF) {vds : List Str} (hv : ∀ v ∈ vds, SafeName v)
    (hnf : ∀ v ∈ vds, ∀ b, look s (base ++ [v]) ≠ some (.file b))
    (hni : ∀ v ∈ vds, look s (base ++ [v, c!"inventory.json"]) ≠ some .dir) :
    (∀ seen, Pass (W.forM (versionContent E s base cd df) vds []) seen →
      (∀ v ∈ vds, VersionDirOK s base cd df v) ∧
      ∀ p, p ∈ seen ↔ ∃ v ∈ vds, Dict.get? df v ≠ some cd ∧ ContentFile s base v cd p) ∧
    ((∀ v ∈ vds, VersionDirOK s base cd df v) → ∃ seen, Pass (W.forM (versionContent E s base cd df) vds []) seen) := by
  obtain ⟨h1, h2⟩ := forM_collect (body := versionContent E s base cd df) (l := vds) (C := VersionDirOK s base cd df)
    (M := fun v p => Dict.get? df v ≠ some cd ∧ ContentFile s base v cd p)
    (fun v hvm => (pass_versionContent hw (hv v hvm) (hnf v hvm) (hni v hvm)).1)
    (fun v hvm => (pass_versionContent hw (hv v hvm) (hnf v hvm) (hni v hvm)).2)
  refine ⟨fun seen h => ?_, fun h => h2 h []⟩
  obtain ⟨ha, hb⟩ := h1 _ _ h
  exact ⟨ha, fun p => by rw [hb]; simp⟩

end Content

end Validator
end Ocfl
