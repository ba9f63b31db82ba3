import Verif.Proofs.StoreAdd
import Verif.Proofs.Crash

/-!
# What is there while a directory is being copied
-/

namespace Ocfl

open Spec FS Prog

/-- Writing a file, if it has an effect, gives it the text. -/
theorem look_exec_write (q : Path) (x : Bytes) (s : FS) :
    FS.look (FS.exec (.write q x) s).1 q = FS.look s q ∨ FS.look (FS.exec (.write q x) s).1 q = some (.file x) := by
  have hne : q = [] → FS.look s q = some .dir := by
    rintro rfl
    exact look_nil s
  unfold FS.exec
  dsimp only
  split
  · exact Or.inl rfl
  · rename_i hd
    split
    · exact Or.inl rfl
    · right
      rw [look_set (fun e => hd (hne e)) q, if_pos rfl]

/-- What every operation keeps holds at every moment. -/
theorem Prog.Only.visits_keep {α : Type} {P : FS.Op → Prop} {I : FS → Prop} {p : Prog α} {s s' : FS} (hp : Only P p)
    (h : ∀ o t t', P o → I t → Midway o t t' → I t') (hs : I s) (hv : Visits p s s') : I s' := by
  induction hv with
  | here => exact hs
  | get _ ih => cases hp with | get hk => exact ih (hk _) hs
  | mid hm => cases hp with | op ho _ => exact h _ _ _ ho hs hm
  | next _ ih => cases hp with | op ho hk => exact ih (hk _) (h _ _ _ ho hs .after)

theorem visits_forEach {β : Type} {I : FS → Prop} {f : β → Prog Unit} : ∀ {l : List β} {s s' : FS},
    (∀ x ∈ l, ∀ t t', I t → Visits (f x) t t' → I t') → I s → Visits (Prog.forEach f l) s s' → I s'
  | [], s, s', _, hs, hv => by
    unfold Prog.forEach at hv
    rw [visits_ret hv]
    exact hs
  | x :: l, s, s', h, hs, hv => by
    unfold Prog.forEach at hv
    rcases visits_bind hv with hv | ⟨s1, _, hr, hv⟩
    · exact h x (by simp) _ _ hs hv
    · have h1 := visits_run (f x) s
      rw [hr] at h1
      exact visits_forEach (fun y hy => h y (by simp [hy])) (h x (by simp) _ _ hs h1) hv

/-- A moment of copying what is below `src` in `s` to `dst`: the files there are first parts of the files of the source, and all
files that were there are still. -/
structure Copying (s : FS) (src dst : Path) (t : FS) : Prop where
  wf : t.WF
  kept : ∀ q b, FS.look s q = some (.file b) → FS.look t q = some (.file b)
  parts : ∀ r b, FS.look t (dst ++ r) = some (.file b) → ∃ b0 n, FS.look s (src ++ r) = some (.file b0) ∧ b = b0.take n

theorem midway_mkdir {q : Path} {t t' : FS} (hm : Midway (.mkdir q) t t') : t' = t ∨ t' = (FS.exec (.mkdir q) t).1 := by
  cases hm with
  | before => exact Or.inl rfl
  | after => exact Or.inr rfl
  | partly n e => cases e

/-- Creating a directory does not change files. -/
theorem mkdir_files {q : Path} {t t' : FS} (hm : Midway (.mkdir q) t t') (p : Path) (b : Bytes) :
    FS.look t' p = some (.file b) ↔ FS.look t p = some (.file b) := by
  rcases midway_mkdir hm with rfl | rfl
  · rfl
  · unfold FS.exec
    dsimp only
    split
    · rfl
    · rename_i hn
      split
      · rfl
      · have hne : q ≠ [] := by
          rintro rfl
          rw [look_nil] at hn
          cases hn
        show FS.look (Dict.set t q .dir) p = _ ↔ _
        rw [look_set hne p]
        split
        · rename_i he
          subst he
          rw [hn]
          simp
        · rfl

theorem midway_wf {o : FS.Op} {t t' : FS} (ho : SafeTarget o) (hw : t.WF) (hm : Midway o t t') : t'.WF := by
  have : Only SafeTarget (Prog.perform o) := .perform ho
  exact this.visits_wf hw (.mid hm)

theorem Copying.mkdir {s t t' : FS} {src dst q : Path} (h : Copying s src dst t) (hq : ∀ w ∈ q, SafeName w)
    (hm : Midway (.mkdir q) t t') : Copying s src dst t' where
  wf := midway_wf (o := .mkdir q) hq h.wf hm
  kept p b hp := (mkdir_files hm p b).mpr (h.kept p b hp)
  parts r b hr := h.parts r b ((mkdir_files hm _ b).mp hr)

theorem Copying.write {s t t' : FS} {src dst r : Path} {b0 : Bytes} (h : Copying s src dst t) (hq : ∀ w ∈ dst ++ r, SafeName w)
    (hn : FS.look s (dst ++ r) = none) (hb : FS.look s (src ++ r) = some (.file b0))
    (hm : Midway (.write (dst ++ r) b0) t t') : Copying s src dst t' := by
  have hl : ∃ n, ∀ p b, FS.look t' p = some (.file b) → FS.look t p = some (.file b) ∨ p = dst ++ r ∧ b = b0.take n := by
    have hx : ∃ n, t' = t ∨ t' = (FS.exec (.write (dst ++ r) (b0.take n)) t).1 := by
      cases hm with
      | before => exact ⟨0, Or.inl rfl⟩
      | after => exact ⟨b0.length, Or.inr (by rw [List.take_length])⟩
      | partly n e =>
        cases e
        exact ⟨n, Or.inr rfl⟩
    obtain ⟨n, rfl | rfl⟩ := hx
    · exact ⟨n, fun p b hp => Or.inl hp⟩
    · refine ⟨n, fun p b hp => ?_⟩
      by_cases he : p = dst ++ r
      · subst he
        rcases look_exec_write (dst ++ r) (b0.take n) t with h1 | h1
        · rw [h1] at hp
          exact Or.inl hp
        · rw [h1] at hp
          cases hp
          exact Or.inr ⟨rfl, rfl⟩
      · rw [exec_frame (o := .write (dst ++ r) (b0.take n)) (fun e => he e.symm)] at hp
        exact Or.inl hp
  have hf : ∀ p, p ≠ dst ++ r → FS.look t' p = FS.look t p := fun p hp => midway_frame (o := .write (dst ++ r) b0) (fun e => hp e.symm) hm
  refine ⟨midway_wf (o := .write (dst ++ r) b0) hq h.wf hm, ?_, ?_⟩
  · intro p b hp
    rw [hf p (by rintro rfl; rw [hn] at hp; cases hp)]
    exact h.kept p b hp
  · intro r' b hr
    obtain ⟨n, hl⟩ := hl
    rcases hl _ b hr with h1 | ⟨h1, h2⟩
    · exact h.parts r' b h1
    · cases List.append_cancel_left h1
      exact ⟨b0, n, hb, h2⟩

theorem copying_step {s t t' : FS} {src base : Path} {ws r : List Str} (hs : ∀ w ∈ ws, SafeName w) (hr : ∀ w ∈ r, SafeName w)
    (hne : r ≠ []) (hbase : ∀ w ∈ base, SafeName w) {b0 : Bytes} (hn : FS.look s (base ++ ws ++ r) = none)
    (hb : FS.look s (src ++ r) = some (.file b0)) (h : Copying s src (base ++ ws) t)
    (hv : Visits (copydirStep src c!"/" base (joinWith '/' ws) (joinWith '/' r)) t t') : Copying s src (base ++ ws) t' := by
  have hdr : ∀ w ∈ ws ++ r, SafeName w := safe_append hs hr
  have hdrl : ∀ w ∈ (ws ++ r).dropLast, SafeName w := fun w hw => hdr w (List.dropLast_subset _ hw)
  have hall : ∀ w ∈ base ++ ws ++ r, SafeName w := by
    rw [List.append_assoc]
    exact safe_append hbase hdr
  have e1 : resolve src (osPathJoin c!"/" (joinWith '/' r)) = src ++ r := by
    have h1 : osPathJoin (dstr []) (joinWith '/' r) = dstr ([] ++ r) := osPathJoin_dstr_join (by simp) (isComp_list hr) hne
    have h2 : (dstr [] : Str) = c!"/" := rfl
    rw [h2] at h1
    rw [h1]
    unfold dstr
    rw [List.nil_append, resolve_slash_join _ hr]
  have e2 : osPathJoin (joinWith '/' ws) (joinWith '/' r) = joinWith '/' (ws ++ r) :=
    osPathJoin_join_join (isComp_list hs) (isComp_list hr) hne
  have e3 : resolve base (joinWith '/' (ws ++ r)) = base ++ ws ++ r := by
    rw [resolve_join _ hdr, List.append_assoc]
  have e4 : osDirname (joinWith '/' (ws ++ r)) = joinWith '/' (ws ++ r).dropLast :=
    osDirname_join (isComp_list hdr) (by simp [hne])
  have e5 : resolve base (joinWith '/' (ws ++ r).dropLast) = base ++ (ws ++ r).dropLast := resolve_join _ hdrl
  unfold copydirStep at hv
  dsimp only at hv
  rw [e1, e2, e3, e4, e5] at hv
  cases hv with
  | here => exact h
  | get hv =>
    dsimp only at hv
    have honly : Only (fun o => ∃ q, (∀ w ∈ q, SafeName w) ∧ o = .mkdir q)
        (if joinWith '/' (ws ++ r).dropLast ≠ joinWith '/' ws ∧ FS.exists_ t (base ++ (ws ++ r).dropLast) = false then
          FS.makedirs (base ++ (ws ++ r).dropLast) false else .ret (.ok ())) := by
      refine .ite (fun _ => (only_makedirs _ _).mono ?_) (fun _ => .ret)
      rintro o ⟨q, _, hq, rfl⟩
      exact ⟨q, fun w hw => safe_append hbase hdrl w (hq.subset hw), rfl⟩
    generalize (if joinWith '/' (ws ++ r).dropLast ≠ joinWith '/' ws ∧ FS.exists_ t (base ++ (ws ++ r).dropLast) = false then
          FS.makedirs (base ++ (ws ++ r).dropLast) false else .ret (.ok ())) = made at honly hv
    have hkeep : ∀ {t1}, Visits made t t1 → Copying s src (base ++ ws) t1 := fun {t1} hv1 =>
      honly.visits_keep (I := Copying s src (base ++ ws)) (by
        rintro o t t' ⟨q, hq, rfl⟩ ht hm
        exact ht.mkdir hq hm) h hv1
    rcases visits_bind hv with hv | ⟨t1, _, hr1, hv⟩
    · exact hkeep hv
    · have h1 : Copying s src (base ++ ws) t1 := by
        have := hkeep (visits_run made t)
        rw [hr1] at this
        exact this
      unfold fswCopyfile at hv
      rcases visits_bind hv with hv | ⟨t2, b, hr2, hv⟩
      · rw [visits_look hv]
        exact h1
      · unfold FS.readFile at hr2
        rw [run_look] at hr2
        obtain ⟨rfl, hr2⟩ := Prod.mk.inj hr2
        unfold FS.read at hr2
        rw [h1.kept _ _ hb] at hr2
        cases hr2
        rw [if_neg (by intro e; rw [e, hn] at hb; cases hb)] at hv
        cases hv with
        | here => exact h1
        | mid hm => exact h1.write hall hn hb hm
        | next hv =>
          rw [visits_ret hv]
          exact h1.write hall hn hb .after

/-- At every moment of copying a directory to a place where nothing was, there are only first parts of the files of the source. -/
theorem copydir_moment {s s' : FS} (h : s.WF) {src base : Path} {ws : List Str} (hs : ∀ w ∈ ws, SafeName w)
    (hsrc : FS.look s src = some .dir) (hbase : FS.look s base = some .dir) (hdst : FS.look s (base ++ ws) = none)
    (hv : Visits (fswCopydir src c!"/" base (joinWith '/' ws)) s s') : Copying s src (base ++ ws) s' := by
  have hbn := look_names h hbase
  have hbelow : ∀ r, FS.look s (base ++ ws ++ r) = none := by
    intro r
    by_cases hr : r = []
    · rw [hr, List.append_nil]
      exact hdst
    · apply look_below_none h (List.prefix_append _ _)
      · intro hc
        rw [List.self_eq_append_right] at hc
        exact hr hc
      · rw [hdst]; simp
  have h0 : Copying s src (base ++ ws) s := ⟨h, fun _ _ hq => hq, fun r b hr => by rw [hbelow] at hr; cases hr⟩
  have er : resolve base (joinWith '/' ws) = base ++ ws := resolve_join _ hs
  have es : resolve src c!"/" = src := by simpa [joinWith] using resolve_slash_join src (ws := []) (by simp)
  unfold fswCopydir at hv
  rw [er, es] at hv
  cases hv with
  | here => exact h0
  | get hv =>
    dsimp only at hv
    rw [if_neg (by rw [isdir_iff.mpr hsrc]; simp), if_neg (by unfold exists_; rw [hdst]; simp)] at hv
    have hmk : ∀ {t}, Visits (FS.makedirs (base ++ ws) false) s t → Copying s src (base ++ ws) t ∧
        ∀ q b, FS.look t q = some (.file b) → FS.look s q = some (.file b) := fun {t} hv1 =>
      (only_makedirs _ _).visits_keep (I := fun t => Copying s src (base ++ ws) t ∧
        ∀ q b, FS.look t q = some (.file b) → FS.look s q = some (.file b)) (by
        rintro o t t' ⟨q, _, hq, rfl⟩ ht hm
        exact ⟨ht.1.mkdir (fun w hw => safe_append hbn hs w (hq.subset hw)) hm, fun p b hp => ht.2 p b ((mkdir_files hm p b).mp hp)⟩)
        ⟨h0, fun _ _ hq => hq⟩ hv1
    rcases visits_bind hv with hv | ⟨s1, _, hr1, hv⟩
    · exact (hmk hv).1
    have h1 := hmk (visits_run _ s)
    rw [hr1] at h1
    obtain ⟨h1, hfile⟩ := h1
    rcases visits_bind hv with hv | ⟨s2, files, hr2, hv⟩
    · rw [visits_look hv]
      exact h1
    rw [run_look] at hr2
    obtain ⟨rfl, hr2⟩ := Prod.mk.inj hr2
    dsimp only at h1 hfile hr2
    have hsrc1 : FS.look s1 src = some .dir := by
      have := (only_makedirs (base ++ ws) false).run_spares (s := s) (q := src) (by
        rintro op ⟨q, _, _, rfl⟩
        exact fun _ => ⟨q, rfl⟩) (by rw [hsrc]; simp)
      rw [hr1] at this
      exact this.trans hsrc
    obtain ⟨rs, hrs, _, hmem⟩ := walkFiles_names h1.wf (ws := []) (by simp) (by simpa using hsrc1) (dir := c!"/") (Or.inr rfl)
    rw [hrs] at hr2
    cases hr2
    refine visits_forEach ?_ h1 hv
    intro x hx t t' ht hvt
    obtain ⟨r, hr, rfl⟩ := List.mem_map.mp hx
    obtain ⟨hne, b, hb⟩ := (hmem r).mp hr
    rw [List.append_nil] at hb
    exact copying_step hs (fun w hw => look_names h1.wf hb w (by simp [hw])) hne hbn (hbelow r) (hfile _ _ hb) ht hvt

end Ocfl
