import Verif.Model.StorageLog
import Verif.Spec.StorageLog
import Verif.Proofs.StoreStructure
import Verif.Proofs.StoreListing

/-!
# The log of `StorageRoot.validate`
-/

namespace Ocfl
namespace Store

open Spec FS

variable {E : Env} {reg : Dict Str LayoutObj} {s : FS} {base : Path}

theorem takeWhile_digits {a : Str} (ha : ∀ c ∈ a, isDigit c = true) {l : Str} (hl : ∀ c ∈ l.head?, isDigit c = false) :
    (a ++ l).takeWhile isDigit = a ∧ (a ++ l).dropWhile isDigit = l := by
  have h1 : l.takeWhile isDigit = [] ∧ l.dropWhile isDigit = l := by
    cases l with
    | nil => exact ⟨rfl, rfl⟩
    | cons c l =>
      have := hl c rfl
      exact ⟨List.takeWhile_cons_of_neg (by simp [this]), List.dropWhile_cons_of_neg (by simp [this])⟩
  constructor
  · rw [List.takeWhile_append_of_pos (by simpa using ha), h1.1, List.append_nil]
  · rw [List.dropWhile_append_of_pos (by simpa using ha), h1.2]

theorem dropWhile_head (l : Str) : ∀ c ∈ (l.dropWhile isDigit).head?, isDigit c = false := by
  intro c hc
  cases hd : l.dropWhile isDigit with
  | nil => rw [hd] at hc; cases hc
  | cons a l' =>
    rw [hd] at hc
    have ha := List.head_dropWhile_not isDigit (l := l) (by rw [hd]; simp)
    simp only [hd, List.head_cons] at ha
    simp only [List.head?_cons, Option.mem_def, Option.some.injEq] at hc
    rw [← hc, ha]

theorem namesVersion_iff {f v : Str} : matchObjectDeclaration f = some v ↔ NamesVersion f v := by
  have hdot : isDigit '.' = false := by decide
  unfold matchObjectDeclaration
  constructor
  · intro h
    split_ifs at h with hst
    obtain ⟨t, rfl⟩ := startsWith_iff.mp hst
    dsimp only at h
    have hdrop : (c!"0=ocfl_object_" ++ t).drop 14 = t := rfl
    rw [hdrop] at h
    split at h
    · rename_i r hr
      split_ifs at h with hne
      have h := Option.some.inj h
      have e1 : t = t.takeWhile isDigit ++ '.' :: r := by
        conv_lhs => rw [← List.takeWhile_append_dropWhile (p := isDigit) (l := t), hr]
      refine ⟨t.takeWhile isDigit, r.takeWhile isDigit, r.dropWhile isDigit, hne.1, hne.2, fun c hc => List.mem_takeWhile_imp hc,
        fun c hc => List.mem_takeWhile_imp hc, dropWhile_head r, ?_, h.symm⟩
      have e2 : t = (t.takeWhile isDigit ++ '.' :: r.takeWhile isDigit) ++ r.dropWhile isDigit := by
        rw [List.append_assoc, List.cons_append, List.takeWhile_append_dropWhile]
        exact e1
      rw [List.append_assoc, ← e2]
    · cases h
  · rintro ⟨a, b, rest, ha, hb, hda, hdb, hrest, rfl, rfl⟩
    rw [if_pos (startsWith_iff.mpr ⟨(a ++ '.' :: b) ++ rest, by simp⟩)]
    have hdrop : (c!"0=ocfl_object_" ++ (a ++ '.' :: b) ++ rest).drop 14 = a ++ '.' :: (b ++ rest) := by
      rw [List.append_assoc]
      show (a ++ '.' :: b) ++ rest = _
      simp
    rw [hdrop]
    have h1 := takeWhile_digits hda (l := '.' :: (b ++ rest)) (by intro c hc; cases hc; exact hdot)
    have h2 := takeWhile_digits hdb hrest
    simp only []
    rw [h1.2, h1.1]
    simp only []
    rw [h2.1, if_pos ⟨ha, hb⟩]

theorem mem_declarations (hw : s.WF) {p : Path} {f : Str} :
    f ∈ (fileNames s p).filter (fun f => startsWith f c!"0=") ↔ DeclarationIn s p f := by
  rw [List.mem_filter, mem_fileNames hw, startsWith_iff]
  exact and_comm

theorem faultCode_mk (d : Str) (dirs files : List Str) : faultCode ⟨d, dirs, files⟩ =
    if dirs.length + files.length = 0 then some c!"E073"
    else if files.length = 0 then none
    else
      match files.filter (fun f => startsWith f c!"0=") with
      | [] => some c!"E072"
      | [declaration] =>
        match matchObjectDeclaration declaration with
        | some v => if v ∈ specVersionsSupported then none else some c!"E004a"
        | none => some c!"E004b"
      | _ => some c!"E003d" := rfl

theorem faultCode_iff (hw : s.WF) (ws : List Str) {code : Str} :
    faultCode (visitOf s base ws) = some code ↔ DirFault s (base ++ ws) code := by
  have hm := fun f => mem_declarations hw (p := base ++ ws) (f := f)
  have hnd : ((fileNames s (base ++ ws)).filter (fun f => startsWith f c!"0=")).Nodup := (fileNames_nodup hw (base ++ ws)).filter _
  have hfb := fileBearing_iff hw (base ++ ws)
  have hem := emptyDir_iff hw (base ++ ws)
  have hsub : ∀ f, DeclarationIn s (base ++ ws) f → fileNames s (base ++ ws) ≠ [] := by
    rintro f ⟨_, hb⟩ h0
    have := (mem_fileNames hw).mpr hb
    rw [h0] at this
    cases this
  rw [visitOf_mk, faultCode_mk]
  generalize fileNames s (base ++ ws) = files at hm hnd hfb hem hsub ⊢
  generalize dirNames s (base ++ ws) = dirs at hem ⊢
  by_cases hf : files = []
  · subst hf
    have hno : ∀ f, ¬ DeclarationIn s (base ++ ws) f := fun f h => hsub f h rfl
    by_cases hd : dirs = []
    · subst hd
      rw [if_pos (by rfl)]
      constructor
      · intro h
        cases h
        exact .empty (hem.mpr ⟨rfl, rfl⟩)
      · rintro (h | ⟨h, _⟩ | ⟨h, _, _⟩ | ⟨h, _, _, _⟩ | ⟨h, _, _⟩)
        · rfl
        · exact absurd rfl (hfb.mp h)
        all_goals exact absurd h (hno _)
    · have : dirs.length ≠ 0 := fun h => hd (List.length_eq_zero_iff.mp h)
      rw [if_neg (by simpa using hd), if_pos (by rfl)]
      constructor
      · intro h; cases h
      · rintro (h | ⟨h, _⟩ | ⟨h, _, _⟩ | ⟨h, _, _, _⟩ | ⟨h, _, _⟩)
        · exact absurd (hem.mp h).1 hd
        · exact absurd rfl (hfb.mp h)
        all_goals exact absurd h (hno _)
  · have hlen : files.length ≠ 0 := fun h => hf (List.length_eq_zero_iff.mp h)
    have hne : ¬ EmptyDir s (base ++ ws) := fun h => hf (hem.mp h).2
    rw [if_neg (by omega), if_neg hlen]
    generalize files.filter (fun f => startsWith f c!"0=") = F at hm hnd ⊢
    match F, hm, hnd with
    | [], hm, _ =>
      have hno : ∀ f, ¬ DeclarationIn s (base ++ ws) f := fun f h => by cases (hm f).mpr h
      constructor
      · intro h
        cases h
        exact .undeclared (hfb.mpr hf) hno
      · rintro (h | ⟨_, _⟩ | ⟨h, _, _⟩ | ⟨h, _, _, _⟩ | ⟨h, _, _⟩)
        · exact absurd h hne
        · rfl
        all_goals exact absurd h (hno _)
    | [d], hm, _ =>
      have hd : DeclarationIn s (base ++ ws) d := (hm d).mp (by simp)
      have hone : ∀ g, DeclarationIn s (base ++ ws) g → g = d := fun g h => by simpa using (hm g).mpr h
      dsimp only
      cases hv : matchObjectDeclaration d with
      | none =>
        have hno : ∀ v, ¬ NamesVersion d v := fun v h => by rw [namesVersion_iff.mpr h] at hv; cases hv
        constructor
        · intro h
          cases h
          exact .unknown hd hone hno
        · rintro (h | ⟨_, h⟩ | ⟨h1, h2, h3⟩ | ⟨h, _, h2, _⟩ | ⟨_, _, _⟩)
          · exact absurd h hne
          · exact absurd hd (h d)
          · exact absurd ((hone _ h1).trans (hone _ h2).symm) h3
          · rw [hone _ h] at h2
            exact absurd h2 (hno _)
          · rfl
      | some v =>
        have hn := namesVersion_iff.mp hv
        dsimp only
        by_cases hs : v ∈ specVersionsSupported
        · rw [if_pos hs]
          constructor
          · intro h; cases h
          · rintro (h | ⟨_, h⟩ | ⟨h1, h2, h3⟩ | ⟨h, _, h2, h3⟩ | ⟨h, _, h2⟩)
            · exact absurd h hne
            · exact absurd hd (h d)
            · exact absurd ((hone _ h1).trans (hone _ h2).symm) h3
            · rw [hone _ h] at h2
              rw [namesVersion_iff.mpr h2] at hv
              cases hv
              exact absurd hs h3
            · rw [hone _ h] at h2
              exact absurd hn (h2 v)
        · rw [if_neg hs]
          constructor
          · intro h
            cases h
            exact .unsupported hd hone hn hs
          · rintro (h | ⟨_, h⟩ | ⟨h1, h2, h3⟩ | ⟨_, _, _, _⟩ | ⟨h, _, h2⟩)
            · exact absurd h hne
            · exact absurd hd (h d)
            · exact absurd ((hone _ h1).trans (hone _ h2).symm) h3
            · rfl
            · rw [hone _ h] at h2
              exact absurd hn (h2 v)
    | d :: e :: l, hm, hnd =>
      have hd : DeclarationIn s (base ++ ws) d := (hm d).mp (by simp)
      have he : DeclarationIn s (base ++ ws) e := (hm e).mp (by simp)
      have hde : d ≠ e := by
        rintro rfl
        simp at hnd
      have hmany : ∀ f, ¬ ∀ g, DeclarationIn s (base ++ ws) g → g = f := fun f h => hde ((h d hd).trans (h e he).symm)
      constructor
      · intro h
        cases h
        exact .several hd he hde
      · rintro (h | ⟨_, h⟩ | ⟨_, _, _⟩ | ⟨_, h, _, _⟩ | ⟨_, h, _⟩)
        · exact absurd h hne
        · exact absurd hd (h d)
        · rfl
        · exact absurd h (hmany _)
        · exact absurd h (hmany _)

/-! ## The extensions directory -/

/-- What is logged for one entry of the extensions directory. -/
def extensionLine (e : Str × Node) : Option (Str × Str) :=
  match e.2 with
  | .dir => if e.1 ∉ registered then some (c!"W901", c!"extensions/" ++ e.1) else none
  | .file _ => some (c!"E086", c!"extensions/" ++ e.1)

theorem extensionLog_eq : ∀ (l : List (Str × Node)), (∀ e ∈ l, SafeName e.1) →
    extensionLog E (l.map (fun e => (c!"extensions" ++ '/' :: e.1, decide (e.2 = Node.dir)))) = .ok (l.filterMap extensionLine)
  | [], _ => rfl
  | (w, nd) :: l, hs => by
    have ih := extensionLog_eq l (fun e he => hs e (by simp [he]))
    rw [List.map_cons]
    cases nd with
    | dir =>
      simp only [decide_true]
      unfold extensionLog
      rw [relpath_entry E.cwd (by decide) (hs (w, .dir) (by simp))]
      dsimp only
      rw [ih]
      dsimp only
      by_cases hr : w ∈ registered
      · rw [if_neg (not_not.mpr (show w ∈ registeredExtensions from hr)), List.filterMap_cons_none (by simp [extensionLine, hr])]
      · rw [if_pos (show w ∉ registeredExtensions from hr), List.filterMap_cons_some (b := (c!"W901", c!"extensions/" ++ w)) (by simp [extensionLine, hr])]
        rfl
    | file b =>
      have : decide (Node.file b = Node.dir) = false := by simp
      rw [this]
      unfold extensionLog
      rw [ih]
      rfl

/-! ## The traversal -/

/-- What is logged for a directory. -/
def dirLine (s : FS) (base : Path) (q : List Str) : Option (Str × Str) := (faultCode (visitOf s base q)).map (fun c => (c, dstr q))

theorem traversalLog_eq (hw : s.WF) (hd : look s base = some .dir) :
    traversalLog E s base = .ok ((children s (base ++ [c!"extensions"])).filterMap extensionLine ++ (traversal s base).filterMap (dirLine s base)) := by
  have hwalk : fswWalkPruned s base pruneDirs c!"/" = .ok ((treeWalk (nextOf s base) (FS.depth s) []).map (visitOf s base)) :=
    walkPruned_eq hw (fun _ => rfl) (nextOf_sub s base) (nextOf_nodup hw) (by simp) (by simpa using hd) (.inr rfl)
  have hsafe : ∀ q ∈ treeWalk (nextOf s base) (FS.depth s) [], ∀ w ∈ q, SafeName w := by
    intro q hq w hm
    have hl := treeWalk_look hw (nextOf_sub s base) (by simpa using hd) hq
    exact look_names hw hl w (by simp [hm])
  have hbelow : ((treeWalk (nextOf s base) (FS.depth s) []).map (visitOf s base)).filter (fun v => decide (v.dirpath ≠ c!"/")) =
      (traversal s base).map (visitOf s base) := by
    unfold traversal
    rw [List.filter_map]
    congr 1
    apply List.filter_congr
    intro q hq
    have := dirpath_root q (hsafe q hq)
    show decide (dstr q ≠ c!"/") = decide (q ≠ [])
    exact decide_eq_decide.mpr (not_congr this)
  have hany : (((treeWalk (nextOf s base) (FS.depth s) []).map (visitOf s base)).any
      (fun v => decide (v.dirpath = c!"/" ∧ c!"extensions" ∈ v.dirs))) = true ↔ look s (base ++ [c!"extensions"]) = some .dir := by
    rw [List.any_eq_true]
    constructor
    · rintro ⟨v, hv, h⟩
      obtain ⟨q, hq, rfl⟩ := List.mem_map.mp hv
      have h := of_decide_eq_true h
      have := (dirpath_root q (hsafe q hq)).mp h.1
      subst this
      have := (mem_dirNames hw).mp h.2
      simpa using this
    · intro h
      refine ⟨visitOf s base [], List.mem_map.mpr ⟨[], (mem_traversal hw hd).mpr (.inl rfl), rfl⟩, decide_eq_true ⟨rfl, ?_⟩⟩
      refine (mem_dirNames hw).mpr ?_
      simpa using h
  unfold traversalLog
  rw [hwalk]
  dsimp only
  rw [hbelow, List.filterMap_map]
  by_cases hx : look s (base ++ [c!"extensions"]) = some .dir
  · rw [if_pos (hany.mpr hx), listdir_name (by decide) hx]
    dsimp only
    rw [extensionLog_eq _ (fun e he => children_safe hw he)]
    rfl
  · rw [if_neg (fun h => hx (hany.mp h))]
    have : children s (base ++ [c!"extensions"]) = [] := by
      refine List.eq_nil_iff_forall_not_mem.mpr ?_
      rintro ⟨w, nd⟩ hm
      exact hx (FS.look_above hw [w] (by simp) ((mem_children hw).mp hm))
    rw [this]
    rfl

theorem extensionLine_ext {s : FS} {base : Path} (hw : s.WF) {line : Str × Str} :
    line ∈ (children s (base ++ [c!"extensions"])).filterMap extensionLine ↔
      (∃ w b, look s (base ++ [c!"extensions", w]) = some (.file b) ∧ line = (c!"E086", c!"extensions/" ++ w)) ∨
        ∃ w, look s (base ++ [c!"extensions", w]) = some .dir ∧ w ∉ registered ∧ line = (c!"W901", c!"extensions/" ++ w) := by
  have e : ∀ w, base ++ [c!"extensions", w] = base ++ [c!"extensions"] ++ [w] := by simp
  rw [List.mem_filterMap]
  constructor
  · rintro ⟨⟨w, nd⟩, hm, h⟩
    have hl := (mem_children hw).mp hm
    rw [← e] at hl
    cases nd with
    | dir =>
      unfold extensionLine at h
      dsimp only at h
      split_ifs at h with hr
      exact .inr ⟨w, hl, hr, (Option.some.inj h).symm⟩
    | file b => exact .inl ⟨w, b, hl, (Option.some.inj h).symm⟩
  · rintro (⟨w, b, hl, rfl⟩ | ⟨w, hl, hr, rfl⟩)
    · rw [e] at hl
      exact ⟨(w, .file b), (mem_children hw).mpr hl, rfl⟩
    · rw [e] at hl
      exact ⟨(w, .dir), (mem_children hw).mpr hl, by unfold extensionLine; exact if_pos hr⟩

theorem mem_traversalLog (hw : s.WF) (hd : look s base = some .dir) {log : List (Str × Str)} (h : traversalLog E s base = .ok log)
    {line : Str × Str} : line ∈ log ↔ Remark s base line := by
  rw [traversalLog_eq hw hd] at h
  cases h
  rw [List.mem_append, extensionLine_ext hw, List.mem_filterMap]
  constructor
  · rintro ((⟨w, b, h, rfl⟩ | ⟨w, h, hr, rfl⟩) | ⟨q, hq, h⟩)
    · exact .file h
    · exact .extension h hr
    · unfold dirLine at h
      obtain ⟨code, hc, rfl⟩ := Option.map_eq_some_iff.mp h
      exact .dir ((mem_traversal' hw hd).mp hq) ((faultCode_iff hw q).mp hc)
  · rintro (⟨hr, hf⟩ | h | ⟨h, hr⟩)
    · refine .inr ⟨_, (mem_traversal' hw hd).mpr hr, ?_⟩
      unfold dirLine
      rw [(faultCode_iff hw _).mpr hf]
      rfl
    · exact .inl (.inl ⟨_, _, h, rfl⟩)
    · exact .inl (.inr ⟨_, h, hr, rfl⟩)

theorem extensionLine_place {e : Str × Node} {line : Str × Str} (h : extensionLine e = some line) : line.2 = c!"extensions/" ++ e.1 := by
  unfold extensionLine at h
  split at h
  · split_ifs at h
    cases h
    rfl
  · cases h
    rfl

theorem dirLine_place {q : List Str} {line : Str × Str} (h : dirLine s base q = some line) : line.2 = dstr q := by
  unfold dirLine at h
  obtain ⟨code, _, rfl⟩ := Option.map_eq_some_iff.mp h
  rfl

theorem nodup_filterMap {α β : Type} {f : α → Option β} {l : List α} (hn : l.Nodup)
    (hinj : ∀ a ∈ l, ∀ b ∈ l, ∀ x, f a = some x → f b = some x → a = b) : (l.filterMap f).Nodup := by
  induction l with
  | nil => exact List.nodup_nil
  | cons a l ih =>
    rw [List.nodup_cons] at hn
    have ih := ih hn.2 (fun x hx y hy => hinj x (by simp [hx]) y (by simp [hy]))
    cases h : f a with
    | none => rwa [List.filterMap_cons_none h]
    | some x =>
      rw [List.filterMap_cons_some h, List.nodup_cons]
      refine ⟨fun hm => ?_, ih⟩
      obtain ⟨b, hb, hfb⟩ := List.mem_filterMap.mp hm
      exact hn.1 (hinj a (by simp) b (by simp [hb]) x h hfb ▸ hb)

theorem traversalLog_nodup (hw : s.WF) (hd : look s base = some .dir) {log : List (Str × Str)} (h : traversalLog E s base = .ok log) : log.Nodup := by
  rw [traversalLog_eq hw hd] at h
  cases h
  have hc : (children s (base ++ [c!"extensions"])).Nodup := (children_names_nodup hw _).of_map
  have ht : (traversal s base).Nodup := (treeWalk_nodup (nextOf_nodup hw) _ _).filter _
  refine List.Nodup.append (nodup_filterMap hc ?_) (nodup_filterMap ht ?_) ?_
  · rintro ⟨a, x⟩ ha ⟨b, y⟩ hb line h1 h2
    have := (extensionLine_place h1).symm.trans (extensionLine_place h2)
    have := List.append_cancel_left this
    dsimp only at this
    subst this
    have h1 := (mem_children hw).mp ha
    have h2 := (mem_children hw).mp hb
    rw [h1] at h2
    cases h2
    rfl
  · intro a ha b hb line h1 h2
    have hs : ∀ q ∈ traversal s base, ∀ w ∈ q, SafeName w := fun q hq w hm =>
      look_names hw ((mem_traversal' hw hd).mp hq).dir w (by simp [hm])
    exact dstr_inj (hs a ha) (hs b hb) ((dirLine_place h1).symm.trans (dirLine_place h2))
  · intro line h1 h2
    obtain ⟨e, _, h1⟩ := List.mem_filterMap.mp h1
    obtain ⟨q, _, h2⟩ := List.mem_filterMap.mp h2
    have := (extensionLine_place h1).symm.trans (dirLine_place h2)
    unfold dstr at this
    have := List.head_eq_of_cons_eq this
    revert this
    decide

/-- The errors of the traversal are the lines of the log that are not warnings. -/
theorem numErrors_log (hw : s.WF) (hd : look s base = some .dir) {log : List (Str × Str)} (h : traversalLog E s base = .ok log)
    {l : Listing} (hl : objectPaths E true s base = .ok l) : l.numErrors = (log.filter (fun line => line.1 ≠ c!"W901")).length := by
  rw [traversalLog_eq hw hd] at h
  cases h
  rw [objectPaths_eq hw hd (.inl rfl)] at hl
  cases hl
  unfold Listing.numErrors
  dsimp only
  rw [List.filter_append, List.length_append, Nat.add_comm, List.length_map]
  congr 1
  · have hx : (extensionFiles s base).length = (((children s (base ++ [c!"extensions"])).filterMap extensionLine).filter (fun line => line.1 ≠ c!"W901")).length := by
      unfold extensionFiles fileNames
      rw [List.length_map]
      induction children s (base ++ [c!"extensions"]) with
      | nil => rfl
      | cons e l ih =>
        obtain ⟨w, nd⟩ := e
        cases nd with
        | dir =>
          rw [List.filter_cons_of_neg (by simp), ih]
          by_cases hr : w ∈ registered
          · rw [List.filterMap_cons_none (by simp [extensionLine, hr])]
          · rw [List.filterMap_cons_some (b := (c!"W901", c!"extensions/" ++ w)) (by simp [extensionLine, hr]), List.filter_cons_of_neg (by simp)]
        | file b =>
          rw [List.filter_cons_of_pos (by simp), List.length_cons, ih,
            List.filterMap_cons_some (b := (c!"E086", c!"extensions/" ++ w)) (by simp [extensionLine]), List.filter_cons_of_pos (by simp),
            List.length_cons]
    split_ifs with hd'
    · exact hx
    · have : children s (base ++ [c!"extensions"]) = [] := by
        refine List.eq_nil_iff_forall_not_mem.mpr ?_
        rintro ⟨w, nd⟩ hm
        exact hd' (FS.look_above hw [w] (by simp) ((mem_children hw).mp hm))
      rw [this]
      rfl
  · induction traversal s base with
    | nil => rfl
    | cons q l ih =>
      have hcode : ∀ c, faultCode (visitOf s base q) = some c → c ≠ c!"W901" := by
        intro c hc
        have := (faultCode_iff hw q).mp hc
        cases this <;> decide
      have hiff : classify (visitOf s base q) = .error ↔ ∃ c, faultCode (visitOf s base q) = some c := by
        rw [visitOf_mk, classify_mk, faultCode_mk]
        split_ifs
        · simp
        · simp
        · split
          · rename_i d hd
            rw [hd]
            dsimp only
            cases matchObjectDeclaration d with
            | none => simp
            | some v => dsimp only; split_ifs <;> simp
          · rename_i hd
            constructor
            · intro _
              split
              · exact ⟨_, rfl⟩
              · rename_i d h; exact absurd h (hd d)
              · exact ⟨_, rfl⟩
            · intro _; rfl
      by_cases hc : classify (visitOf s base q) = .error
      · obtain ⟨c, h⟩ := hiff.mp hc
        rw [List.filter_cons_of_pos (by simpa using hc), List.length_cons, ih,
          List.filterMap_cons_some (b := (c, dstr q)) (by unfold dirLine; rw [h]; rfl),
          List.filter_cons_of_pos (by simpa using hcode c h), List.length_cons]
      · have h : faultCode (visitOf s base q) = none := by
          cases h : faultCode (visitOf s base q) with
          | none => rfl
          | some c => exact absurd (hiff.mpr ⟨c, h⟩) hc
        rw [List.filter_cons_of_neg (by simpa using hc), ih, List.filterMap_cons_none (by unfold dirLine; rw [h]; rfl)]

/-! ## The structure -/

theorem layoutCode_iff {code : Str} : layoutCode E reg s base = some code ↔ LayoutFault E reg s base code := by
  have er : resolve base layoutFile = base ++ [c!"ocfl_layout.json"] := resolve_name base (by decide)
  unfold layoutCode
  rw [er]
  cases hl : look s (base ++ [c!"ocfl_layout.json"]) with
  | none =>
    rw [if_neg (by simp [exists_, hl])]
    constructor
    · intro h; cases h
    · rintro (h | ⟨h, _⟩ | ⟨h, _, _⟩ | ⟨h, _, _⟩ | ⟨h, _, _, _, _⟩) <;> (rw [hl] at h; cases h)
  | some nd =>
    rw [if_pos (by simp [exists_, hl])]
    unfold FS.read
    rw [hl]
    cases nd with
    | dir =>
      dsimp only
      constructor
      · intro h
        cases h
        exact .directory hl
      · rintro (_ | ⟨h, _⟩ | ⟨h, _, _⟩ | ⟨h, _, _⟩ | ⟨h, _, _, _, _⟩)
        · rfl
        all_goals exact absurd h (by rw [hl]; simp)
    | file b =>
      dsimp only
      have hb : ∀ {b'}, look s (base ++ [c!"ocfl_layout.json"]) = some (.file b') → b' = b := by
        intro b' h
        rw [hl] at h
        cases h
        rfl
      have hnd : look s (base ++ [c!"ocfl_layout.json"]) ≠ some .dir := by rw [hl]; simp
      cases hj : E.lib.loadb b with
      | none =>
        dsimp only
        constructor
        · intro h
          cases h
          exact .notJson hl hj
        · rintro (h | ⟨_, _⟩ | ⟨h, h2, _⟩ | ⟨h, h2, _⟩ | ⟨h, h2, _, _, _⟩)
          · exact absurd h hnd
          · rfl
          all_goals (rw [hb h, hj] at h2; cases h2)
      | some j =>
        have hj' : ∀ {b'}, look s (base ++ [c!"ocfl_layout.json"]) = some (.file b') → E.lib.loadb b' = some j := fun h => by rw [hb h, hj]
        by_cases ho : ∃ d, j = .obj d
        · obtain ⟨d, rfl⟩ := ho
          dsimp only
          have hd : ∀ {b' d'}, look s (base ++ [c!"ocfl_layout.json"]) = some (.file b') → E.lib.loadb b' = some (.obj d') → d' = d := by
            intro b' d' h1 h2
            rw [hj' h1] at h2
            cases h2
            rfl
          by_cases hk : ∃ name desc, Dict.get? d c!"extension" = some (.str name) ∧ Dict.get? d c!"description" = some (.str desc)
          · obtain ⟨name, desc, h1, h2⟩ := hk
            rw [h1, h2]
            dsimp only
            have hreg : layoutIsSupported reg name = true ↔ ∃ l, Dict.get? reg name = some l := by
              unfold layoutIsSupported
              exact Option.isSome_iff_exists
            constructor
            · intro h
              split_ifs at h with hs
              cases h
              refine .unknown hl hj h1 h2 ?_
              cases hg : Dict.get? reg name with
              | none => rfl
              | some l => exact absurd (hreg.mpr ⟨l, hg⟩) hs
            · rintro (h | ⟨h, h3⟩ | ⟨h, h3, h4⟩ | ⟨h, h3, h4⟩ | ⟨h, h3, h4, _, h5⟩)
              · exact absurd h hnd
              · rw [hj' h] at h3; cases h3
              · rw [hj' h] at h3
                cases h3
                exact absurd rfl (h4 d)
              · rw [hd h h3] at h4
                exact absurd ⟨name, desc, h1, h2⟩ h4
              · rw [hd h h3, h1] at h4
                cases h4
                rw [if_neg]
                intro hs
                obtain ⟨l, hg⟩ := hreg.mp hs
                rw [hg] at h5
                cases h5
          · have : (match Dict.get? d c!"extension", Dict.get? d c!"description" with
                | some (.str name), some (.str _) => if layoutIsSupported reg name then none else some c!"E071"
                | _, _ => some c!"E070c") = some c!"E070c" := by
              split
              · rename_i n x h1 h2
                exact absurd ⟨n, x, h1, h2⟩ hk
              · rfl
            refine (iff_of_eq (congrArg (· = some code) this)).trans ?_
            constructor
            · intro h
              cases h
              exact .keys hl hj hk
            · rintro (h | ⟨h, h3⟩ | ⟨h, h3, h4⟩ | ⟨_, _, _⟩ | ⟨h, h3, h4, h5, _⟩)
              · exact absurd h hnd
              · rw [hj' h] at h3; cases h3
              · rw [hj' h] at h3
                cases h3
                exact absurd rfl (h4 d)
              · rfl
              · rw [hd h h3] at h4 h5
                exact absurd ⟨_, _, h4, h5⟩ hk
        · have ho' : ∀ d, j ≠ .obj d := fun d h => ho ⟨d, h⟩
          have : (match some j with
              | none => some c!"E070a"
              | some (.obj d) =>
                match Dict.get? d c!"extension", Dict.get? d c!"description" with
                | some (.str name), some (.str _) => if layoutIsSupported reg name then none else some c!"E071"
                | _, _ => some c!"E070c"
              | some _ => some c!"E070b") = some c!"E070b" := by
            cases j with
            | obj d => exact absurd rfl (ho' d)
            | _ => rfl
          refine (iff_of_eq (congrArg (· = some code) this)).trans ?_
          constructor
          · intro h
            cases h
            exact .notObject hl hj ho'
          · rintro (h | ⟨h, h3⟩ | ⟨_, _, _⟩ | ⟨h, h3, _⟩ | ⟨h, h3, _, _, _⟩)
            · exact absurd h hnd
            · rw [hj' h] at h3; cases h3
            · rfl
            all_goals (rw [hj' h] at h3; cases h3; exact absurd rfl (ho' _))

theorem contentOk_false {t : Str} (ht : t ≠ []) (hsl : '/' ∉ t) (hl : look s (base ++ [c!"0=" ++ t]) ≠ none) :
    namasteContentOk E.isWord s base 0 t [] = .ok false ↔
      ∃ b text, look s (base ++ [c!"0=" ++ t]) = some (.file b) ∧ utf8Decode b = some text ∧ ¬ IsTvalue E.isWord (univNewlines text) t := by
  have e : base ++ ([] : List Str) ++ [natStr 0 ++ c!"=" ++ t] = base ++ [c!"0=" ++ t] := by
    rw [List.append_nil]; rfl
  have hres := resolve_namaste (base := base) (ws := []) (dir := []) (by simp) (safe_filename (d := 0) hsl) (.inl rfl)
  rw [e] at hres
  unfold namasteContentOk namasteCheck namasteFilename
  rw [if_neg ht, hres]
  unfold readText FS.read
  cases hn : look s (base ++ [c!"0=" ++ t]) with
  | none => exact absurd hn hl
  | some nd =>
    cases nd with
    | dir => simp
    | file b =>
      dsimp only
      cases hu : utf8Decode b with
      | none => simp [hu]
      | some text =>
        dsimp only
        have hi := isTvalue_iff (isWord := E.isWord) (text := univNewlines text) (t := t)
        by_cases h : t = contentToTvalue E.isWord (univNewlines text)
        · rw [if_neg (by simpa using h)]
          constructor
          · intro h; cases h
          · rintro ⟨b', x, h1, h2, h3⟩
            cases h1
            rw [hu] at h2
            cases h2
            exact absurd (hi.mpr h.symm) h3
        · rw [if_pos h]
          simp only [true_iff]
          exact ⟨b, text, rfl, hu, fun h' => h (hi.mp h').symm⟩

theorem structureCode_iff (hw : s.WF) (hd : look s base = some .dir) {want : Option Str} {ts : List Str}
    (hf : findNamastes s base 0 [] 10 = .ok ts) {code : Str} :
    structureCode E reg s base want = some code ↔ RootFault E reg s base want code := by
  obtain ⟨l, hn, _, hl, hfind⟩ := C52_find hw (base := base) (ws := []) (dir := []) (by simp) (.inl rfl) (by simpa using hd) 0
  have e : ∀ t, base ++ ([] : List Str) ++ [natStr 0 ++ c!"=" ++ t] = base ++ [c!"0=" ++ t] := by
    intro t; rw [List.append_nil]; rfl
  simp only [e] at hl
  have hts : l = ts := by
    rw [hfind] at hf
    split_ifs at hf
    cases hf
    rfl
  subst hts
  have hsafe : ∀ v ∈ supported, '/' ∉ c!"ocfl_" ++ v := by decide
  have e2 : ∀ v, c!"0=" ++ (c!"ocfl_" ++ v) = c!"0=ocfl_" ++ v := fun _ => rfl
  unfold structureCode
  rw [hf]
  match l, hn, hl with
  | [], _, hl =>
    have hno : ∀ t, look s (base ++ [c!"0=" ++ t]) = none := fun t => by
      by_contra h
      cases (hl t).mpr h
    have hone : ∀ t, ¬ OneDeclaration s base t := fun t h => (h t).mpr rfl (hno t)
    constructor
    · intro h
      cases h
      exact .undeclared hno
    · rintro (_ | ⟨h, _, _⟩ | ⟨h, _⟩ | ⟨_, h, _, _⟩ | ⟨_, h, _, _, _, _⟩ | ⟨h, _, _⟩)
      · rfl
      · exact absurd (hno _) h
      · exact absurd h (hone _)
      · exact absurd h (hone _)
      · exact absurd h (hone _)
      · obtain ⟨b, _, hb, _⟩ := h.declaration
        rw [← e2, hno] at hb
        cases hb
  | [t], _, hl =>
    have hone : OneDeclaration s base t := fun u => by rw [← hl u]; simp
    have hex : look s (base ++ [c!"0=" ++ t]) ≠ none := (hone t).mpr rfl
    have huniq : ∀ {u}, OneDeclaration s base u → u = t := fun h => (hone _).mp ((h _).mpr rfl)
    have hdecl : ∀ {v}, RootDeclared E s base v → t = c!"ocfl_" ++ v := fun h => h.one t hex
    dsimp only
    cases hv : declaredVersion t with
    | none =>
      have hnot : ∀ v ∈ supported, t ≠ c!"ocfl_" ++ v := fun v hm h => by
        rw [declaredVersion_iff.mpr ⟨hm, h⟩] at hv
        cases hv
      constructor
      · intro h
        cases h
        exact .unknown hone hnot
      · rintro (h | ⟨h1, h2, h3⟩ | ⟨_, _⟩ | ⟨_, _, _, _⟩ | ⟨h1, h, _, _, _, _⟩ | ⟨h, _, _⟩)
        · exact absurd (h t) hex
        · exact absurd (((hone _).mp h1).trans ((hone _).mp h2).symm) h3
        · rfl
        · rfl
        · exact absurd (huniq h).symm (hnot _ h1)
        · exact absurd (hdecl h) (hnot _ h.supported)
    | some v =>
      obtain ⟨hm, rfl⟩ := declaredVersion_iff.mp hv
      have hv' : ∀ {w}, OneDeclaration s base (c!"ocfl_" ++ w) → w = v := fun h => List.append_cancel_left (huniq h)
      have hvd : ∀ {w}, RootDeclared E s base w → w = v := fun h => (List.append_cancel_left (hdecl h)).symm
      dsimp only
      by_cases hwant : want ≠ none ∧ want ≠ some v
      · rw [if_pos hwant]
        have hno : ∀ {w}, w = v → ¬ (want = none ∨ want = some w) := by
          rintro w rfl (h | h)
          · exact hwant.1 h
          · exact hwant.2 h
        constructor
        · intro h
          cases h
          obtain ⟨w, h⟩ := Option.ne_none_iff_exists'.mp hwant.1
          exact .unexpected hm hone h (fun hc => hwant.2 (by rw [h, hc]))
        · rintro (h | ⟨h1, h2, h3⟩ | ⟨_, _⟩ | ⟨_, _, _, _⟩ | ⟨h1, h, h2, _, _, _⟩ | ⟨h, h2, _⟩)
          · exact absurd (h _) hex
          · exact absurd (((hone _).mp h1).trans ((hone _).mp h2).symm) h3
          · rfl
          · rfl
          · exact absurd h2 (hno (hv' h))
          · exact absurd h2 (hno (hvd h))
      · rw [if_neg hwant]
        have hwant' : want = none ∨ want = some v := by
          by_contra hc
          exact hwant (not_or.mp hc)
        have hcf := contentOk_false (E := E) (by simp) (hsafe v hm) hex
        have hct := contentOk_iff (E := E) (s := s) (base := base) (by simp) (hsafe v hm)
        have key : ∀ {c}, RootFault E reg s base want c ↔
            (c = c!"E069e" ∧ namasteContentOk E.isWord s base 0 (c!"ocfl_" ++ v) [] = .ok false) ∨
              (namasteContentOk E.isWord s base 0 (c!"ocfl_" ++ v) [] = .ok true ∧ LayoutFault E reg s base c) := by
          intro c
          rw [hcf, hct]
          constructor
          · rintro (h | ⟨h1, h2, h3⟩ | ⟨h, h2⟩ | ⟨_, h, h2, h3⟩ | ⟨h1, h, _, h3, h4, h5⟩ | ⟨h, _, h3⟩)
            · exact absurd (h _) hex
            · exact absurd (((hone _).mp h1).trans ((hone _).mp h2).symm) h3
            · cases huniq h
              exact absurd rfl (h2 v hm)
            · rcases hwant' with hc | hc
              · rw [hc] at h2; cases h2
              · rw [hc] at h2
                cases h2
                exact absurd (hv' h).symm h3
            · cases hv' h
              exact .inl ⟨rfl, _, _, h3, h4, h5⟩
            · cases hvd h
              exact .inr ⟨h.declaration, h3⟩
          · rintro (⟨rfl, b, text, h3, h4, h5⟩ | ⟨h, h3⟩)
            · exact .content hm hone hwant' h3 h4 h5
            · exact .layout ⟨hm, h, fun u hu => (hone u).mp hu⟩ hwant' h3
        rw [key]
        cases hc : namasteContentOk E.isWord s base 0 (c!"ocfl_" ++ v) [] with
        | error x => simp
        | ok b =>
          cases b with
          | false =>
            dsimp only
            constructor
            · intro h
              cases h
              exact .inl ⟨rfl, rfl⟩
            · rintro (⟨rfl, _⟩ | ⟨h, _⟩)
              · rfl
              · cases h
          | true =>
            dsimp only
            rw [layoutCode_iff]
            constructor
            · exact fun h => .inr ⟨rfl, h⟩
            · rintro (⟨_, h⟩ | ⟨_, h⟩)
              · cases h
              · exact h
  | t :: u :: l, hn, hl =>
    have htu : t ≠ u := by
      rintro rfl
      simp at hn
    have h1 : look s (base ++ [c!"0=" ++ t]) ≠ none := (hl t).mp (by simp)
    have h2 : look s (base ++ [c!"0=" ++ u]) ≠ none := (hl u).mp (by simp)
    have hone : ∀ w, ¬ OneDeclaration s base w := fun w h => htu (((h t).mp h1).trans ((h u).mp h2).symm)
    dsimp only
    constructor
    · intro h
      cases h
      exact .several h1 h2 htu
    · rintro (h | ⟨_, _, _⟩ | ⟨h, _⟩ | ⟨_, h, _, _⟩ | ⟨_, h, _, _, _, _⟩ | ⟨h, _, _⟩)
      · exact absurd (h t) h1
      · rfl
      · exact absurd h (hone _)
      · exact absurd h (hone _)
      · exact absurd h (hone _)
      · exact absurd ((h.one t h1).trans (h.one u h2).symm) htu

theorem checkAndSet_error {raw : Str → Bytes → Str} {config : Dict Str Json} {req : Bool} {l : LayoutObj} {e : PyErr}
    (h : l.checkAndSet raw config req = .error e) : e ≠ .storageRootException := by
  have hint : ∀ {lo hi v e}, LayoutObj.checkInt lo hi v = .error e → e ≠ .storageRootException := by
    intro lo hi v e h
    unfold LayoutObj.checkInt at h
    split at h
    · cases h; simp
    · split at h
      · cases h; simp
      · split_ifs at h
        cases h; simp
  have halg : ∀ {v e}, LayoutObj.checkAlgorithm raw v = .error e → e ≠ .storageRootException := by
    intro v e h
    unfold LayoutObj.checkAlgorithm at h
    split at h
    · split at h <;> cases h
      simp
    · cases h; simp
  have hfull : ∀ {alg ts nt e}, LayoutObj.checkFull raw alg ts nt = .error e → e ≠ .storageRootException := by
    intro alg ts nt e h
    unfold LayoutObj.checkFull at h
    split_ifs at h
    · cases h; simp
    · split at h
      · cases h; simp
      · split_ifs at h
        cases h; simp
  have hpfx : ∀ {v e}, LayoutObj.checkPrefix v = .error e → e ≠ .storageRootException := by
    intro v e h
    unfold LayoutObj.checkPrefix at h
    split at h
    · split_ifs at h
      cases h; simp
    · cases h; simp
  unfold LayoutObj.checkAndSet at h
  split at h
  · rename_i e' hn
    cases h
    unfold LayoutObj.checkName at hn
    split at hn
    · split_ifs at hn
      cases hn; simp
    · split_ifs at hn
      cases hn; simp
  · unfold LayoutObj.setParams at h
    cases l with
    | flatDirect => cases h; simp
    | flatQuoted => cases h; simp
    | hashNTuple a b c =>
      dsimp only [bind, Except.bind] at h
      cases h1 : LayoutObj.checkAlgorithm raw (LayoutObj.param config c!"digestAlgorithm") with
      | error e1 => rw [h1] at h; cases h; exact halg h1
      | ok alg =>
        rw [h1] at h
        dsimp only at h
        cases h2 : LayoutObj.checkInt 0 32 (LayoutObj.param config c!"tupleSize") with
        | error e1 => rw [h2] at h; cases h; exact hint h2
        | ok ts =>
          rw [h2] at h
          dsimp only at h
          cases h3 : LayoutObj.checkInt 0 32 (LayoutObj.param config c!"numberOfTuples") with
          | error e1 => rw [h3] at h; cases h; exact hint h3
          | ok nt =>
            rw [h3] at h
            dsimp only at h
            cases h4 : LayoutObj.checkFull raw alg ts nt with
            | error e1 => rw [h4] at h; cases h; exact hfull h4
            | ok _ => rw [h4] at h; cases h
    | tupleTree a =>
      dsimp only [bind, Except.bind] at h
      cases h1 : LayoutObj.checkInt 2 6 (LayoutObj.param config c!"tupleSize") with
      | error e1 => rw [h1] at h; cases h; exact hint h1
      | ok ts => rw [h1] at h; cases h
    | uuidQuadtree a =>
      dsimp only [bind, Except.bind] at h
      cases h1 : LayoutObj.checkPrefix (LayoutObj.param config c!"prefix") with
      | error e1 => rw [h1] at h; cases h; exact hpfx h1
      | ok ts => rw [h1] at h; cases h

theorem readParams_error {l : LayoutObj} {req : Bool} {e : PyErr} (h : l.readParams E.lib E.raw s base req = .error e) :
    e ≠ .storageRootException := by
  unfold LayoutObj.readParams at h
  split_ifs at h
  · split at h
    · cases h; simp
    · split at h
      · exact checkAndSet_error h
      · cases h; simp
  · cases h; simp

/-- The layout is in error exactly if there is a code for it. -/
theorem checkLayout_code {r r' : StorageRoot} {x : Py Unit} (h : checkLayout E reg s base r = (r', x)) :
    (x = .error .storageRootException → ∃ code, layoutCode E reg s base = some code) ∧ (x = .ok () → layoutCode E reg s base = none) := by
  unfold checkLayout at h
  unfold layoutCode
  by_cases hx : exists_ s (resolve base layoutFile) = true
  · rw [if_pos hx] at h
    rw [if_pos hx]
    unfold parseLayoutFile at h
    cases hr : FS.read s (resolve base layoutFile) with
    | error e =>
      rw [hr] at h
      cases h
      exact ⟨fun _ => ⟨_, rfl⟩, fun h => by cases h⟩
    | ok b =>
      rw [hr] at h
      dsimp only at h ⊢
      cases hj : E.lib.loadb b with
      | none =>
        rw [hj] at h
        cases h
        exact ⟨fun _ => ⟨_, rfl⟩, fun h => by cases h⟩
      | some j =>
        rw [hj] at h
        cases j with
        | obj d =>
          dsimp only at h ⊢
          by_cases hk : ∃ name desc, Dict.get? d c!"extension" = some (.str name) ∧ Dict.get? d c!"description" = some (.str desc)
          · obtain ⟨name, desc, h1, h2⟩ := hk
            rw [h1, h2] at h ⊢
            dsimp only at h ⊢
            cases hs : layoutIsSupported reg name with
            | false =>
              rw [hs] at h
              simp only [if_true] at h
              cases h
              exact ⟨fun _ => ⟨_, rfl⟩, fun h => by cases h⟩
            | true =>
              rw [hs] at h
              rw [if_neg (by simp)] at h
              refine ⟨fun hx => ?_, fun _ => rfl⟩
              exfalso
              subst hx
              split at h
              · rename_i r1 e hlo
                cases h
                unfold layoutOf getLayout at hlo
                dsimp only at hlo
                split at hlo
                · split at hlo
                  · rename_i hg
                    split at hg <;> cases hg
                    cases hlo
                  · cases hlo
                · cases hlo
              · cases h
              · split at h
                · rename_i hp
                  cases h
                  exact readParams_error hp rfl
                · cases h
          · split at h
            · rename_i e hp
              have : ∀ {y : Py Str}, (match Dict.get? d c!"extension", Dict.get? d c!"description" with
                  | some (.str name), some (.str _) => .ok name
                  | _, _ => (.error .storageRootException : Py Str)) = y → y = .error .storageRootException := by
                intro y hy
                split at hy
                · rename_i n x h1 h2
                  exact absurd ⟨n, x, h1, h2⟩ hk
                · exact hy.symm
              cases h
              refine ⟨fun _ => ?_, fun h => by cases h⟩
              split
              · rename_i n x h1 h2
                exact absurd ⟨n, x, h1, h2⟩ hk
              · exact ⟨_, rfl⟩
            · rename_i name hp
              exfalso
              split at hp
              · rename_i n x h1 h2
                exact absurd ⟨n, x, h1, h2⟩ hk
              · cases hp
        | _ =>
          cases h
          exact ⟨fun _ => ⟨_, rfl⟩, fun h => by cases h⟩
  · rw [if_neg hx] at h
    rw [if_neg hx]
    cases h
    exact ⟨(fun h => by cases h), fun _ => rfl⟩

/-- The structure is in error exactly if there is a code for it. -/
theorem checkStructure_code (hw : s.WF) (hd : look s base = some .dir) {r r' : StorageRoot} {x : Py Unit} (h : checkStructure E reg s base r = (r', x)) :
    (x = .error .storageRootException →
      (∃ ts, findNamastes s base 0 [] 10 = .ok ts) ∧ ∃ code, structureCode E reg s base r.specVersion = some code) ∧
    (x = .ok () → (∃ ts, findNamastes s base 0 [] 10 = .ok ts) ∧ structureCode E reg s base r.specVersion = none) := by
  have hfe : ∀ e, findNamastes s base 0 [] 10 = .error e → e ≠ .storageRootException := by
    intro e h
    obtain ⟨l, _, _, _, hfind⟩ := C52_find hw (base := base) (ws := []) (dir := []) (by simp) (.inl rfl) (by simpa using hd) 0
    rw [hfind] at h
    split_ifs at h
    cases h
    simp
  have hce : ∀ t e, namasteContentOk E.isWord s base 0 t [] = .error e → e ≠ .storageRootException := by
    intro t e h
    unfold namasteContentOk at h
    split at h
    · cases h
    · cases h
    · rename_i e' _ hc
      cases h
      unfold namasteCheck at hc
      split_ifs at hc
      · cases hc; simp
      · split at hc
        · cases hc; simp
        · rename_i hr
          cases hc
          unfold readText FS.read at hr
          split at hr
          · rename_i hr2
            cases hr
            split at hr2
            · cases hr2
              unfold FS.missing
              split_ifs <;> simp
            · cases hr2; simp
            · cases hr2
          · split at hr <;> cases hr
            simp
        · split_ifs at hc
          cases hc
          simp
  unfold checkStructure at h
  unfold structureCode
  cases hf : findNamastes s base 0 [] 10 with
  | error e =>
    rw [hf] at h
    cases h
    exact ⟨fun h => by cases h; exact absurd rfl (hfe _ hf), fun h => by cases h⟩
  | ok ts =>
    rw [hf] at h
    match ts, h with
    | [], h =>
      cases h
      exact ⟨fun _ => ⟨⟨_, rfl⟩, _, rfl⟩, fun h => by cases h⟩
    | [t], h =>
      dsimp only at h ⊢
      cases hv : declaredVersion t with
      | none =>
        rw [hv] at h
        cases h
        exact ⟨fun _ => ⟨⟨_, rfl⟩, _, rfl⟩, fun h => by cases h⟩
      | some v =>
        rw [hv] at h
        dsimp only at h ⊢
        by_cases hwant : r.specVersion ≠ none ∧ r.specVersion ≠ some v
        · rw [if_pos hwant] at h
          rw [if_pos hwant]
          cases h
          exact ⟨fun _ => ⟨⟨_, rfl⟩, _, rfl⟩, fun h => by cases h⟩
        · rw [if_neg hwant] at h
          rw [if_neg hwant]
          cases hc : namasteContentOk E.isWord s base 0 t [] with
          | error e =>
            rw [hc] at h
            cases h
            exact ⟨fun h => by cases h; exact absurd rfl (hce _ _ hc), fun h => by cases h⟩
          | ok b =>
            rw [hc] at h
            cases b with
            | false =>
              cases h
              exact ⟨fun _ => ⟨⟨_, rfl⟩, _, rfl⟩, fun h => by cases h⟩
            | true =>
              have := checkLayout_code h
              exact ⟨fun h => ⟨⟨_, rfl⟩, this.1 h⟩, fun h => ⟨⟨_, rfl⟩, this.2 h⟩⟩
    | t :: u :: l, h =>
      cases h
      exact ⟨fun _ => ⟨⟨_, rfl⟩, _, rfl⟩, fun h => by cases h⟩

end Store
end Ocfl
