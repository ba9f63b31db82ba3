import Verif.Proofs.StorageLog
import Verif.Props.StorageValidate

/-!
# C98: the log of the validation of a storage root, and C99: the errors that are kept
-/

namespace Ocfl
open Spec FS Store

theorem validateFull_cases {E : Env} {reg : Dict Str LayoutObj} {s : FS} (hw : s.WF) {r r' : StorageRoot} {vo cd lw : Bool} {max : Int} {full : FullReport}
    (h : validateFull E reg vo cd lw max s r = (r', .ok full)) :
    look s (absComps E.cwd r.root) = some .dir ∧
    ((∃ code, full = ⟨⟨false, 0, 0⟩, [], [(code, r.root)]⟩ ∧ RootFault E reg s (absComps E.cwd r.root) r.specVersion code) ∨
      (∀ code, ¬ RootFault E reg s (absComps E.cwd r.root) r.specVersion code) ∧
      ∃ l log, objectPaths E true s (absComps E.cwd r.root) = .ok l ∧ traversalLog E s (absComps E.cwd r.root) = .ok log ∧ full.log = log ∧
        full.report.valid = decide (r.traversalErrors + l.numErrors = 0) ∧
        ((vo = false ∧ full.report.numObjects = 0 ∧ full.report.goodObjects = 0 ∧ full.errors = []) ∨
          (vo = true ∧ hierarchyLoop E { checkDigests := cd, lax := r.lax } lw max s (absComps E.cwd r.root) 0 0 [] l.paths =
            .ok (full.report.numObjects, full.report.goodObjects, full.errors)))) := by
  unfold validateFull at h
  dsimp only at h
  split at h
  · cases (Prod.mk.inj h).2
  · rename_i base hb
    obtain ⟨rfl, hd⟩ := openRoot_ok hb
    refine ⟨hd, ?_⟩
    dsimp only at hd h
    cases hc : checkStructure E reg s (absComps E.cwd r.root) { r with log := true } with
    | mk r1 x =>
      rw [hc] at h
      have hcode := checkStructure_code hw hd hc
      cases x with
      | error e =>
        by_cases he : e = .storageRootException
        · subst he
          obtain ⟨⟨ts, hts⟩, code, hcode⟩ := hcode.1 rfl
          dsimp only at h hcode
          rw [hcode] at h
          cases h
          exact .inl ⟨code, rfl, (structureCode_iff hw hd hts).mp hcode⟩
        · split at h
          · rename_i h1
            cases h1
            exact absurd rfl he
          · cases h
          · rename_i h1
            cases h1
      | ok u =>
        obtain ⟨⟨ts, hts⟩, hcode⟩ := hcode.2 rfl
        obtain ⟨_, hlax, hlog, hte⟩ := checkStructure_keeps hc
        dsimp only at h hlax hlog hte hcode
        rw [hlog] at h
        refine .inr ⟨fun code hf => ?_, ?_⟩
        · rw [(structureCode_iff hw hd hts).mpr hf] at hcode
          cases hcode
        · obtain ⟨l, hl, _⟩ := C53_exact E hw hd (log := true) (.inl rfl)
          rw [traversalLog_eq hw hd, hl] at h
          refine ⟨l, _, hl, traversalLog_eq hw hd, ?_⟩
          dsimp only at h
          rw [hte, hlax] at h
          split_ifs at h with hvo
          · split at h
            · cases h
            · rename_i hh
              cases h
              exact ⟨rfl, rfl, .inr ⟨hvo, hh⟩⟩
          · cases h
            exact ⟨rfl, rfl, .inl ⟨by simpa using hvo, rfl, rfl, rfl⟩⟩

/-- **C98**: what the log of `StorageRoot.validate` holds. Either the storage root itself is in error: then the log has one entry, whose code
says what is wrong. Or it is not: then the log has one entry for each thing that is wrong in the hierarchy and for each extension that is not
registered, and no other, each with the code that stands for it and the place where it is; and, for a new `StorageRoot`, the result is `True`
if and only if all entries are warnings. -/
theorem C98 {E : Env} {reg : Dict Str LayoutObj} {s : FS} (hw : s.WF) {r r' : StorageRoot} {objects digests warnings : Bool} {max : Int}
    {full : FullReport} (h : validateFull E reg objects digests warnings max s r = (r', .ok full)) :
    (∃ code, RootFault E reg s (absComps E.cwd r.root) r.specVersion code ∧ full.log = [(code, r.root)] ∧ full.report.valid = false) ∨
      (∀ code, ¬ RootFault E reg s (absComps E.cwd r.root) r.specVersion code) ∧ full.log.Nodup ∧
        (∀ line, line ∈ full.log ↔ Remark s (absComps E.cwd r.root) line) ∧
        (r.traversalErrors = 0 → (full.report.valid = true ↔ ∀ line ∈ full.log, line.1 = c!"W901")) := by
  obtain ⟨hd, hc⟩ := validateFull_cases hw h
  rcases hc with ⟨code, rfl, hf⟩ | ⟨hno, l, log, hl, hlog, rfl, hv, _⟩
  · exact .inl ⟨code, hf, rfl, rfl⟩
  · refine .inr ⟨hno, traversalLog_nodup hw hd hlog, fun line => mem_traversalLog hw hd hlog, fun ht => ?_⟩
    rw [hv, decide_eq_true_eq, ht, Nat.zero_add, numErrors_log hw hd hlog hl, List.length_eq_zero_iff, List.filter_eq_nil_iff]
    simp

/-! ## The errors that are kept -/

/-- What a validator says about the objects at some paths. -/
def objectReports (E : Env) (cfg : Validator.Config) (s : FS) (base : Path) : List Str → Py (List (Str × Bool × List Entry))
  | [] => .ok []
  | p :: ps =>
    match Validator.validateAt E cfg 0 s (FS.resolve base p) with
    | .error e => .error e
    | .ok (ok, es) => (objectReports E cfg s base ps).map ((p, ok, es) :: ·)

/-- The entries that are shown, if there are any. -/
def shownOf (warnings : Bool) (r : Str × Bool × List Entry) : Option (Str × List Entry) :=
  if r.2.2.filter (fun e => e.isError || warnings) = [] then none else some (r.1, r.2.2.filter (fun e => e.isError || warnings))

theorem hierarchyLoop_eq {E : Env} {cfg : Validator.Config} {warnings : Bool} {max : Int} {s : FS} {base : Path} :
    ∀ (ps : List Str) (num good : Nat) (errors : List (Str × List Entry)), errors.length ≤ max.toNat →
    hierarchyLoop E cfg warnings max s base num good errors ps =
      (objectReports E cfg s base ps).map (fun rs =>
        (num + rs.length, good + (rs.filter (fun r => r.2.1)).length, (errors ++ rs.filterMap (shownOf warnings)).take max.toNat))
  | [], num, good, errors, hle => by
    unfold hierarchyLoop objectReports
    show _ = Except.ok _
    dsimp only
    rw [List.filterMap_nil, List.append_nil, List.take_of_length_le hle]
    rfl
  | p :: ps, num, good, errors, hle => by
    unfold hierarchyLoop objectReports
    cases hv : Validator.validateAt E cfg 0 s (FS.resolve base p) with
    | error e => rfl
    | ok x =>
      obtain ⟨ok, es⟩ := x
      dsimp only
      generalize hsh : es.filter (fun e => e.isError || warnings) = shown
      have key : ∀ errors' : List (Str × List Entry), errors'.length ≤ max.toNat →
          (∀ rs : List (Str × List Entry), (errors' ++ rs).take max.toNat =
            (errors ++ (if shown = [] then rs else (p, shown) :: rs)).take max.toNat) →
          hierarchyLoop E cfg warnings max s base (num + 1) (if ok then good + 1 else good) errors' ps =
            ((objectReports E cfg s base ps).map ((p, ok, es) :: ·)).map (fun rs =>
              (num + rs.length, good + (rs.filter (fun r => r.2.1)).length, (errors ++ rs.filterMap (shownOf warnings)).take max.toNat)) := by
        intro errors' hle' he
        rw [hierarchyLoop_eq ps _ _ _ hle']
        cases objectReports E cfg s base ps with
        | error e => rfl
        | ok rs =>
          show Except.ok _ = Except.ok _
          dsimp only
          rw [he]
          have h1 : shownOf warnings (p, ok, es) = if shown = [] then none else some (p, shown) := by
            unfold shownOf
            dsimp only
            rw [hsh]
          congr 2
          · simp only [List.length_cons]; omega
          · congr 1
            · cases ok with
              | true => simp only [if_true, List.filter_cons_of_pos, List.length_cons]; omega
              | false => simp
            · congr 2
              by_cases h0 : shown = []
              · rw [if_pos h0] at h1 ⊢
                rw [List.filterMap_cons_none h1]
              · rw [if_neg h0] at h1 ⊢
                rw [List.filterMap_cons_some h1]
      by_cases hc : (errors.length : Int) < max ∧ shown ≠ []
      · rw [if_pos hc]
        refine key _ ?_ ?_
        · simp only [List.length_append, List.length_singleton]
          omega
        · intro rs
          rw [if_neg hc.2]
          simp
      · rw [if_neg hc]
        refine key _ hle ?_
        intro rs
        by_cases h0 : shown = []
        · rw [if_pos h0]
        · rw [if_neg h0]
          have hlen : max.toNat = errors.length := by
            have : ¬ (errors.length : Int) < max := fun h => hc ⟨h, h0⟩
            omega
          rw [hlen, List.take_left, List.take_left]

theorem objectReports_paths {E : Env} {cfg : Validator.Config} {s : FS} {base : Path} : ∀ {ps : List Str} {rs : List (Str × Bool × List Entry)},
    objectReports E cfg s base ps = .ok rs → rs.map Prod.fst = ps ∧ ∀ r ∈ rs, Validator.validateAt E cfg 0 s (FS.resolve base r.1) = .ok (r.2.1, r.2.2)
  | [], rs, h => by
    cases h
    simp
  | p :: ps, rs, h => by
    unfold objectReports at h
    split at h
    · cases h
    · rename_i ok es hv
      cases h1 : objectReports E cfg s base ps with
      | error e => rw [h1] at h; cases h
      | ok rs' =>
        rw [h1] at h
        cases h
        obtain ⟨h2, h3⟩ := objectReports_paths h1
        refine ⟨by rw [List.map_cons, h2], fun r hr => ?_⟩
        rcases List.mem_cons.mp hr with rfl | hr
        · exact hv
        · exact h3 r hr

theorem goodObjects_reports {E : Env} {cfg : Validator.Config} {s : FS} {base : Path} : ∀ (ps : List Str),
    goodObjects E cfg s base ps = (objectReports E cfg s base ps).map (fun rs => (rs.filter (fun r => r.2.1)).length)
  | [] => rfl
  | p :: ps => by
    unfold goodObjects objectReports
    cases hv : Validator.validateAt E cfg 0 s (FS.resolve base p) with
    | error e => rfl
    | ok x =>
      obtain ⟨ok, es⟩ := x
      dsimp only
      rw [goodObjects_reports ps]
      cases objectReports E cfg s base ps with
      | error e => rfl
      | ok rs =>
        show Except.ok _ = Except.ok _
        cases ok <;> simp

theorem objectReports_length {E : Env} {cfg : Validator.Config} {s : FS} {base : Path} {ps : List Str} {rs : List (Str × Bool × List Entry)}
    (h : objectReports E cfg s base ps = .ok rs) : rs.length = ps.length := by
  rw [← (objectReports_paths h).1, List.length_map]

/-- The model with the log and the errors gives the same result, counts and attributes as the one without. -/
theorem C98_refines {E : Env} {reg : Dict Str LayoutObj} {s : FS} (hw : s.WF) (r : StorageRoot) (objects digests warnings : Bool) (max : Int) :
    validate E reg objects digests s r =
      ((validateFull E reg objects digests warnings max s r).1, (validateFull E reg objects digests warnings max s r).2.map FullReport.report) := by
  unfold validate validateFull
  dsimp only
  cases hb : openRoot E { r with log := true } s with
  | error e => rfl
  | ok base =>
    obtain ⟨rfl, hd⟩ := openRoot_ok hb
    dsimp only at hd ⊢
    cases hc : checkStructure E reg s (absComps E.cwd r.root) { r with log := true } with
    | mk r1 x =>
      cases x with
      | error e => cases e <;> rfl
      | ok u =>
        obtain ⟨_, _, hlog, _⟩ := checkStructure_keeps hc
        dsimp only at hlog ⊢
        rw [hlog, traversalLog_eq hw hd, objectPaths_eq hw hd (.inl rfl)]
        dsimp only
        cases objects with
        | false => rfl
        | true =>
          rw [if_pos rfl, if_pos rfl, hierarchyLoop_eq _ _ _ _ (by simp), goodObjects_reports]
          cases h : objectReports E { checkDigests := digests, lax := r1.lax } s (absComps E.cwd r.root)
              (((traversal s (absComps E.cwd r.root)).filter (fun q => decide (classify (visitOf s (absComps E.cwd r.root) q) = .object))).map (joinWith '/')) with
          | error e => rfl
          | ok rs =>
            have := objectReports_length h
            simp only [Except.map, Nat.zero_add, this]

theorem verdict_entries {E : Env} {cfg : Validator.Config} {s : FS} {base : Path} {ok : Bool} {es : List Entry}
    (h : Validator.validateAt E cfg 0 s base = .ok (ok, es)) : ok = true ↔ es.filter (fun e => e.isError || false) = [] := by
  have key : IV.numErrors es = 0 ↔ es.filter (fun e => e.isError || false) = [] := by
    unfold IV.numErrors
    rw [List.length_eq_zero_iff]
    simp
  unfold Validator.validateAt at h
  split at h
  · cases h
  · split at h
    · cases h
    · cases h
      rw [← key]
      simp
    · cases h
      rw [← key]
      simp

/-- **C99**: what is kept of the objects. At most `max_errors` objects are kept; each of them is an object of the storage root for which
something is shown, with all that is shown for it. If warnings are not shown, then the objects kept are objects that are not valid, they are as many
as there are such objects or `max_errors` if that is less; so all objects that are not valid are there, unless there are too many. -/
theorem C99 {E : Env} {reg : Dict Str LayoutObj} {s : FS} (hw : s.WF) {r r' : StorageRoot} {digests warnings : Bool} {max : Int} {full : FullReport}
    (h : validateFull E reg true digests warnings max s r = (r', .ok full)) :
    full.errors.length ≤ max.toNat ∧ full.report.goodObjects ≤ full.report.numObjects ∧
    (∀ p es, (p, es) ∈ full.errors → es ≠ [] ∧
      (∃ ws, p = joinWith '/' ws ∧ Reached s (absComps E.cwd r.root) ws ∧ LooseObjectDir s (absComps E.cwd r.root ++ ws)) ∧
      ∃ ok entries, Validator.validateAt E { checkDigests := digests, lax := r.lax } 0 s (resolve (absComps E.cwd r.root) p) = .ok (ok, entries) ∧
        es = entries.filter (fun e => e.isError || warnings) ∧ (warnings = false → ok = false)) ∧
    (warnings = false → full.errors.length = min max.toNat (full.report.numObjects - full.report.goodObjects)) ∧
    ((∀ code, ¬ RootFault E reg s (absComps E.cwd r.root) r.specVersion code) → full.report.numObjects - full.report.goodObjects ≤ max.toNat → warnings = false →
      ∀ ws, Reached s (absComps E.cwd r.root) ws → LooseObjectDir s (absComps E.cwd r.root ++ ws) → ∀ entries,
        Validator.validateAt E { checkDigests := digests, lax := r.lax } 0 s (resolve (absComps E.cwd r.root) (joinWith '/' ws)) = .ok (false, entries) →
        (joinWith '/' ws, entries.filter (fun e => e.isError)) ∈ full.errors) := by
  obtain ⟨hd, hc⟩ := validateFull_cases hw h
  rcases hc with ⟨code, rfl, hf⟩ | ⟨hno, l, log, hl, hlog, hlog', hv, hc⟩
  · refine ⟨by simp, by simp, by simp, by simp, fun hno => absurd hf (hno code)⟩
  · rcases hc with ⟨h0, _⟩ | ⟨_, hc⟩
    · cases h0
    rw [hierarchyLoop_eq _ _ _ _ (by simp)] at hc
    cases hr : objectReports E { checkDigests := digests, lax := r.lax } s (absComps E.cwd r.root) l.paths with
    | error e => rw [hr] at hc; cases hc
    | ok rs =>
      rw [hr] at hc
      have hc := Except.ok.inj hc
      obtain ⟨hnum, hc⟩ := Prod.mk.inj hc
      obtain ⟨hgood, herr⟩ := Prod.mk.inj hc
      rw [Nat.zero_add] at hnum hgood
      rw [List.nil_append] at herr
      obtain ⟨hps, hall⟩ := objectReports_paths hr
      obtain ⟨l', hl', _, _, hp, _⟩ := C53_exact E hw hd (log := true) (.inl rfl)
      rw [hl] at hl'
      cases hl'
      have hbad : warnings = false → ∀ x ∈ rs, (shownOf warnings x).isSome = !x.2.1 := by
        rintro rfl x hx
        have := verdict_entries (hall x hx)
        unfold shownOf
        cases hx2 : x.2.1 with
        | true => rw [if_pos (this.mp hx2)]; rfl
        | false =>
          rw [if_neg]
          · rfl
          · intro h0
            rw [this.mpr h0] at hx2
            cases hx2
      have hcount : warnings = false → (rs.filterMap (shownOf warnings)).length = rs.length - (rs.filter (fun r => r.2.1)).length := by
        intro hwn
        have hb := hbad hwn
        clear hall hps hr hnum hgood herr hc
        have : ∀ rs : List (Str × Bool × List Entry), (∀ x ∈ rs, (shownOf warnings x).isSome = !x.2.1) →
            (rs.filterMap (shownOf warnings)).length + (rs.filter (fun r => r.2.1)).length = rs.length := by
          intro rs
          induction rs with
          | nil => intro _; rfl
          | cons x rs ih =>
            intro hb
            have ih := ih (fun y hy => hb y (by simp [hy]))
            have hx := hb x (by simp)
            cases hx2 : x.2.1 with
            | true =>
              rw [hx2] at hx
              rw [List.filterMap_cons_none (by simpa using hx), List.filter_cons_of_pos (by simpa using hx2)]
              simp only [List.length_cons]
              omega
            | false =>
              rw [hx2] at hx
              obtain ⟨y, hy⟩ := Option.isSome_iff_exists.mp hx
              rw [List.filterMap_cons_some hy, List.filter_cons_of_neg (by simp [hx2])]
              simp only [List.length_cons]
              omega
        have := this rs hb
        omega
      refine ⟨?_, ?_, ?_, ?_, ?_⟩
      · rw [← herr]
        simp
      · rw [← hnum, ← hgood]
        exact List.length_filter_le _ _
      · intro p es hm
        rw [← herr] at hm
        obtain ⟨x, hx, hsh⟩ := List.mem_filterMap.mp (List.mem_of_mem_take hm)
        have hv := hall x hx
        have hs : x.1 = p ∧ x.2.2.filter (fun e => e.isError || warnings) = es ∧ es ≠ [] := by
          unfold shownOf at hsh
          split_ifs at hsh with h0
          cases hsh
          exact ⟨rfl, rfl, h0⟩
        obtain ⟨rfl, rfl, hne⟩ := hs
        refine ⟨hne, (hp x.1).mp ?_, x.2.1, x.2.2, hv, rfl, fun hwn => ?_⟩
        · rw [← hps]
          exact List.mem_map.mpr ⟨x, hx, rfl⟩
        · have := hbad hwn x hx
          rw [hsh] at this
          simpa using this
      · intro hwn
        rw [← herr, ← hnum, ← hgood, List.length_take, hcount hwn]
      · intro _ hle hwn ws hreach hobj entries hval
        rw [← hnum, ← hgood, ← hcount hwn] at hle
        rw [← herr, List.take_of_length_le hle, List.mem_filterMap]
        have hm := (hp (joinWith '/' ws)).mpr ⟨ws, rfl, hreach, hobj⟩
        rw [← hps] at hm
        obtain ⟨x, hx, hx1⟩ := List.mem_map.mp hm
        have hv := hall x hx
        rw [hx1, hval] at hv
        have hv := Prod.mk.inj (Except.ok.inj hv)
        refine ⟨x, hx, ?_⟩
        have := hbad hwn x hx
        subst hwn
        unfold shownOf at this ⊢
        rw [← hv.1, ← hv.2] at this
        rw [← hv.2, hx1]
        split_ifs at this ⊢ with h0
        · cases this
        · simp

/-! ## Examples -/

/-- A storage root with a valid object and everything that may be wrong in a hierarchy. -/
def faultyStore : FS :=
  storeAdded ++ ([([c!"empty"], .dir), ([c!"loose"], .dir), ([c!"loose", c!"a.txt"], .file [1]), ([c!"two"], .dir),
    ([c!"two", c!"0=ocfl_object_1.0"], .file []), ([c!"two", c!"0=ocfl_object_1.1"], .file []), ([c!"deep"], .dir), ([c!"deep", c!"new"], .dir),
    ([c!"deep", c!"new", c!"0=ocfl_object_2.0"], .file []), ([c!"odd"], .dir), ([c!"odd", c!"0=other"], .file []), ([c!"extensions"], .dir),
    ([c!"extensions", c!"mine"], .dir), ([c!"extensions", c!"0002-flat-direct-storage-layout"], .dir), ([c!"extensions", c!"note"], .file [2])] :
    List (Path × Node)).map (fun e => ([c!"w", c!"root"] ++ e.1, e.2))

theorem faultyStore_wf : faultyStore.WF where
  nk := by decide +kernel
  noRoot := by decide +kernel
  parent := by decide +kernel
  names := by decide +kernel

theorem fullReport_eq {x : StorageRoot × Py FullReport} {y : Py FullReport} (h : x.2 = y) : ∃ r, x = (r, y) := ⟨x.1, Prod.ext rfl h⟩

/-- Each thing is named once, with its code. -/
example : ∀ line, Remark faultyStore [c!"w", c!"root"] line ↔ line ∈
    [(c!"W901", c!"extensions/mine"), (c!"E086", c!"extensions/note"), (c!"E073", c!"/empty"), (c!"E072", c!"/loose"), (c!"E003d", c!"/two"),
      (c!"E004a", c!"/deep/new"), (c!"E004b", c!"/odd")] := by
  obtain ⟨r, h⟩ := fullReport_eq (x := validateFull demoEnv defaultRegistry true true false 100 faultyStore anyStore)
    (y := .ok ⟨⟨false, 1, 1⟩, [], [(c!"W901", c!"extensions/mine"), (c!"E086", c!"extensions/note"), (c!"E073", c!"/empty"), (c!"E072", c!"/loose"),
      (c!"E003d", c!"/two"), (c!"E004a", c!"/deep/new"), (c!"E004b", c!"/odd")]⟩) (by decide +kernel)
  rcases C98 faultyStore_wf h with ⟨code, _, h, _⟩ | ⟨_, _, h, _⟩
  · cases h
  · exact fun line => (h line).symm

/-- A storage root of another version than the one expected. -/
example : RootFault demoEnv defaultRegistry storeSpoilt [c!"w", c!"root"] (some c!"1.0") c!"E069c" := by
  obtain ⟨r, h⟩ := fullReport_eq (x := validateFull demoEnv defaultRegistry true true false 100 storeSpoilt { anyStore with specVersion := some c!"1.0" })
    (y := .ok ⟨⟨false, 0, 0⟩, [], [(c!"E069c", c!"root")]⟩) (by decide +kernel)
  rcases C98 storeSpoilt_wf h with ⟨code, hf, h, _⟩ | ⟨_, _, h, _⟩
  · cases h
    exact hf
  · have := (h (c!"E069c", c!"root")).mp (by simp)
    cases this

/-- The damaged object is kept with what is wrong about it, unless nothing is to be kept. -/
example : (∃ r, validateFull demoEnv defaultRegistry true true false 100 storeSpoilt anyStore = (r, .ok ⟨⟨true, 1, 0⟩, [(c!"info:x", [⟨true, c!"E092a"⟩])], []⟩)) ∧
    ∃ r, validateFull demoEnv defaultRegistry true true false 0 storeSpoilt anyStore = (r, .ok ⟨⟨true, 1, 0⟩, [], []⟩) :=
  ⟨fullReport_eq (by decide +kernel), fullReport_eq (by decide +kernel)⟩

example : ∃ ok entries, Validator.validateAt demoEnv {} 0 storeSpoilt (resolve (absComps demoEnv.cwd anyStore.root) c!"info:x") = .ok (ok, entries) ∧
    [⟨true, c!"E092a"⟩] = entries.filter (fun e => e.isError || false) ∧ ok = false := by
  obtain ⟨r, h⟩ := fullReport_eq (x := validateFull demoEnv defaultRegistry true true false 100 storeSpoilt anyStore)
    (y := .ok ⟨⟨true, 1, 0⟩, [(c!"info:x", [⟨true, c!"E092a"⟩])], []⟩) (by decide +kernel)
  obtain ⟨_, _, hk, _, _⟩ := C99 storeSpoilt_wf h
  obtain ⟨_, _, ok, entries, h1, h2, h3⟩ := hk c!"info:x" [⟨true, c!"E092a"⟩] (by simp)
  exact ⟨ok, entries, h1, h2, h3 rfl⟩

end Ocfl
