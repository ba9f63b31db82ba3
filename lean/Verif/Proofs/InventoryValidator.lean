import Verif.Proofs.Clean
import Verif.Py.DictLemmas
import Verif.Py.StrLemmas
import Verif.Py.Decimal
import Verif.Spec.InventoryRules
import Verif.Proofs.Digest
import Verif.Props.Digest

/-!
# `InventoryValidator.validate` without errors: one lemma per piece
-/

namespace Ocfl
open IV V Spec

theorem pyIn_obj (d : List (Str × Json)) (k : Str) : (Json.obj d).pyIn k = .ok (Dict.has d k) := rfl

theorem pyIndex_obj (d : List (Str × Json)) (k : Str) :
    (Json.obj d).pyIndex k = match Dict.get? d k with | some v => .ok v | none => .error .keyError := rfl

theorem has_of_get {d : List (Str × Json)} {k : Str} {v : Json} (h : Dict.get? d k = some v) :
    Dict.has d k = true := by simp [Dict.has, h]

/-- `if k in j: f(j[k]) else: g` on an object. -/
theorem clean_field {α : Type} {d : List (Str × Json)} {k : Str} {f : Json → V α} {g : V α} {r : α} :
    Clean (do if ← lift ((Json.obj d).pyIn k) then (lift ((Json.obj d).pyIndex k) >>= f) else g) r ↔
    (∃ v, Dict.get? d k = some v ∧ Clean (f v) r) ∨ (Dict.get? d k = none ∧ Clean g r) := by
  simp only [clean_bind', clean_lift, pyIn_obj, pyIndex_obj, clean_ite, Except.ok.injEq, exists_eq_left']
  cases h : Dict.get? d k <;> simp [Dict.has, h]

/-- The same for `if k not in j: g else: f(j[k])`. -/
theorem clean_field_not {α : Type} {d : List (Str × Json)} {k : Str} {f : Json → V α} {g : V α} {r : α} :
    Clean (do if !(← lift ((Json.obj d).pyIn k)) then g else (lift ((Json.obj d).pyIndex k) >>= f)) r ↔
    (∃ v, Dict.get? d k = some v ∧ Clean (f v) r) ∨ (Dict.get? d k = none ∧ Clean g r) := by
  simp only [clean_bind', clean_lift, pyIn_obj, pyIndex_obj, clean_ite, Except.ok.injEq, exists_eq_left']
  cases h : Dict.get? d k <;> simp [Dict.has, h]

/-- A clean `id` check means the inventory is an object. -/
theorem checkId_obj {j : Json} {r : Option Str} (h : Clean (checkId j) r) : ∃ d, j = .obj d := by
  unfold checkId at h
  rw [clean_bind'] at h
  obtain ⟨b, hb, h⟩ := h
  cases b with
  | false => simp [clean_bind', clean_err] at h
  | true =>
    simp only [if_true, clean_bind', clean_lift] at h
    obtain ⟨v, hv, h⟩ := h
    cases j with
    | obj d => exact ⟨d, rfl⟩
    | _ => cases hv

theorem clean_checkId {d : List (Str × Json)} {r : Option Str} :
    Clean (checkId (.obj d)) r ↔ ∃ s, s ≠ [] ∧ Dict.get? d c!"id" = some (.str s) ∧ r = some s := by
  unfold checkId
  rw [clean_field]
  constructor
  · rintro (⟨v, hv, h⟩ | ⟨_, h⟩)
    · cases v with
      | str s =>
        simp only [clean_ite, clean_bind', clean_err, clean_ret, clean_warn] at h
        simp only [false_and, exists_false, and_false, false_or, exists_const] at h
        exact ⟨s, h.1, hv, by rcases h.2 with h | h <;> exact h.2.2⟩
      | _ => simp [clean_bind', clean_err] at h
    · simp [clean_bind', clean_err] at h
  · rintro ⟨s, hs, hv, rfl⟩
    refine Or.inl ⟨_, hv, ?_⟩
    simp only [clean_ite, clean_bind', clean_err, clean_ret, clean_warn]
    refine Or.inr ⟨hs, ?_⟩
    by_cases hm : matchUri s = true <;> simp [hm]

theorem clean_checkType {force : Option Str} {spec : Str} {d : List (Str × Json)} {r : Str} :
    Clean (checkType force spec (.obj d)) r ↔
      ∃ t, Dict.get? d c!"type" = some (.str t) ∧
        (force.getD [] ≠ [] → t = c!"https://ocfl.io/" ++ force.getD [] ++ c!"/spec/#inventory") ∧
        ∃ v, Inv.matchSpecVersion t = some v ∧ v ∈ specVersionsSupported ∧ r = v := by
  unfold checkType
  rw [clean_field_not]
  constructor
  · rintro (⟨v, hv, h⟩ | ⟨_, h⟩)
    · cases v with
      | str t =>
        simp only [clean_ite, clean_bind', clean_err, false_and, exists_false, and_false, false_or] at h
        obtain ⟨h1, h2⟩ := h
        refine ⟨t, hv, ?_, ?_⟩
        · intro hf
          exact Classical.byContradiction fun hn => h1 ⟨hf, hn⟩
        · cases hm : Inv.matchSpecVersion t with
          | none => simp [hm, clean_bind', clean_err] at h2
          | some v =>
            simp only [hm, clean_ite, clean_bind', clean_err, false_and, exists_false, and_false, or_false,
              clean_ret] at h2
            exact ⟨v, rfl, h2.1, h2.2⟩
      | _ => simp [clean_bind', clean_err] at h
    · simp [clean_bind', clean_err] at h
  · rintro ⟨t, ht, h1, v, hm, hv, rfl⟩
    refine Or.inl ⟨_, ht, ?_⟩
    simp only [clean_ite]
    refine Or.inr ⟨fun hn => hn.2 (h1 hn.1), ?_⟩
    simp [hm, hv, clean_ret]

theorem clean_checkDigestAlgorithm {lax : Bool} {d : List (Str × Json)} {r : Option Json} :
    Clean (checkDigestAlgorithm lax (.obj d)) r ↔
      ∃ a, Dict.get? d c!"digestAlgorithm" = some a ∧ r = some a ∧
        (lax = false → a = .str c!"sha512" ∨ a = .str c!"sha256") := by
  unfold checkDigestAlgorithm
  rw [clean_field_not]
  have hstr : ∀ (a : Json) (s : Str), a.str? = some s ↔ a = .str s := by
    intro a s; cases a <;> simp [Json.str?]
  constructor
  · rintro (⟨a, ha, h⟩ | ⟨_, h⟩)
    · simp only [clean_ite, clean_bind', clean_err, clean_ret, clean_warn, hstr, false_and, exists_false, and_false,
        or_false, true_and, exists_const] at h
      refine ⟨a, ha, ?_⟩
      rcases h with ⟨rfl, rfl⟩ | ⟨_, ⟨h1, rfl⟩ | ⟨_, rfl, rfl⟩⟩
      · exact ⟨rfl, fun _ => Or.inl rfl⟩
      · exact ⟨rfl, fun h => by rw [h1] at h; cases h⟩
      · exact ⟨rfl, fun _ => Or.inr rfl⟩
    · simp [clean_bind', clean_err] at h
  · rintro ⟨a, ha, rfl, h⟩
    refine Or.inl ⟨a, ha, ?_⟩
    simp only [clean_ite, clean_bind', clean_err, clean_ret, clean_warn, hstr, false_and, exists_false, and_false,
        or_false, true_and, exists_const]
    by_cases h1 : a = .str c!"sha512"
    · subst h1; exact Or.inl ⟨rfl, rfl⟩
    · refine Or.inr ⟨h1, ?_⟩
      cases lax with
      | true => exact Or.inl ⟨rfl, trivial⟩
      | false =>
        refine Or.inr ⟨by simp, ?_, trivial⟩
        rcases h rfl with h | h
        · exact absurd h h1
        · exact h

theorem clean_checkContentDirectory {d : List (Str × Json)} {r : Option Str} :
    Clean (checkContentDirectory (.obj d)) r ↔
      (∃ cd, Dict.get? d c!"contentDirectory" = some (.str cd) ∧ '/' ∉ cd ∧ cd ≠ c!"." ∧ cd ≠ c!".." ∧ r = some cd) ∨
      (Dict.get? d c!"contentDirectory" = none ∧ r = none) := by
  unfold checkContentDirectory
  rw [clean_field, clean_ret]
  refine or_congr ?_ Iff.rfl
  constructor
  · rintro ⟨v, hv, h⟩
    cases v with
    | str cd =>
      simp only [clean_ite, clean_bind', clean_err, clean_ret, false_and, exists_false, and_false, false_or,
        not_or] at h
      exact ⟨cd, hv, h.1, h.2.1.1, h.2.1.2, h.2.2⟩
    | _ => simp [clean_bind', clean_err] at h
  · rintro ⟨cd, hv, h1, h2, h3, rfl⟩
    refine ⟨_, hv, ?_⟩
    simp only [clean_ite, clean_bind', clean_err, clean_ret, false_and, exists_false, and_false, false_or, not_or]
    exact ⟨h1, ⟨h2, h3⟩, trivial⟩

/-! ## Digests -/

theorem normalizedDigestJ_eq (d : Str) (alg : Json) : normalizedDigestJ d alg = normalizedDigest d (algName alg) := by
  cases alg <;> rfl

/-- The test for digests of an algorithm. -/
def digestTest (alg : Str) : Str → Bool := (digestRegex alg).getD matchAny

theorem clean_digestMatcher {lax : Bool} {alg : Json} {m : Str → Bool} :
    Clean (digestMatcher lax alg) m ↔
      (∀ l, alg ≠ .arr l) ∧ (∀ d, alg ≠ .obj d) ∧ (lax = true ∨ (digestRegex (algName alg)).isSome = true) ∧
        m = digestTest (algName alg) := by
  unfold digestMatcher digestTest
  cases alg with
  | str a =>
    simp only [algName]
    cases h : digestRegex a with
    | none => cases lax <;> simp [clean_bind', clean_err, clean_ret]
    | some m' => simp [clean_ret]
  | arr l => simp [clean_raise]
  | obj l => simp [clean_raise]
  | null => cases lax <;> simp [algName, show digestRegex [] = none from rfl, clean_bind', clean_err, clean_ret]
  | bool b => cases lax <;> simp [algName, show digestRegex [] = none from rfl, clean_bind', clean_err, clean_ret]
  | num n => cases lax <;> simp [algName, show digestRegex [] = none from rfl, clean_bind', clean_err, clean_ret]

/-! ## The manifest -/

/-- The path passes `_check_content_path` (apart from repetition). -/
def goodContent (cd p : Str) : Bool :=
  !(startsWith p c!"/" || endsWith p c!"/") &&
  match matchContentPath p with
  | none => false
  | some (_, g2, g3) => g2 = cd && !(splitOn '/' g3).any badElement

/-- The directory recorded for the path. -/
def dirOf (p : Str) : Str :=
  match matchContentPath p with
  | none => []
  | some (g1, g2, g3) => joinWith '/' (g1 :: g2 :: (splitOn '/' g3).dropLast)

theorem clean_checkContentPath {cd p : Str} {paths dirs : List Str} {r : Bool × List Str × List Str} :
    Clean (checkContentPath cd p paths dirs) r ↔
      goodContent cd p = true ∧ p ∉ paths ∧ r = (true, p :: paths, dirOf p :: dirs) := by
  unfold checkContentPath goodContent dirOf
  simp only [clean_ite, clean_bind', clean_err, false_and, exists_false, and_false, false_or]
  by_cases h1 : (startsWith p c!"/" || endsWith p c!"/") = true
  · simp [h1]
  · simp only [h1]
    cases h2 : matchContentPath p with
    | none => simp [clean_bind', clean_err]
    | some g =>
      obtain ⟨g1, g2, g3⟩ := g
      simp only [clean_ite, clean_bind', clean_err, false_and, exists_false, and_false, false_or, clean_ret]
      simp [and_assoc]

theorem clean_manifestFile {cd norm : Str} {s s' : MState} {f : Json} :
    Clean (manifestFile cd norm s f) s' ↔
      ∃ p, f = .str p ∧ goodContent cd p = true ∧ p ∉ s.paths ∧
        s' = { s with files := Dict.set s.files p norm, paths := p :: s.paths, dirs := dirOf p :: s.dirs,
                      correct := s.correct ++ [p] } := by
  cases f with
  | str p =>
    unfold manifestFile
    simp only [clean_bind', clean_checkContentPath, clean_ret]
    constructor
    · rintro ⟨r, ⟨h1, h2, rfl⟩, rfl⟩
      exact ⟨p, rfl, h1, h2, by simp⟩
    · rintro ⟨q, hq, h1, h2, rfl⟩
      cases hq
      exact ⟨_, ⟨h1, h2, rfl⟩, by simp⟩
  | _ => simp [manifestFile, clean_raise]

/-- The state after clean files `ps` of one digest. -/
def afterFiles (norm : Str) (s : MState) (ps : List Str) : MState :=
  { s with files := ps.foldl (fun d p => Dict.set d p norm) s.files, paths := ps.reverse ++ s.paths,
           dirs := (ps.map dirOf).reverse ++ s.dirs, correct := s.correct ++ ps }

theorem clean_manifestFiles {cd norm : Str} {s s' : MState} {fs : List Json} :
    Clean (forM (manifestFile cd norm) fs s) s' ↔
      ∃ ps : List Str, fs = ps.map .str ∧ (∀ p ∈ ps, goodContent cd p = true ∧ p ∉ s.paths) ∧ ps.Nodup ∧
        s' = afterFiles norm s ps := by
  induction fs generalizing s with
  | nil =>
    rw [clean_forM_nil]
    constructor
    · rintro rfl; exact ⟨[], rfl, by simp, List.nodup_nil, by simp [afterFiles]⟩
    · rintro ⟨ps, h, _, _, rfl⟩
      cases ps with
      | nil => simp [afterFiles]
      | cons => cases h
  | cons f fs ih =>
    rw [clean_forM_cons]
    simp only [clean_manifestFile, ih]
    constructor
    · rintro ⟨s1, ⟨p, rfl, h1, h2, rfl⟩, ps, rfl, h3, h4, rfl⟩
      refine ⟨p :: ps, rfl, ?_, ?_, ?_⟩
      · intro q hq
        rcases List.mem_cons.mp hq with rfl | hq
        · exact ⟨h1, h2⟩
        · exact ⟨(h3 q hq).1, fun h => (h3 q hq).2 (List.mem_cons_of_mem _ h)⟩
      · exact List.nodup_cons.mpr ⟨fun h => (h3 p h).2 (List.mem_cons_self ..), h4⟩
      · simp [afterFiles]
    · rintro ⟨qs, hqs, h1, h2, rfl⟩
      cases qs with
      | nil => cases hqs
      | cons p ps =>
        simp only [List.map_cons, List.cons.injEq] at hqs
        obtain ⟨rfl, rfl⟩ := hqs
        obtain ⟨hn, h2⟩ := List.nodup_cons.mp h2
        refine ⟨_, ⟨p, rfl, (h1 p (List.mem_cons_self ..)).1, (h1 p (List.mem_cons_self ..)).2, rfl⟩, ps, rfl, ?_, h2, ?_⟩
        · intro q hq
          refine ⟨(h1 q (List.mem_cons_of_mem _ hq)).1, fun h => ?_⟩
          rcases List.mem_cons.mp h with rfl | h
          · exact hn hq
          · exact (h1 q (List.mem_cons_of_mem _ hq)).2 h
        · simp [afterFiles]

/-- The state after a clean digest entry. -/
def afterDigest (alg : Str) (s : MState) (e : Str × List Str) : MState :=
  afterFiles (normalizedDigest e.1 alg)
    { s with unnorm := s.unnorm ++ [e.1], digests := s.digests ++ [normalizedDigest e.1 alg] } e.2

theorem clean_manifestDigest {lax : Bool} {alg : Json} {cd : Str} {s s' : MState} {e : Str × Json}
    (hm : ∀ m, Clean (digestMatcher lax alg) m ↔ m = digestTest (algName alg)) :
    Clean (manifestDigest lax alg cd s e) s' ↔
      ∃ ps : List Str, e.2 = .arr (ps.map .str) ∧ digestTest (algName alg) e.1 = true ∧
        normalizedDigest e.1 (algName alg) ∉ s.digests ∧ (∀ p ∈ ps, goodContent cd p = true ∧ p ∉ s.paths) ∧ ps.Nodup ∧
        s' = afterDigest (algName alg) s (e.1, ps) := by
  obtain ⟨d, v⟩ := e
  unfold manifestDigest
  simp only [clean_bind', hm, exists_eq_left]
  by_cases ht : digestTest (algName alg) d = true
  · simp only [ht, Bool.not_true, Bool.false_eq_true, if_false, true_and]
    cases v with
    | arr fs =>
      simp only [clean_bind', clean_ite, clean_err, false_and, exists_false, and_false, false_or, clean_ret,
        exists_eq_left, clean_manifestFiles, normalizedDigestJ_eq, Json.arr.injEq, afterDigest]
      constructor
      · rintro ⟨h1, ps, rfl, h2, h3, rfl⟩
        exact ⟨ps, rfl, h1, h2, h3, rfl⟩
      · rintro ⟨ps, rfl, h1, h2, h3, rfl⟩
        exact ⟨h1, ps, rfl, h2, h3, rfl⟩
    | _ => simp [clean_bind', clean_err]
  · simp [ht, clean_bind', clean_err]

/-- A digest-to-paths map as the pairs of a JSON object. -/
def encMap (M : List (Str × List Str)) : List (Str × Json) := M.map (fun e => (e.1, .arr (e.2.map .str)))

theorem ofDigestMap_eq (M : List (Str × List Str)) : ofDigestMap M = .obj (encMap M) := rfl

theorem listed_cons (e : Str × List Str) (M : List (Str × List Str)) : listed (e :: M) = e.2 ++ listed M := by
  simp [listed]

/-- The digests and paths of `M` are acceptable after `s`. -/
def AddOK (alg cd : Str) (s : MState) (M : List (Str × List Str)) : Prop :=
  (∀ e ∈ M, digestTest alg e.1 = true) ∧
  (M.map (fun e => normalizedDigest e.1 alg)).Nodup ∧ (∀ e ∈ M, normalizedDigest e.1 alg ∉ s.digests) ∧
  (∀ p ∈ listed M, goodContent cd p = true ∧ p ∉ s.paths) ∧ (listed M).Nodup

theorem addOK_cons {alg cd : Str} {s : MState} {e : Str × List Str} {M : List (Str × List Str)} :
    AddOK alg cd s (e :: M) ↔
      (digestTest alg e.1 = true ∧ normalizedDigest e.1 alg ∉ s.digests ∧
        (∀ p ∈ e.2, goodContent cd p = true ∧ p ∉ s.paths) ∧ e.2.Nodup) ∧ AddOK alg cd (afterDigest alg s e) M := by
  unfold AddOK afterDigest afterFiles
  simp only [listed_cons, List.nodup_append, List.mem_cons, List.map_cons, List.nodup_cons, List.mem_append,
    List.mem_reverse, List.mem_map, forall_eq_or_imp, not_or]
  constructor
  · rintro ⟨⟨h1, h2⟩, ⟨h3, h4⟩, ⟨h5, h6⟩, h7, h8, h9, h10⟩
    refine ⟨⟨h1, h5, fun p hp => h7 p (Or.inl hp), h8⟩, h2, h4, ?_, ?_, h9⟩
    · exact fun x hx => ⟨h6 x hx, fun h => h3 ⟨x, hx, h⟩, by simp⟩
    · exact fun p hp => ⟨(h7 p (Or.inr hp)).1, fun h => h10 p h p hp rfl, (h7 p (Or.inr hp)).2⟩
  · rintro ⟨⟨h1, h5, h7, h8⟩, h2, h4, h6, h9, h10⟩
    refine ⟨⟨h1, h2⟩, ⟨?_, h4⟩, ⟨h5, fun x hx => (h6 x hx).1⟩, ?_, h8, h10, ?_⟩
    · rintro ⟨x, hx, h⟩; exact (h6 x hx).2.1 h
    · rintro p (hp | hp)
      · exact h7 p hp
      · exact ⟨(h9 p hp).1, (h9 p hp).2.2⟩
    · rintro a ha b hb rfl; exact (h9 a hb).2.1 ha

theorem clean_manifestDigests {lax : Bool} {alg : Json} {cd : Str} {s s' : MState} {m : List (Str × Json)}
    (hm : ∀ m, Clean (digestMatcher lax alg) m ↔ m = digestTest (algName alg)) :
    Clean (forM (manifestDigest lax alg cd) m s) s' ↔
      ∃ M, m = encMap M ∧ AddOK (algName alg) cd s M ∧ s' = M.foldl (afterDigest (algName alg)) s := by
  induction m generalizing s with
  | nil =>
    rw [clean_forM_nil]
    constructor
    · rintro rfl; exact ⟨[], rfl, by simp [AddOK, listed], rfl⟩
    · rintro ⟨M, h, _, rfl⟩
      cases M with
      | nil => rfl
      | cons => cases h
  | cons e m ih =>
    rw [clean_forM_cons]
    simp only [clean_manifestDigest hm, ih]
    constructor
    · rintro ⟨s1, ⟨ps, h1, h2, h3, h4, h5, rfl⟩, M, rfl, h6, rfl⟩
      refine ⟨(e.1, ps) :: M, ?_, addOK_cons.mpr ⟨⟨h2, h3, h4, h5⟩, h6⟩, rfl⟩
      simp only [encMap, List.map_cons, List.cons.injEq, and_true]
      rw [← h1]
    · rintro ⟨M, hM, h1, rfl⟩
      cases M with
      | nil => cases hM
      | cons e' M =>
        simp only [encMap, List.map_cons, List.cons.injEq] at hM
        obtain ⟨rfl, rfl⟩ := hM
        obtain ⟨⟨h2, h3, h4, h5⟩, h6⟩ := addOK_cons.mp h1
        exact ⟨_, ⟨e'.2, rfl, h2, h3, h4, h5, rfl⟩, M, rfl, h6, rfl⟩

theorem clean_conflicts {code : Str} {paths dirs : List Str} {u : Unit} :
    Clean (conflicts code paths dirs) u ↔ ∀ d ∈ dirs, d ∉ paths := by
  unfold conflicts
  rw [clean_forM_unit]
  simp [clean_ite, clean_err, clean_ret]

/-- The pairs (content path, normalised digest) of a manifest. -/
def pairsOf (alg : Str) (M : List (Str × List Str)) : List (Str × Str) :=
  M.flatMap (fun e => e.2.map (fun p => (p, normalizedDigest e.1 alg)))

theorem fold_afterDigest (alg : Str) (M : List (Str × List Str)) (s : MState) :
    let s' := M.foldl (afterDigest alg) s
    s'.unnorm = s.unnorm ++ M.map Prod.fst ∧ s'.correct = s.correct ++ listed M ∧
    (∀ p, p ∈ s'.paths ↔ p ∈ s.paths ∨ p ∈ listed M) ∧
    (∀ d, d ∈ s'.dirs ↔ d ∈ s.dirs ∨ d ∈ (listed M).map dirOf) ∧
    s'.files = (pairsOf alg M).foldl (fun d e => Dict.set d e.1 e.2) s.files := by
  induction M generalizing s with
  | nil => simp [listed, pairsOf]
  | cons e M ih =>
    obtain ⟨h1, h2, h3, h4, h5⟩ := ih (afterDigest alg s e)
    refine ⟨?_, ?_, ?_, ?_, ?_⟩
    · rw [List.foldl_cons, h1]; simp [afterDigest, afterFiles]
    · rw [List.foldl_cons, h2]; simp [afterDigest, afterFiles, listed_cons]
    · intro p
      rw [List.foldl_cons, h3]
      simp only [afterDigest, afterFiles, listed_cons, List.mem_append, List.mem_reverse]
      grind
    · intro p
      rw [List.foldl_cons, h4]
      simp only [afterDigest, afterFiles, listed_cons, List.mem_append, List.mem_reverse, List.map_append]
      grind
    · rw [List.foldl_cons, h5]
      simp only [afterDigest, afterFiles, pairsOf, List.flatMap_cons, List.foldl_append, List.foldl_map]

/-- Storing pairs with new, distinct keys appends them. -/
theorem foldl_set_nodup {α β : Type} [DecidableEq α] (ps : List (α × β)) (d : Dict α β)
    (hn : (ps.map Prod.fst).Nodup) (hd : ∀ p ∈ ps, p.1 ∉ Dict.keys d) :
    ps.foldl (fun d e => Dict.set d e.1 e.2) d = d ++ ps := by
  induction ps generalizing d with
  | nil => simp
  | cons p ps ih =>
    rw [List.map_cons, List.nodup_cons] at hn
    rw [List.foldl_cons, Dict.set_of_not_mem _ (hd p (List.mem_cons_self ..)), ih _ hn.2]
    · simp
    · intro q hq
      simp only [Dict.keys, List.map_append, List.mem_append, List.map_cons, List.map_nil, List.mem_singleton, not_or]
      refine ⟨hd q (List.mem_cons_of_mem _ hq), fun h => hn.1 ?_⟩
      rw [← h]
      exact List.mem_map_of_mem hq

theorem map_fst_pairsOf (alg : Str) (M : List (Str × List Str)) : (pairsOf alg M).map Prod.fst = listed M := by
  induction M with
  | nil => rfl
  | cons e M ih =>
    rw [listed_cons, ← ih]
    simp only [pairsOf, List.flatMap_cons, List.map_append, List.map_map]
    congr 1
    rw [show (Prod.fst ∘ fun p => (p, normalizedDigest e.1 alg)) = (id : Str → Str) from rfl, List.map_id]

theorem clean_validateManifest {lax : Bool} {alg : Json} {cd : Str} {j : Json} {s' : MState}
    (hm : ∀ m, Clean (digestMatcher lax alg) m ↔ m = digestTest (algName alg)) :
    Clean (validateManifest lax alg cd j) s' ↔
      ∃ M, j = ofDigestMap M ∧ AddOK (algName alg) cd {} M ∧ (∀ d ∈ (listed M).map dirOf, d ∉ listed M) ∧
        s' = M.foldl (afterDigest (algName alg)) {} := by
  cases j with
  | obj m =>
    unfold validateManifest
    simp only [clean_bind', clean_manifestDigests hm, clean_conflicts, clean_ret, ofDigestMap_eq, Json.obj.injEq,
      exists_const]
    constructor
    · rintro ⟨s, ⟨M, rfl, h1, rfl⟩, h2, rfl⟩
      obtain ⟨_, _, h3, h4, _⟩ := fold_afterDigest (algName alg) M {}
      refine ⟨M, rfl, h1, fun d hd hp => h2 d ?_ ?_, rfl⟩
      · rw [h4]; exact Or.inr hd
      · rw [h3]; exact Or.inr hp
    · rintro ⟨M, rfl, h1, h2, rfl⟩
      obtain ⟨_, _, h3, h4, _⟩ := fold_afterDigest (algName alg) M {}
      refine ⟨_, ⟨M, rfl, h1, rfl⟩, fun d hd hp => ?_, rfl⟩
      rw [h4] at hd; rw [h3] at hp
      rcases hd with hd | hd
      · simp at hd
      · rcases hp with hp | hp
        · simp at hp
        · exact h2 d hd hp
  | _ => simp [validateManifest, clean_bind', clean_err, ofDigestMap]

/-! ## State blocks -/

/-- The path passes `_check_logical_path`. -/
def goodLogical (p : Str) : Bool :=
  !(startsWith p c!"/" || endsWith p c!"/") && !(splitOn '/' p).any badElement

/-- The directory of a logical path. -/
def ldirOf (p : Str) : Str := joinWith '/' (splitOn '/' p).dropLast

theorem clean_statePath {s s' : List Str × List Str} {f : Json} :
    Clean (statePath s f) s' ↔
      ∃ p, f = .str p ∧ goodLogical p = true ∧ p ∉ s.1 ∧ s' = (p :: s.1, ldirOf p :: s.2) := by
  cases f with
  | str p =>
    unfold statePath checkLogicalPath goodLogical ldirOf
    simp only [clean_ite, clean_bind', clean_err, false_and, exists_false, and_false, false_or, clean_ret,
      Json.str.injEq, exists_eq_left']
    constructor
    · rintro ⟨h1, h2, h3, rfl⟩
      exact ⟨by simp_all, h1, rfl⟩
    · rintro ⟨h1, h2, rfl⟩
      exact ⟨h2, by simp_all, by simp_all, rfl⟩
  | _ => simp [statePath, clean_raise]

theorem clean_statePaths {s s' : List Str × List Str} {fs : List Json} :
    Clean (forM statePath fs s) s' ↔
      ∃ ps : List Str, fs = ps.map .str ∧ (∀ p ∈ ps, goodLogical p = true ∧ p ∉ s.1) ∧ ps.Nodup ∧
        s' = (ps.reverse ++ s.1, (ps.map ldirOf).reverse ++ s.2) := by
  induction fs generalizing s with
  | nil =>
    rw [clean_forM_nil]
    constructor
    · rintro rfl; exact ⟨[], rfl, by simp, List.nodup_nil, by simp⟩
    · rintro ⟨ps, h, _, _, rfl⟩
      cases ps with
      | nil => simp
      | cons => cases h
  | cons f fs ih =>
    rw [clean_forM_cons]
    simp only [clean_statePath, ih]
    constructor
    · rintro ⟨s1, ⟨p, rfl, h1, h2, rfl⟩, ps, rfl, h3, h4, rfl⟩
      refine ⟨p :: ps, rfl, ?_, ?_, ?_⟩
      · intro q hq
        rcases List.mem_cons.mp hq with rfl | hq
        · exact ⟨h1, h2⟩
        · exact ⟨(h3 q hq).1, fun h => (h3 q hq).2 (List.mem_cons_of_mem _ h)⟩
      · exact List.nodup_cons.mpr ⟨fun h => (h3 p h).2 (List.mem_cons_self ..), h4⟩
      · simp
    · rintro ⟨qs, hqs, h1, h2, rfl⟩
      cases qs with
      | nil => cases hqs
      | cons p ps =>
        simp only [List.map_cons, List.cons.injEq] at hqs
        obtain ⟨rfl, rfl⟩ := hqs
        obtain ⟨hn, h2⟩ := List.nodup_cons.mp h2
        refine ⟨_, ⟨p, rfl, (h1 p (List.mem_cons_self ..)).1, (h1 p (List.mem_cons_self ..)).2, rfl⟩, ps, rfl, ?_, h2, ?_⟩
        · intro q hq
          refine ⟨(h1 q (List.mem_cons_of_mem _ hq)).1, fun h => ?_⟩
          rcases List.mem_cons.mp h with rfl | h
          · exact hn hq
          · exact (h1 q (List.mem_cons_of_mem _ hq)).2 h
        · simp

theorem clean_stateDigest {m : Str → Bool} {alg : Json} {u : List Str} {s s' : (List Str × List Str) × List Str}
    {e : Str × Json} :
    Clean (stateDigest m alg (some u) s e) s' ↔
      ∃ ps : List Str, e.2 = .arr (ps.map .str) ∧ m e.1 = true ∧ e.1 ∈ u ∧
        (∀ p ∈ ps, goodLogical p = true ∧ p ∉ s.1.1) ∧ ps.Nodup ∧
        s' = ((ps.reverse ++ s.1.1, (ps.map ldirOf).reverse ++ s.1.2), s.2 ++ [normalizedDigest e.1 (algName alg)]) := by
  obtain ⟨d, v⟩ := e
  unfold stateDigest
  by_cases ht : m d = true
  · simp only [ht, Bool.not_true, Bool.false_eq_true, if_false, true_and]
    cases v with
    | arr fs =>
      simp only [clean_bind', clean_ite, clean_err, false_and, exists_false, and_false, false_or, clean_ret,
        clean_statePaths, normalizedDigestJ_eq, Json.arr.injEq, exists_const, Decidable.not_not, true_and]
      constructor
      · rintro ⟨s1, ⟨ps, rfl, h2, h3, rfl⟩, h4, rfl⟩
        exact ⟨ps, rfl, h4, h2, h3, rfl⟩
      · rintro ⟨ps, rfl, h4, h2, h3, rfl⟩
        exact ⟨_, ⟨ps, rfl, h2, h3, rfl⟩, h4, rfl⟩
    | _ => simp [clean_bind', clean_err]
  · simp [ht, clean_bind', clean_err]

/-- The state block `S` is acceptable after the logical paths `seen`. -/
def StateOK (m : Str → Bool) (u seen : List Str) (S : List (Str × List Str)) : Prop :=
  (∀ e ∈ S, m e.1 = true ∧ e.1 ∈ u) ∧ (∀ p ∈ listed S, goodLogical p = true ∧ p ∉ seen) ∧ (listed S).Nodup

theorem stateOK_cons {m : Str → Bool} {u seen : List Str} {e : Str × List Str} {S : List (Str × List Str)} :
    StateOK m u seen (e :: S) ↔
      (m e.1 = true ∧ e.1 ∈ u ∧ (∀ p ∈ e.2, goodLogical p = true ∧ p ∉ seen) ∧ e.2.Nodup) ∧
        StateOK m u (e.2.reverse ++ seen) S := by
  unfold StateOK
  simp only [listed_cons, List.nodup_append, List.mem_cons, List.mem_append, List.mem_reverse, forall_eq_or_imp, not_or]
  constructor
  · rintro ⟨⟨⟨h1, h2⟩, h3⟩, h4, h5, h6, h7⟩
    exact ⟨⟨h1, h2, fun p hp => h4 p (Or.inl hp), h5⟩, h3,
      fun p hp => ⟨(h4 p (Or.inr hp)).1, fun h => h7 p h p hp rfl, (h4 p (Or.inr hp)).2⟩, h6⟩
  · rintro ⟨⟨h1, h2, h4, h5⟩, h3, h6, h7⟩
    refine ⟨⟨⟨h1, h2⟩, h3⟩, ?_, h5, h7, ?_⟩
    · rintro p (hp | hp)
      · exact h4 p hp
      · exact ⟨(h6 p hp).1, (h6 p hp).2.2⟩
    · rintro a ha b hb rfl; exact (h6 a hb).2.1 ha

theorem clean_stateDigests {m : Str → Bool} {alg : Json} {u : List Str} {s s' : (List Str × List Str) × List Str}
    {st : List (Str × Json)} :
    Clean (forM (stateDigest m alg (some u)) st s) s' ↔
      ∃ S : List (Str × List Str), st = encMap S ∧ StateOK m u s.1.1 S ∧
        s' = (((listed S).reverse ++ s.1.1, ((listed S).map ldirOf).reverse ++ s.1.2),
              s.2 ++ S.map (fun e => normalizedDigest e.1 (algName alg))) := by
  induction st generalizing s with
  | nil =>
    rw [clean_forM_nil]
    constructor
    · rintro rfl; exact ⟨[], rfl, by simp [StateOK, listed], by simp [listed]⟩
    · rintro ⟨S, h, _, rfl⟩
      cases S with
      | nil => simp [listed]
      | cons => cases h
  | cons e st ih =>
    rw [clean_forM_cons]
    simp only [clean_stateDigest, ih]
    constructor
    · rintro ⟨s1, ⟨ps, h1, h2, h3, h4, h5, rfl⟩, S, rfl, h6, rfl⟩
      refine ⟨(e.1, ps) :: S, ?_, stateOK_cons.mpr ⟨⟨h2, h3, h4, h5⟩, h6⟩, ?_⟩
      · simp only [encMap, List.map_cons, List.cons.injEq, and_true]
        rw [← h1]
      · simp [listed_cons]
    · rintro ⟨S, hS, h1, rfl⟩
      cases S with
      | nil => cases hS
      | cons e' S =>
        simp only [encMap, List.map_cons, List.cons.injEq] at hS
        obtain ⟨rfl, rfl⟩ := hS
        obtain ⟨⟨h2, h3, h4, h5⟩, h6⟩ := stateOK_cons.mp h1
        exact ⟨_, ⟨e'.2, rfl, h2, h3, h4, h5, rfl⟩, S, rfl, h6, by simp [listed_cons]⟩

theorem clean_validateStateBlock {lax : Bool} {alg : Json} {u : List Str} {j : Json} {r : List Str} :
    Clean (validateStateBlock lax alg (some u) j) r ↔
      ∃ S, j = ofDigestMap S ∧ (∃ m, Clean (digestMatcher lax alg) m) ∧ StateOK (digestTest (algName alg)) u [] S ∧
        (∀ d ∈ (listed S).map ldirOf, d ∉ listed S) ∧ r = S.map (fun e => normalizedDigest e.1 (algName alg)) := by
  cases j with
  | obj st =>
    unfold validateStateBlock
    simp only [clean_bind', clean_stateDigests, clean_conflicts, clean_ret, ofDigestMap_eq, Json.obj.injEq,
      exists_const]
    constructor
    · rintro ⟨m, hm, s, ⟨S, rfl, h1, rfl⟩, h2, rfl⟩
      have hm' := (clean_digestMatcher.mp hm).2.2.2
      subst hm'
      exact ⟨S, rfl, ⟨_, hm⟩, h1, by simpa using h2, by simp⟩
    · rintro ⟨S, rfl, ⟨m, hm⟩, h1, h2, rfl⟩
      have hm' := (clean_digestMatcher.mp hm).2.2.2
      subst hm'
      exact ⟨_, hm, _, ⟨S, rfl, h1, rfl⟩, by simpa using h2, by simp⟩
  | _ => simp [validateStateBlock, clean_bind', clean_err, ofDigestMap]

end Ocfl
