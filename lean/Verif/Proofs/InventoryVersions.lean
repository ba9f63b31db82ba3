import Verif.Proofs.VersionSequence

/-!
# Version blocks, use of digests, fixity, and the whole of `validate`, without errors
-/

namespace Ocfl
open IV V Spec

/-- The time stamp passes the checks of the code. -/
def goodCreated (t : Str) : Prop := (∃ r, strToDatetime t = .ok r) ∧ searchZone t = true ∧ searchTime t = true

theorem checkCreated_obj {j : Json} {u : Unit} (h : Clean (checkCreated j) u) : ∃ d, j = .obj d := by
  unfold checkCreated at h
  rw [clean_bind'] at h
  obtain ⟨b, hb, h⟩ := h
  cases b with
  | false => simp [clean_err] at h
  | true =>
    simp only [Bool.not_true, Bool.false_eq_true, if_false, clean_bind', clean_lift] at h
    obtain ⟨v, hv, h⟩ := h
    cases j with
    | obj d => exact ⟨d, rfl⟩
    | _ => cases hv

theorem clean_checkCreated {d : List (Str × Json)} {u : Unit} :
    Clean (checkCreated (.obj d)) u ↔ ∃ t, Dict.get? d c!"created" = some (.str t) ∧ goodCreated t := by
  unfold checkCreated
  rw [clean_field_not]
  simp only [clean_err, and_false, or_false]
  constructor
  · rintro ⟨v, hv, h⟩
    cases v with
    | str t =>
      refine ⟨t, hv, ?_⟩
      simp only at h
      split at h
      · simp [clean_err] at h
      · simp [clean_raise] at h
      · rename_i r hr
        simp only [clean_bind', clean_ite, clean_err, clean_ret, and_false, false_or, and_true, exists_const, false_and,
          true_and] at h
        exact ⟨⟨r, hr⟩, by simpa using h.1, by simpa using h.2⟩
    | _ => simp [clean_err] at h
  · rintro ⟨t, hv, ⟨r, hr⟩, h1, h2⟩
    exact ⟨_, hv, by simp [hr, h1, h2, clean_bind', clean_ret]⟩

theorem clean_checkMessage {d : List (Str × Json)} {u : Unit} :
    Clean (checkMessage (.obj d)) u ↔ ∀ x, Dict.get? d c!"message" = some x → ∃ s, x = .str s := by
  unfold checkMessage
  rw [clean_field_not]
  simp only [clean_warn, and_true]
  constructor
  · rintro (⟨v, hv, h⟩ | h) x hx
    · rw [hv] at hx; cases hx
      cases v with
      | str s => exact ⟨s, rfl⟩
      | _ => simp [clean_err] at h
    · rw [h] at hx; cases hx
  · intro h
    cases hg : Dict.get? d c!"message" with
    | none => exact Or.inr rfl
    | some x =>
      obtain ⟨s, rfl⟩ := h x hg
      exact Or.inl ⟨_, rfl, clean_ret.mpr rfl⟩

/-- The `user` value passes. -/
def goodUser (x : Json) : Prop :=
  ∃ u, x = .obj u ∧ (∃ n, Dict.get? u c!"name" = some (.str n)) ∧
    ∀ a, Dict.get? u c!"address" = some a → ∃ s, a = .str s

theorem clean_checkUser {isWord : Char → Bool} {d : List (Str × Json)} {u : Unit} :
    Clean (checkUser isWord (.obj d)) u ↔ ∀ x, Dict.get? d c!"user" = some x → goodUser x := by
  have hstr : ∀ (a : Json) (s : Str), a.str? = some s ↔ a = .str s := by
    intro a s; cases a <;> simp [Json.str?]
  unfold checkUser
  rw [clean_field_not]
  simp only [clean_warn, and_true]
  have key : ∀ x, Clean (match x with
      | .obj u => do
        match (Dict.get? u c!"name").bind Json.str? with
        | some _ => ret ()
        | none => err c!"E054b"
        match Dict.get? u c!"address" with
        | none => warn c!"W008"
        | some (.str a) => if !matchAddress isWord a then warn c!"W009" else ret ()
        | some _ => err c!"E054c"
      | _ => err c!"E054a") u ↔ goodUser x := by
    intro x
    cases x with
    | obj w =>
      have ha : ∀ u', Clean (match Dict.get? w c!"address" with
        | none => warn c!"W008"
        | some (.str a) => if !matchAddress isWord a then warn c!"W009" else ret ()
        | some _ => err c!"E054c") u' ↔ ∀ a, Dict.get? w c!"address" = some a → ∃ s, a = .str s := by
        intro u'
        cases Dict.get? w c!"address" with
        | none => simp [clean_warn]
        | some v =>
          cases v with
          | str a => by_cases hm : matchAddress isWord a = true <;> simp [hm, clean_warn, clean_ret]
          | _ => simp [clean_err]
      have hname : ∀ o : Option Json, (∃ v, (o.bind Json.str?) = some v) ↔ ∃ n, o = some (.str n) := by
        intro o
        cases o with
        | none => simp
        | some v => simp [hstr]
      simp only [goodUser, Json.obj.injEq, exists_eq_left']
      rw [← hname]
      cases hn : (Dict.get? w c!"name").bind Json.str? with
      | none => simp [clean_bind', clean_err]
      | some n => simpa [clean_bind', clean_ret] using ha u
    | _ => simp [clean_err, goodUser]
  constructor
  · rintro (⟨v, hv, h⟩ | h) x hx
    · rw [hv] at hx; cases hx
      exact (key _).mp h
    · rw [h] at hx; cases hx
  · intro h
    cases hg : Dict.get? d c!"user" with
    | none => exact Or.inr rfl
    | some x => exact Or.inl ⟨_, rfl, (key _).mpr (h x hg)⟩

/-- The version block `b` passes, and `S` is its state. -/
def goodVersion (lax : Bool) (alg : Json) (u : List Str) (b : List (Str × Json)) (S : List (Str × List Str)) : Prop :=
  (∃ t, Dict.get? b c!"created" = some (.str t) ∧ goodCreated t) ∧
  Dict.get? b c!"state" = some (ofDigestMap S) ∧ (∃ m, Clean (digestMatcher lax alg) m) ∧
  StateOK (digestTest (algName alg)) u [] S ∧ (∀ d ∈ (listed S).map ldirOf, d ∉ listed S) ∧
  (∀ x, Dict.get? b c!"message" = some x → ∃ s, x = .str s) ∧ (∀ x, Dict.get? b c!"user" = some x → goodUser x)

theorem clean_validateVersion {isWord : Char → Bool} {lax : Bool} {alg : Json} {u : List Str} {vs : List (Str × Json)}
    {used : List Str} {v : Str} {r : List Str} :
    Clean (validateVersion isWord lax alg (some u) (.obj vs) used v) r ↔
      ∃ b S, Dict.get? vs v = some (.obj b) ∧ goodVersion lax alg u b S ∧
        r = used ++ S.map (fun e => normalizedDigest e.1 (algName alg)) := by
  unfold validateVersion
  rw [clean_bind']
  constructor
  · rintro ⟨ver, hver, h⟩
    rw [clean_lift, pyIndex_obj] at hver
    cases hg : Dict.get? vs v with
    | none => rw [hg] at hver; cases hver
    | some w =>
      rw [hg] at hver
      cases hver
      rw [clean_unit_bind] at h
      obtain ⟨h1, h⟩ := h
      obtain ⟨b, rfl⟩ := checkCreated_obj h1
      rw [clean_checkCreated] at h1
      simp only [clean_bind', clean_lift, pyIn_obj, Except.ok.injEq, exists_eq_left', pyIndex_obj, clean_ite,
        clean_err, false_and, exists_false, and_false, or_false] at h
      obtain ⟨hs, st, hst, ds, hds, used', hu, ⟨⟩, hmsg, ⟨⟩, husr, hr⟩ := h
      rw [clean_ret] at hu hr
      subst hu hr
      cases hgs : Dict.get? b c!"state" with
      | none => rw [hgs] at hst; cases hst
      | some st' =>
        rw [hgs] at hst
        cases hst
        obtain ⟨S, rfl, hm, hok, hc, rfl⟩ := clean_validateStateBlock.mp hds
        exact ⟨b, S, rfl, ⟨h1, hgs, hm, hok, hc, clean_checkMessage.mp hmsg, clean_checkUser.mp husr⟩, rfl⟩
  · rintro ⟨b, S, hg, ⟨h1, h2, h3, h4, h5, h6, h7⟩, rfl⟩
    refine ⟨.obj b, by rw [clean_lift, pyIndex_obj, hg], ?_⟩
    rw [clean_unit_bind]
    refine ⟨clean_checkCreated.mpr h1, ?_⟩
    simp only [clean_bind', clean_lift, pyIn_obj, Except.ok.injEq, exists_eq_left', pyIndex_obj, clean_ite,
        clean_err, false_and, exists_false, and_false, or_false, h2]
    exact ⟨has_of_get h2, _, clean_validateStateBlock.mpr ⟨S, rfl, h3, h4, h5, rfl⟩, _, clean_ret.mpr rfl, (),
      clean_checkMessage.mpr h6, (), clean_checkUser.mpr h7, clean_ret.mpr rfl⟩

/-- The map from digests to paths that a JSON object stands for, when it does. -/
def decMap : Json → List (Str × List Str)
  | .obj d => d.map (fun e => (e.1, match e.2 with | .arr l => l.filterMap Json.str? | _ => []))
  | _ => []

theorem decMap_of (S : List (Str × List Str)) : decMap (ofDigestMap S) = S := by
  have h : ∀ l : List Str, (l.map Json.str).filterMap Json.str? = l := by
    intro l
    induction l with
    | nil => rfl
    | cons a l ih => rw [List.map_cons, List.filterMap_cons]; simp [Json.str?, ih]
  unfold ofDigestMap
  simp only [decMap]
  rw [List.map_map]
  refine (List.map_congr_left (g := id) ?_).trans (List.map_id _)
  intro e _
  simp only [Function.comp, id]
  rw [h]

theorem ofDigestMap_inj {S S' : List (Str × List Str)} (h : ofDigestMap S = ofDigestMap S') : S = S' := by
  rw [← decMap_of S, h, decMap_of]

/-- The state of version `v`, as far as there is one. -/
def stateOf (vs : List (Str × Json)) (v : Str) : List (Str × List Str) :=
  match Dict.get? vs v with
  | some (.obj b) => decMap ((Dict.get? b c!"state").getD .null)
  | _ => []

theorem stateOf_eq {vs b : List (Str × Json)} {v : Str} {S : List (Str × List Str)} (h : Dict.get? vs v = some (.obj b))
    (hs : Dict.get? b c!"state" = some (ofDigestMap S)) : stateOf vs v = S := by
  unfold stateOf
  rw [h]
  simp only [hs, Option.getD_some, decMap_of]

theorem clean_validateVersions {isWord : Char → Bool} {lax : Bool} {alg : Json} {u : List Str}
    {vs : List (Str × Json)} {vl : List Str} {r : List Str} :
    Clean (validateVersions isWord lax alg (some u) (.obj vs) vl) r ↔
      (∀ v ∈ vl, ∃ b, Dict.get? vs v = some (.obj b) ∧ goodVersion lax alg u b (stateOf vs v)) ∧
        r = vl.flatMap (fun v => (stateOf vs v).map (fun e => normalizedDigest e.1 (algName alg))) := by
  unfold validateVersions
  have key : ∀ used, Clean (forM (validateVersion isWord lax alg (some u) (.obj vs)) vl used) r ↔
      (∀ v ∈ vl, ∃ b, Dict.get? vs v = some (.obj b) ∧ goodVersion lax alg u b (stateOf vs v)) ∧
        r = used ++ vl.flatMap (fun v => (stateOf vs v).map (fun e => normalizedDigest e.1 (algName alg))) := by
    induction vl with
    | nil => intro used; rw [clean_forM_nil]; simp
    | cons v vl ih =>
      intro used
      rw [clean_forM_cons]
      simp only [clean_validateVersion, ih, List.mem_cons, forall_eq_or_imp, List.flatMap_cons]
      constructor
      · rintro ⟨s1, ⟨b, S, h1, h2, rfl⟩, h3, rfl⟩
        have hS := stateOf_eq h1 h2.2.1
        rw [hS]
        exact ⟨⟨⟨b, h1, h2⟩, h3⟩, by simp⟩
      · rintro ⟨⟨⟨b, h1, h2⟩, h3⟩, rfl⟩
        exact ⟨_, ⟨b, _, h1, h2, rfl⟩, h3, by simp⟩
  simpa using key []

/-! ## Manifest against versions -/

theorem clean_checkPathVersions {correct vl : List Str} {u : Unit} :
    Clean (checkPathVersions correct vl) u ↔ ∀ p ∈ correct, p.takeWhile (· ≠ '/') ∈ vl := by
  unfold checkPathVersions
  rw [clean_forM_unit]
  simp [clean_ite, clean_err, clean_ret]

theorem clean_checkDigestsUsed {files : Dict Str Str} {used : List Str} {u : Unit} :
    Clean (checkDigestsUsed files used) u ↔ ∀ d, d ∈ used ↔ d ∈ Dict.values files := by
  unfold checkDigestsUsed
  simp only [clean_bind', clean_ite, clean_err, clean_ret, and_false, false_or, and_true, exists_const, List.any_eq_true,
    false_and, true_and, decide_eq_true_eq, not_exists, not_and, Decidable.not_not]
  exact ⟨fun h d => ⟨h.1 d, h.2 d⟩, fun h => ⟨fun d => (h d).mp, fun d => (h d).mpr⟩⟩

/-! ## Fixity -/

theorem clean_fixityFile {mf : Dict Str Str} {f : Json} {u : Unit} :
    Clean (fixityFile (some mf) f) u ↔ ∃ p, f = .str p ∧ p ∈ Dict.keys mf := by
  cases f with
  | str p =>
    simp only [fixityFile, clean_ite, clean_err, clean_ret, and_false, or_false, and_true, Json.str.injEq,
      exists_eq_left', Dict.has_iff]
  | _ => simp [fixityFile, clean_err, clean_raise]

theorem clean_fixityFiles {mf : Dict Str Str} {fs : List Json} {u : Unit} :
    Clean (forM (fun _ f => fixityFile (some mf) f) fs ()) u ↔
      ∃ ps : List Str, fs = ps.map .str ∧ ∀ p ∈ ps, p ∈ Dict.keys mf := by
  rw [clean_forM_unit]
  simp only [clean_fixityFile]
  constructor
  · intro h
    induction fs with
    | nil => exact ⟨[], rfl, by simp⟩
    | cons f fs ih =>
      obtain ⟨p, rfl, hp⟩ := h f (List.mem_cons_self ..)
      obtain ⟨ps, rfl, hps⟩ := ih (fun x hx => h x (List.mem_cons_of_mem _ hx))
      refine ⟨p :: ps, rfl, ?_⟩
      intro q hq
      rcases List.mem_cons.mp hq with rfl | hq
      · exact hp
      · exact hps q hq
  · rintro ⟨ps, rfl, h⟩ x hx
    obtain ⟨p, hp, rfl⟩ := List.mem_map.mp hx
    exact ⟨p, rfl, h p hp⟩

/-- The normal form used in the fixity block. -/
def fixNorm (known : Bool) (alg d : Str) : Str := if known then normalizedDigest d alg else d

theorem clean_fixityDigests {m : Str → Bool} {known : Bool} {alg : Str} {mf : Dict Str Str} {seen seen' : List Str}
    {b : List (Str × Json)} :
    Clean (forM (fixityDigest m known alg (some mf)) b seen) seen' ↔
      ∃ F : List (Str × List Str), b = encMap F ∧ (∀ e ∈ F, m e.1 = true) ∧
        (F.map (fun e => fixNorm known alg e.1)).Nodup ∧ (∀ e ∈ F, fixNorm known alg e.1 ∉ seen) ∧
        (∀ p ∈ listed F, p ∈ Dict.keys mf) ∧ seen' = seen ++ F.map (fun e => fixNorm known alg e.1) := by
  induction b generalizing seen with
  | nil =>
    rw [clean_forM_nil]
    constructor
    · rintro rfl; exact ⟨[], rfl, by simp [listed]⟩
    · rintro ⟨S, h, _, _, _, _, rfl⟩
      cases S with
      | nil => simp
      | cons => cases h
  | cons e b ih =>
    rw [clean_forM_cons]
    have key : ∀ s1, Clean (fixityDigest m known alg (some mf) seen e) s1 ↔
        ∃ ps : List Str, e.2 = .arr (ps.map .str) ∧ m e.1 = true ∧ fixNorm known alg e.1 ∉ seen ∧
          (∀ p ∈ ps, p ∈ Dict.keys mf) ∧ s1 = seen ++ [fixNorm known alg e.1] := by
      intro s1
      obtain ⟨d, v⟩ := e
      unfold fixityDigest fixNorm
      by_cases ht : m d = true
      · simp only [ht, Bool.not_true, Bool.false_eq_true, if_false, true_and]
        cases v with
        | arr fs =>
          simp only [clean_bind', clean_ite, clean_err, false_and, exists_false, and_false, false_or, clean_ret,
            exists_eq_left, clean_fixityFiles, Json.arr.injEq, exists_const]
          constructor
          · rintro ⟨h1, ⟨ps, rfl, h2⟩, rfl⟩
            exact ⟨ps, rfl, h1, h2, rfl⟩
          · rintro ⟨ps, rfl, h1, h2, rfl⟩
            exact ⟨h1, ⟨ps, rfl, h2⟩, rfl⟩
        | _ => simp [clean_bind', clean_err]
      · simp [ht, clean_bind', clean_err]
    simp only [key, ih]
    constructor
    · rintro ⟨s1, ⟨ps, h1, h2, h3, h4, rfl⟩, F, rfl, h5, h6, h7, h8, rfl⟩
      refine ⟨(e.1, ps) :: F, ?_, ?_, ?_, ?_, ?_, ?_⟩
      · simp only [encMap, List.map_cons, List.cons.injEq, and_true]
        rw [← h1]
      · intro x hx
        rcases List.mem_cons.mp hx with rfl | hx
        · exact h2
        · exact h5 x hx
      · rw [List.map_cons, List.nodup_cons]
        refine ⟨fun h => ?_, h6⟩
        obtain ⟨x, hx, hxe⟩ := List.mem_map.mp h
        exact h7 x hx (by rw [hxe]; simp)
      · intro x hx
        rcases List.mem_cons.mp hx with rfl | hx
        · exact h3
        · exact fun h => h7 x hx (List.mem_append_left _ h)
      · intro p hp
        rw [listed_cons] at hp
        rcases List.mem_append.mp hp with hp | hp
        · exact h4 p hp
        · exact h8 p hp
      · simp
    · rintro ⟨S, hS, h1, h2, h3, h4, rfl⟩
      cases S with
      | nil => cases hS
      | cons e' S =>
        simp only [encMap, List.map_cons, List.cons.injEq] at hS
        obtain ⟨rfl, rfl⟩ := hS
        rw [List.map_cons, List.nodup_cons] at h2
        refine ⟨_, ⟨e'.2, rfl, h1 e' (List.mem_cons_self ..), h3 e' (List.mem_cons_self ..),
            fun p hp => h4 p (by rw [listed_cons]; exact List.mem_append_left _ hp), rfl⟩, S, rfl,
          fun x hx => h1 x (List.mem_cons_of_mem _ hx), h2.2, ?_, ?_, by simp⟩
        · intro x hx h
          rcases List.mem_append.mp h with h | h
          · exact h3 x (List.mem_cons_of_mem _ hx) h
          · rw [List.mem_singleton] at h
            exact h2.1 (List.mem_map.mpr ⟨x, hx, h⟩)
        · exact fun p hp => h4 p (by rw [listed_cons]; exact List.mem_append_right _ hp)

/-- One algorithm of the fixity block passes. -/
def goodFixity (lax : Bool) (mf : Dict Str Str) (e : Str × Json) : Prop :=
  (lax = true ∨ (digestRegex e.1).isSome = true) ∧
  ∃ F : List (Str × List Str), e.2 = ofDigestMap F ∧ (∀ x ∈ F, digestTest e.1 x.1 = true) ∧
    (F.map (fun x => fixNorm (digestRegex e.1).isSome e.1 x.1)).Nodup ∧ (∀ p ∈ listed F, p ∈ Dict.keys mf)

theorem clean_fixityAlgorithm {lax : Bool} {mf : Dict Str Str} {e : Str × Json} {u : Unit} :
    Clean (fixityAlgorithm lax (some mf) e) u ↔ goodFixity lax mf e := by
  obtain ⟨alg, v⟩ := e
  have key : ∀ m known, Clean (fixityBlock m known alg (some mf) v) u ↔ ∃ F : List (Str × List Str), v = ofDigestMap F ∧ (∀ x ∈ F, m x.1 = true) ∧
        (F.map (fun x => fixNorm known alg x.1)).Nodup ∧ (∀ p ∈ listed F, p ∈ Dict.keys mf) := by
    intro m known
    unfold fixityBlock
    cases v with
    | obj b =>
      simp only [clean_bind', clean_fixityDigests, clean_ret, and_true, ofDigestMap_eq, Json.obj.injEq]
      constructor
      · rintro ⟨_, F, rfl, h1, h2, _, h3, rfl⟩
        exact ⟨F, rfl, h1, h2, h3⟩
      · rintro ⟨F, rfl, h1, h2, h3⟩
        exact ⟨_, F, rfl, h1, h2, by simp, h3, rfl⟩
    | _ => simp [clean_err, ofDigestMap]
  unfold fixityAlgorithm goodFixity digestTest
  cases hd : digestRegex alg with
  | none =>
    cases lax with
    | false => simp [clean_err]
    | true => simpa using key matchAny false
  | some m => simpa using key m true

theorem clean_validateFixity {lax : Bool} {spec : Str} {mf : Dict Str Str} {j : Json} {u : Unit} :
    Clean (validateFixity lax spec (some mf) j) u ↔ ∃ fx, j = .obj fx ∧ ∀ e ∈ fx, goodFixity lax mf e := by
  cases j with
  | obj fx =>
    simp only [validateFixity, clean_forM_unit, clean_fixityAlgorithm, Json.obj.injEq, exists_eq_left']
  | _ => simp [validateFixity, clean_err]

end Ocfl
