import Verif.Proofs.Sidecar
import Verif.Proofs.InventoryIff
import Verif.Proofs.PriorVersion
import Verif.Proofs.Namaste
import Verif.Proofs.Extract
import Verif.Proofs.AddSource
import Verif.Spec.ValidObject

/-!
# The steps of object validation: when they pass
-/

namespace Ocfl

open Spec FS

namespace W

variable {α β σ : Type}

/-- The step raises nothing, logs no error and gives `a`. -/
def Pass (m : W α) (a : α) : Prop := ∃ es, m = .done a es ∧ IV.numErrors es = 0

theorem pass_ret {a b : α} : Pass (ret a) b ↔ b = a := by
  constructor
  · rintro ⟨es, h, _⟩
    cases h; rfl
  · rintro rfl
    exact ⟨[], rfl, rfl⟩

theorem pass_after {es : List Entry} {m : W α} {a : α} : Pass (after es m) a ↔ IV.numErrors es = 0 ∧ Pass m a := by
  cases m with
  | done x es' =>
    constructor
    · rintro ⟨es1, h, h0⟩
      cases h
      rw [numErrors_append] at h0
      exact ⟨by omega, es', rfl, by omega⟩
    · rintro ⟨h0, es1, h, h1⟩
      cases h
      exact ⟨_, rfl, by rw [numErrors_append]; omega⟩
  | abort es' =>
    constructor
    · rintro ⟨_, h, _⟩; cases h
    · rintro ⟨_, _, h, _⟩; cases h
  | raised e =>
    constructor
    · rintro ⟨_, h, _⟩; cases h
    · rintro ⟨_, _, h, _⟩; cases h

theorem pass_bind {m : W α} {f : α → W β} {b : β} : Pass (W.bind m f) b ↔ ∃ a, Pass m a ∧ Pass (f a) b := by
  cases m with
  | done a es =>
    show Pass (after es (f a)) b ↔ _
    rw [pass_after]
    constructor
    · rintro ⟨h0, h⟩
      exact ⟨a, ⟨es, rfl, h0⟩, h⟩
    · rintro ⟨a', ⟨es', h, h0⟩, h1⟩
      cases h
      exact ⟨h0, h1⟩
  | abort es' =>
    constructor
    · rintro ⟨_, h, _⟩; cases h
    · rintro ⟨_, ⟨_, h, _⟩, _⟩; cases h
  | raised e =>
    constructor
    · rintro ⟨_, h, _⟩; cases h
    · rintro ⟨_, ⟨_, h, _⟩, _⟩; cases h

theorem pass_unit_bind {m : W Unit} {f : Unit → W β} {b : β} : Pass (W.bind m f) b ↔ Pass m () ∧ Pass (f ()) b := by
  rw [pass_bind]
  exact ⟨fun ⟨_, h1, h2⟩ => ⟨h1, h2⟩, fun ⟨h1, h2⟩ => ⟨(), h1, h2⟩⟩

theorem pass_err {c : Str} {u : Unit} : Pass (err c) u ↔ False := by
  constructor
  · rintro ⟨es, h, h0⟩
    cases h
    cases h0
  · exact False.elim

theorem pass_warn {c : Str} {u : Unit} : Pass (warn c) u ↔ True := ⟨fun _ => trivial, fun _ => ⟨_, rfl, rfl⟩⟩

theorem pass_errUnless {c : Bool} {code : Str} {u : Unit} : Pass (errUnless c code) u ↔ c = true := by
  unfold errUnless
  cases c
  · simp [pass_err]
  · simp [pass_ret]

theorem pass_py {x : Py α} {a : α} : Pass (py x) a ↔ x = .ok a := by
  unfold py
  cases x with
  | error e =>
    constructor
    · rintro ⟨_, h, _⟩; cases h
    · intro h; cases h
  | ok y =>
    constructor
    · rintro ⟨_, h, _⟩; cases h; rfl
    · intro h; cases h; exact ⟨_, rfl, rfl⟩

theorem pass_log {es : List Entry} {u : Unit} : Pass (log es) u ↔ IV.numErrors es = 0 :=
  ⟨fun ⟨_, h, h0⟩ => by cases h; exact h0, fun h => ⟨es, rfl, h⟩⟩

theorem pass_ite {p : Prop} [Decidable p] {m m' : W α} {a : α} :
    Pass (if p then m else m') a ↔ (p ∧ Pass m a) ∨ (¬ p ∧ Pass m' a) := by
  by_cases h : p <;> simp [h]

theorem pass_raised {e : PyErr} {a : α} : Pass (.raised e) a ↔ False :=
  ⟨fun ⟨_, h, _⟩ => (by cases h), False.elim⟩

theorem pass_abort {es : List Entry} {a : α} : Pass (.abort es) a ↔ False :=
  ⟨fun ⟨_, h, _⟩ => (by cases h), False.elim⟩

theorem pass_forEach {body : α → W Unit} {l : List α} {u : Unit} : Pass (forEach body l) u ↔ ∀ x ∈ l, Pass (body x) () := by
  induction l with
  | nil => simp [forEach, pass_ret]
  | cons x xs ih =>
    show Pass (W.bind (body x) fun _ => forEach body xs) u ↔ _
    rw [pass_unit_bind, ih]
    simp

theorem pass_forM_nil {body : σ → α → W σ} {st st' : σ} : Pass (forM body [] st) st' ↔ st' = st := pass_ret

theorem pass_forM_cons {body : σ → α → W σ} {x : α} {l : List α} {st st' : σ} :
    Pass (forM body (x :: l) st) st' ↔ ∃ st1, Pass (body st x) st1 ∧ Pass (forM body l st1) st' := pass_bind

end W

/-! ## The declaration -/

namespace Validator

open W (Pass pass_ret pass_after pass_bind pass_unit_bind pass_err pass_warn pass_errUnless pass_py pass_log pass_ite
  pass_raised pass_abort pass_forEach pass_forM_nil pass_forM_cons)

theorem declVersion_some {t v : Str} : declVersion t = some v ↔ v ∈ Spec.supported ∧ t = c!"ocfl_object_" ++ v := by
  unfold declVersion
  have key : ∀ w : Str, namasteFilename 0 t = c!"0=ocfl_object_" ++ w ↔ t = c!"ocfl_object_" ++ w := by
    intro w
    unfold namasteFilename
    constructor
    · intro h
      have : c!"0=" ++ t = c!"0=" ++ (c!"ocfl_object_" ++ w) := h
      exact List.append_cancel_left this
    · rintro rfl
      rfl
  have hs : IV.specVersionsSupported = [c!"1.0", c!"1.1"] := rfl
  rw [hs]
  simp only [List.find?_cons, List.find?_nil, key]
  by_cases h0 : t = c!"ocfl_object_" ++ c!"1.0"
  · subst h0
    simp only [decide_true, Option.some.injEq]
    constructor
    · rintro rfl
      exact ⟨by decide, rfl⟩
    · rintro ⟨_, h⟩
      exact List.append_cancel_left h
  · by_cases h1 : t = c!"ocfl_object_" ++ c!"1.1"
    · subst h1
      simp only [h0, decide_false, decide_true, Option.some.injEq]
      constructor
      · rintro rfl
        exact ⟨by decide, rfl⟩
      · rintro ⟨_, h⟩
        exact List.append_cancel_left h
    · simp only [h0, h1, decide_false]
      constructor
      · intro h; cases h
      · rintro ⟨hm, rfl⟩
        have : v = c!"1.0" ∨ v = c!"1.1" := by simpa [Spec.supported] using hm
        rcases this with rfl | rfl
        · exact absurd rfl h0
        · exact absurd rfl h1

theorem contentOk_true {isWord : Char → Bool} {s : FS} {base : Path} {t : Str} (ht : '/' ∉ t) (hne : t ≠ []) :
    namasteContentOk isWord s base 0 t [] = .ok true ↔
      ∃ b text, look s (base ++ [c!"0=" ++ t]) = some (.file b) ∧ utf8Decode b = some text ∧ IsTvalue isWord (univNewlines text) t := by
  have h1 : namasteContentOk isWord s base 0 t [] = .ok true ↔ namasteCheck isWord s base 0 t [] = .ok () := by
    unfold namasteContentOk
    split
    · simp_all
    · simp_all
    · rename_i e h1 h2
      rw [h2]
      simp
  rw [h1]
  have hr : FS.resolve base (osPathJoin [] (namasteFilename 0 t)) = base ++ [c!"0=" ++ t] := by
    rw [osPathJoin_nil]
    refine resolve_name _ ?_
    refine ⟨by simp [namasteFilename, natStr], ?_, ?_, ?_⟩
    · simp [namasteFilename, natStr]
    · simp [namasteFilename, natStr]
    · unfold namasteFilename natStr
      simpa using ht
  unfold namasteCheck readText FS.read
  rw [hr, if_neg hne]
  cases hl : look s (base ++ [c!"0=" ++ t]) with
  | none =>
    simp only
    split <;> simp_all
  | some nd =>
    cases nd with
    | dir => simp
    | file b =>
      simp only [Option.some.injEq, Node.file.injEq]
      cases hd : utf8Decode b with
      | none => simp [hd]
      | some text =>
        simp only [isTvalue_iff]
        constructor
        · intro h
          refine ⟨b, text, rfl, hd, ?_⟩
          split at h
          · cases h
          · rename_i hn
            exact (not_not.mp hn).symm
        · rintro ⟨b', text', rfl, hd', ht'⟩
          rw [hd] at hd'; cases hd'
          rw [if_neg (by simpa using ht'.symm)]

/-- The loop over the declarations passes and gives a version. -/
theorem pass_declStep {E : Env} {s : FS} {base : Path} {sv r : Option Str} {t : Str} :
    Pass (declStep E s base sv t) r ↔ ∃ v, declVersion t = some v ∧
      ((sv = none ∨ NV.strLt (sv.getD []) v = true) ∧ namasteContentOk E.isWord s base 0 t [] = .ok true ∧ r = some v ∨
        ¬ (sv = none ∨ NV.strLt (sv.getD []) v = true) ∧ r = sv) := by
  unfold declStep
  cases hd : declVersion t with
  | none => simp [pass_unit_bind, pass_err]
  | some v =>
    simp only [pass_ite, pass_bind, pass_py, pass_errUnless, pass_ret]
    constructor
    · rintro (⟨h1, ok, h2, u, rfl, h3⟩ | h)
      · exact ⟨v, rfl, .inl ⟨h1, h2, h3⟩⟩
      · exact ⟨v, rfl, .inr h⟩
    · rintro ⟨v', hv, h⟩
      cases hv
      rcases h with ⟨h1, h2, h3⟩ | h
      · exact .inl ⟨h1, true, h2, (), rfl, h3⟩
      · exact .inr h

theorem pass_checkDeclaration {E : Env} {cfg : Config} {s : FS} {base : Path} {tvalues : List Str} {spec : Str} :
    Pass (checkDeclaration E cfg s base tvalues) spec ↔
      spec ∈ Spec.supported ∧ tvalues = [c!"ocfl_object_" ++ spec] ∧
        namasteContentOk E.isWord s base 0 (c!"ocfl_object_" ++ spec) [] = .ok true := by
  unfold checkDeclaration
  simp only [pass_ite, pass_bind, pass_err]
  constructor
  · rintro (⟨_, _, h, _⟩ | ⟨hne, sv, h1, h2⟩)
    · exact h.elim
    · cases sv with
      | none => simp [pass_unit_bind, pass_err] at h2
      | some v =>
        simp only [pass_unit_bind, pass_errUnless, pass_ret, decide_eq_true_eq] at h2
        obtain ⟨hlen, rfl⟩ := h2
        match tvalues, hne, hlen with
        | [t], _, _ =>
          rw [pass_forM_cons] at h1
          obtain ⟨st1, h1, h3⟩ := h1
          rw [pass_forM_nil] at h3
          subst h3
          obtain ⟨v, hv, h⟩ := pass_declStep.mp h1
          obtain ⟨hv1, rfl⟩ := declVersion_some.mp hv
          rcases h with ⟨_, h, h3⟩ | ⟨h, _⟩
          · cases h3
            exact ⟨hv1, rfl, h⟩
          · exact absurd (.inl rfl) h
  · rintro ⟨h1, rfl, h2⟩
    refine .inr ⟨by simp, some spec, ?_, ?_⟩
    · rw [pass_forM_cons]
      refine ⟨some spec, ?_, pass_forM_nil.mpr rfl⟩
      exact pass_declStep.mpr ⟨spec, declVersion_some.mpr ⟨h1, rfl⟩, .inl ⟨.inl rfl, h2, rfl⟩⟩
    · simp [pass_unit_bind, pass_errUnless, pass_ret]

/-! ## An inventory -/

theorem body_false {isWord : Char → Bool} {lax : Bool} {ds : Str} {force : Option Str} {j : Json} {res : IV.Result}
    (h : Clean (IV.validateBody isWord lax ds force j) (res, false)) : res.allVersions = [] := by
  unfold IV.validateBody at h
  simp only [clean_bind'] at h
  obtain ⟨idv, _, spec, _, a, _, h⟩ := h
  cases a with
  | none =>
    rw [clean_ret] at h
    obtain ⟨rfl, _⟩ := Prod.mk.inj h
    rfl
  | some alg =>
    simp only [clean_bind'] at h
    obtain ⟨cd, _, h⟩ := h
    unfold IV.validateRest at h
    simp only [clean_bind'] at h
    obtain ⟨man, _, vu, _, hd, _, h⟩ := h
    rw [clean_ite] at h
    rcases h with ⟨h0, h⟩ | ⟨_, h⟩
    · rw [clean_ret] at h
      obtain ⟨rfl, _⟩ := Prod.mk.inj h
      simpa using h0
    · simp only [clean_bind', clean_ret, Prod.mk.injEq] at h
      obtain ⟨_, _, _, _, _, h⟩ := h
      cases h

theorem pass_validateInventory {E : Env} {cfg : Config} {spec : Str} {s : FS} {base : Path} {file : Str} {p : Path}
    (hp : FS.resolve base file = p) {j : Json} {res : IV.Result} :
    Pass (validateInventory E cfg spec s base file) (j, res) ↔
      StoredJson E.lib s p j ∧ Clean (IV.validateBody E.isWord cfg.lax spec none j) (res, true) := by
  subst hp
  have key : ∀ j', StoredJson E.lib s (FS.resolve base file) j' ↔
      ∃ text, readText s (FS.resolve base file) = .ok text ∧ E.lib.loads text = some j' := by
    intro j'
    unfold StoredJson readText FS.read
    cases hl : look s (FS.resolve base file) with
    | none => simp
    | some nd =>
      cases nd with
      | dir => simp
      | file b =>
        cases hd : utf8Decode b with
        | none => simp [hd]
        | some t =>
          simp only [Option.some.injEq, Node.file.injEq, hd, Except.ok.injEq]
          constructor
          · rintro ⟨b', t', rfl, h1, h2⟩
            rw [hd] at h1; cases h1
            exact ⟨_, rfl, h2⟩
          · rintro ⟨_, rfl, h⟩
            exact ⟨b, t, rfl, hd, h⟩
  rw [key]
  unfold validateInventory
  cases hr : readText s (FS.resolve base file) with
  | error e =>
    constructor
    · intro h
      cases e <;> first | exact (pass_abort.mp h).elim | exact (pass_raised.mp h).elim
    · rintro ⟨⟨_, h, _⟩, _⟩
      cases h
  | ok text =>
    dsimp only
    cases hl : E.lib.loads text with
    | none =>
      constructor
      · intro h; exact (pass_abort.mp h).elim
      · rintro ⟨⟨_, h, h'⟩, _⟩
        cases h
        rw [hl] at h'; cases h'
    | some j1 =>
      dsimp only
      constructor
      · intro h
        cases hv : IV.validate E.isWord cfg.lax spec none j1 with
        | error e => rw [hv] at h; exact (pass_raised.mp h).elim
        | ok r =>
          obtain ⟨res1, ok, es⟩ := r
          rw [hv] at h
          obtain ⟨es', h, h0⟩ := h
          cases h
          refine ⟨⟨text, rfl, hl⟩, ?_⟩
          unfold IV.validate at hv
          split at hv
          · cases hv
          · rename_i r1 es1 hb
            simp only [Except.ok.injEq, Prod.mk.injEq] at hv
            obtain ⟨rfl, _, rfl⟩ := hv
            exact ⟨_, hb, h0⟩
          · rename_i r1 es1 hb
            simp only [Except.ok.injEq, Prod.mk.injEq] at hv
            obtain ⟨rfl, _, hes⟩ := hv
            split at hes
            · subst hes
              rw [numErrors_append] at h0
              have : IV.numErrors [(⟨true, c!"E008"⟩ : Entry)] = 1 := rfl
              omega
            · rename_i hn
              subst hes
              exact absurd ⟨body_false ⟨_, hb, h0⟩, h0⟩ hn
      · rintro ⟨⟨_, h, h'⟩, es, hb, h0⟩
        cases h
        rw [hl] at h'; cases h'
        have : IV.validate E.isWord cfg.lax spec none j = .ok (res, true, es) := by
          unfold IV.validate
          rw [hb]
          simp [h0]
        rw [this]
        exact ⟨es, rfl, h0⟩

/-- What an accepted inventory says, and the attributes of its validator. -/
structure Says (j : Json) (res : IV.Result) (idv sp alg : Str) (cd : Option Str) (m : List (Str × List Str))
    (vs : List (Str × Json)) (states : Str → List (Str × List Str)) (style : Option Nat) (n : Nat) : Prop where
  rules : RulesWith false none j (.str alg) (cd.getD c!"content") m vs states style n
  id : Member j c!"id" (.str idv)
  spec : InventorySpec j sp
  contentDirectory : (∃ c, cd = some c ∧ Member j c!"contentDirectory" (.str c)) ∨
    (cd = none ∧ ∀ x, ¬ Member j c!"contentDirectory" x)
  result : res = resultFor idv sp (.str alg) cd m style n

theorem inventorySpec_iff {d : List (Str × Json)} (hk : Dict.NK d) {t sp : Str} (ht : Dict.get? d c!"type" = some (.str t)) :
    InventorySpec (.obj d) sp ↔ sp ∈ Spec.supported ∧ Inv.matchSpecVersion t = some sp := by
  unfold InventorySpec
  constructor
  · rintro ⟨h, c, rest, hc, hm⟩
    rw [member_iff hk, ht] at hm
    exact ⟨h, (matchSpecVersion_supported h).mpr ⟨c, rest, hc, Json.str.inj (Option.some.inj hm)⟩⟩
  · rintro ⟨h, hm⟩
    obtain ⟨c, rest, hc, h1⟩ := (matchSpecVersion_supported h).mp hm
    refine ⟨h, c, rest, hc, ?_⟩
    rw [member_iff hk, ht, h1]

theorem clean_says {isWord : Char → Bool} {ds : Str} {j : Json} (hwf : j.WF) {res : IV.Result} :
    Clean (IV.validateBody isWord false ds none j) (res, true) ↔ ∃ idv sp alg cd m vs states style n, Says j res idv sp alg cd m vs states style n := by
  constructor
  · intro h
    have hobj : ∃ d, j = .obj d := by
      unfold IV.validateBody at h
      rw [clean_bind'] at h
      obtain ⟨a, h1, _⟩ := h
      exact checkId_obj h1
    obtain ⟨d, rfl⟩ := hobj
    obtain ⟨hk, _⟩ := wf_obj hwf
    obtain ⟨idv, t, spec, alg, cd, m, vs, states, style, n, hr, hid, ht, hs, hcd, hres⟩ := (body_iff hwf).mp h
    obtain ⟨a, rfl⟩ : ∃ a, alg = .str a := by
      have := hr.digestAlgorithm.2
      simp only [AlgRule, Bool.false_eq_true, if_false] at this
      rcases this with h | h <;> exact ⟨_, h⟩
    refine ⟨idv, spec, a, cd, m, vs, states, style, n, hr, (member_iff hk).mpr hid, ?_, ?_, hres⟩
    · rw [inventorySpec_iff hk ht]
      refine ⟨?_, hs⟩
      obtain ⟨t', ht', htr⟩ := hr.type
      rw [member_iff hk, ht] at ht'
      cases ht'
      obtain ⟨_, v, hv, hv'⟩ := typeRule_iff.mp htr
      rw [hs] at hv
      cases hv
      exact hv'
    · rcases hcd with ⟨c, h1, _, _, _, rfl⟩ | ⟨h1, rfl⟩
      · exact .inl ⟨c, rfl, (member_iff hk).mpr h1⟩
      · refine .inr ⟨rfl, fun x hx => ?_⟩
        rw [member_iff hk, h1] at hx
        cases hx
  · rintro ⟨idv, sp, alg, cd, m, vs, states, style, n, hr, hid, hs, hcd, hres⟩
    obtain ⟨d, rfl, hidm⟩ := hid
    obtain ⟨hk, _⟩ := wf_obj hwf
    obtain ⟨t, ht, _⟩ := hr.type
    refine (body_iff hwf).mpr ⟨idv, t, sp, .str alg, cd, m, vs, states, style, n, hr, ?_, (member_iff hk).mp ht,
      ((inventorySpec_iff hk ((member_iff hk).mp ht)).mp hs).2, ?_, hres⟩
    · exact Dict.get?_of_mem hk hidm
    · have hc := hr.contentDirectory
      rcases hcd with ⟨c, rfl, h1⟩ | ⟨rfl, h1⟩
      · rcases hc with ⟨_, h2, h3, h4⟩ | ⟨h2, _⟩
        · exact .inl ⟨c, (member_iff hk).mp h1, h2, h3, h4, rfl⟩
        · exact absurd h1 (h2 _)
      · refine .inr ⟨?_, rfl⟩
        cases hg : Dict.get? d c!"contentDirectory" with
        | none => rfl
        | some x => exact absurd ((member_iff hk).mpr hg) (h1 x)

/-! ## The sidecar -/

/-- The line taken apart. -/
theorem matchSidecar_iff {isWord : Char → Bool} (hblank : ∀ c, Blank c → isWord c = false) {line d name : Str} :
    matchSidecar isWord line = some (d, name) ↔ ∃ gap tail, line = d ++ gap ++ name ++ tail ∧ d ≠ [] ∧ (∀ c ∈ d, isWord c = true) ∧
      gap ≠ [] ∧ (∀ c ∈ gap, Blank c) ∧ name ≠ [] ∧ (∀ c ∈ name, ¬ Blank c) ∧ (∀ c ∈ tail, Blank c) := by
  unfold matchSidecar
  dsimp only
  constructor
  · intro h
    split at h
    · rename_i hc
      obtain ⟨h1, h2, h3, h4⟩ := hc
      cases h
      refine ⟨(line.dropWhile isWord).takeWhile isSpace, ((line.dropWhile isWord).dropWhile isSpace).dropWhile (fun c => !isSpace c),
        ?_, h1, ?_, h2, ?_, h3, ?_, ?_⟩
      · rw [List.append_assoc, List.append_assoc, List.takeWhile_append_dropWhile, List.takeWhile_append_dropWhile,
          List.takeWhile_append_dropWhile]
      · intro c hc
        exact List.mem_takeWhile_imp hc
      · intro c hc
        exact isSpace_iff.mp (List.mem_takeWhile_imp hc)
      · intro c hc
        have := List.mem_takeWhile_imp hc
        rw [← isSpace_iff]
        simpa using this
      · intro c hc
        have h5 : ∀ (l : Str), l.dropWhile isSpace = [] → ∀ c ∈ l, isSpace c = true := by
          intro l
          induction l with
          | nil => simp
          | cons a l ih =>
            intro h c hc
            rw [List.dropWhile_cons] at h
            split at h
            · rename_i ha
              rcases List.mem_cons.mp hc with rfl | hc
              · exact ha
              · exact ih h c hc
            · cases h
        exact isSpace_iff.mp (h5 _ h4 c hc)
    · cases h
  · rintro ⟨gap, tail, rfl, h1, h2, h3, h4, h5, h6, h7⟩
    obtain ⟨g, gap, rfl⟩ : ∃ g l, gap = g :: l := List.exists_cons_of_ne_nil h3
    obtain ⟨x, name, rfl⟩ : ∃ x l, name = x :: l := List.exists_cons_of_ne_nil h5
    have e1 := span_at (p := isWord) (a := d) (x := g) (b := gap ++ (x :: name) ++ tail) h2 (hblank _ (h4 g (by simp)))
    have e2 := span_at (p := isSpace) (a := g :: gap) (x := x) (b := name ++ tail) (fun c hc => isSpace_iff.mpr (h4 c hc))
      (by
        have := h6 x (by simp)
        rw [← isSpace_iff] at this
        simpa using this)
    have e3 : ((x :: name) ++ tail).takeWhile (fun c => !isSpace c) = x :: name ∧
        ((x :: name) ++ tail).dropWhile (fun c => !isSpace c) = tail := by
      have hn : ∀ c ∈ x :: name, (!isSpace c) = true := by
        intro c hc
        have := h6 c hc
        rw [← isSpace_iff] at this
        simpa using this
      cases tail with
      | nil =>
        rw [List.append_nil]
        exact ⟨List.takeWhile_eq_self_iff.mpr hn, List.dropWhile_eq_nil_iff.mpr hn⟩
      | cons y tail =>
        exact span_at (p := fun c => !isSpace c) hn (by
          have := isSpace_iff.mpr (h7 y (by simp))
          simp [this])
    have el : d ++ (g :: gap) ++ (x :: name) ++ tail = d ++ g :: (gap ++ (x :: name) ++ tail) := by simp
    have el2 : g :: (gap ++ (x :: name) ++ tail) = (g :: gap) ++ x :: (name ++ tail) := by simp
    rw [el, e1.1, e1.2, el2, e2.1, e2.2]
    have el3 : x :: (name ++ tail) = (x :: name) ++ tail := by simp
    rw [el3, e3.1, e3.2]
    have ht : tail.dropWhile isSpace = [] := List.dropWhile_eq_nil_iff.mpr (fun c hc => isSpace_iff.mpr (h7 c hc))
    rw [if_pos ⟨h1, by simp, by simp, ht⟩]

theorem blank_newline : Blank '\n' := by unfold Blank; decide

/-- Reading the digest from the text of a sidecar. -/
theorem sidecarText_iff {isWord : Char → Bool} (hw : WordClass isWord) (hblank : ∀ c, Blank c → isWord c = false) {text d : Str} :
    matchSidecar isWord (readline text) = some (d, c!"inventory.json") ↔ SidecarText isWord text d := by
  rw [matchSidecar_iff hblank]
  unfold SidecarText readline
  have hwn : isWord '\n' = false := by rw [hw '\n' (by decide)]; decide
  have hname : '\n' ∉ c!"inventory.json" := by decide
  constructor
  · rintro ⟨gap, tail, h, h1, h2, h3, h4, h5, h6, h7⟩
    have hsplit : text.takeWhile (· ≠ '\n') ++ text.dropWhile (· ≠ '\n') = text := List.takeWhile_append_dropWhile
    have hnl : '\n' ∉ text.takeWhile (· ≠ '\n') := by
      intro h
      have := List.mem_takeWhile_imp h
      simp at this
    have hrest : text.dropWhile (· ≠ '\n') = [] ∨ ∃ r, text.dropWhile (· ≠ '\n') = '\n' :: r := by
      cases hd : text.dropWhile (· ≠ '\n') with
      | nil => exact .inl rfl
      | cons a r =>
        have := List.head?_dropWhile_not (fun c : Char => decide (c ≠ '\n')) text
        rw [hd] at this
        right
        refine ⟨r, ?_⟩
        have : a = '\n' := by simpa using this
        rw [this]
    have hN : ∃ N : Str, (N = [] ∨ N = ['\n']) ∧ text.takeWhile (· ≠ '\n') ++ N = d ++ gap ++ c!"inventory.json" ++ tail := by
      split at h
      · exact ⟨_, .inr rfl, h⟩
      · exact ⟨_, .inl rfl, h⟩
    clear h
    generalize text.takeWhile (· ≠ '\n') = A at *
    generalize text.dropWhile (· ≠ '\n') = R at *
    obtain ⟨N, hN, h⟩ := hN
    have hNlen : N.length ≤ 1 := by rcases hN with rfl | rfl <;> simp
    rw [List.append_assoc (d ++ gap)] at h
    rcases List.append_eq_append_iff.mp h with ⟨a', e1, e2⟩ | ⟨a', e1, e2⟩
    · exfalso
      have := congrArg List.length e2
      simp at this
      omega
    · -- `A = d ++ gap ++ a'`
      have hA := e1
      rcases List.append_eq_append_iff.mp e2 with ⟨c', f1, f2⟩ | ⟨c', f1, f2⟩
      · refine ⟨gap, c', R, ?_, h1, h2, h3, ?_, ?_, hrest⟩
        · rw [← hsplit, hA, f1]
          simp
        · intro c hc
          refine ⟨h4 c hc, ?_⟩
          rintro rfl
          exact hnl (by rw [hA]; simp [hc])
        · intro c hc
          refine ⟨h7 c (by rw [f2]; simp [hc]), ?_⟩
          rintro rfl
          exact hnl (by rw [hA, f1]; simp [hc])
      · have hc' : c' = [] := by
          rcases hN with rfl | rfl
          · exact (by simpa using f2.symm : c' = [] ∧ tail = []).1
          · cases c' with
            | nil => rfl
            | cons x c' =>
              exfalso
              have : x = '\n' := by
                have := congrArg List.head? f2
                simpa using this.symm
              subst this
              exact hname (by rw [f1]; simp)
        subst hc'
        rw [List.append_nil] at f1
        refine ⟨gap, [], R, ?_, h1, h2, h3, ?_, by simp, hrest⟩
        · rw [← hsplit, hA, ← f1]
          simp
        · intro c hc
          refine ⟨h4 c hc, ?_⟩
          rintro rfl
          exact hnl (by rw [hA]; simp [hc])
  · rintro ⟨gap, tail, rest, rfl, h1, h2, h3, h4, h5, h6⟩
    have hno : ∀ c ∈ d ++ gap ++ c!"inventory.json" ++ tail, decide (c ≠ '\n') = true := by
      intro c hc
      simp only [ne_eq, decide_eq_true_eq]
      rintro rfl
      rcases List.mem_append.mp hc with hc | hc
      · rcases List.mem_append.mp hc with hc | hc
        · rcases List.mem_append.mp hc with hc | hc
          · rw [h2 _ hc] at hwn; cases hwn
          · exact (h4 _ hc).2 rfl
        · exact hname hc
      · exact (h5 _ hc).2 rfl
    have hnb : ∀ c ∈ c!"inventory.json", ¬ Blank c := by
      unfold Blank
      decide
    rcases h6 with rfl | ⟨r, rfl⟩
    · rw [List.append_nil, List.takeWhile_eq_self_iff.mpr hno, if_neg, List.append_nil]
      · exact ⟨gap, tail, rfl, h1, h2, h3, fun c hc => (h4 c hc).1, by decide, hnb, fun c hc => (h5 c hc).1⟩
      · intro h
        simpa using hno _ h
    · rw [(span_at hno (by simp)).1, if_pos (by simp)]
      refine ⟨gap, tail ++ ['\n'], by simp, h1, h2, h3, fun c hc => (h4 c hc).1, by decide, hnb, ?_⟩
      intro c hc
      rcases List.mem_append.mp hc with hc | hc
      · exact (h5 c hc).1
      · rw [List.mem_singleton.mp hc]
        exact blank_newline

theorem readInventoryDigest_ok {E : Env} (hw : WordClass E.isWord) (hblank : ∀ c, Blank c → E.isWord c = false) {s : FS} {base : Path}
    {file d : Str} {p : Path} (hp : FS.resolve base file = p) :
    readInventoryDigest E s base file = .ok d ↔
      ∃ b t, look s p = some (.file b) ∧ utf8Decode b = some t ∧ SidecarText E.isWord (univNewlines t) d := by
  subst hp
  unfold readInventoryDigest readText FS.read
  cases hl : look s (FS.resolve base file) with
  | none => simp
  | some nd =>
    cases nd with
    | dir => simp
    | file b =>
      cases hd : utf8Decode b with
      | none => simp [hd]
      | some t =>
        simp only [Option.some.injEq, Node.file.injEq, hd]
        constructor
        · intro h
          refine ⟨b, t, rfl, hd, ?_⟩
          rw [← sidecarText_iff hw hblank]
          cases hm : matchSidecar E.isWord (readline (univNewlines t)) with
          | none => rw [hm] at h; cases h
          | some r =>
            obtain ⟨d', name⟩ := r
            rw [hm] at h
            dsimp only at h
            split at h
            · cases h
            · rename_i hn
              cases h
              rw [not_not.mp hn]
              rfl
        · rintro ⟨b', t', rfl, h1, h2⟩
          rw [hd] at h1; cases h1
          rw [(sidecarText_iff hw hblank).mpr h2]
          rfl

theorem pass_validateInventoryDigest {E : Env} (hw : WordClass E.isWord) (hblank : ∀ c, Blank c → E.isWord c = false) {cfg : Config}
    {s : FS} {base : Path} {dir alg : Str} {vd : Path} (hv : VDir dir vd) (hnl : '\n' ∉ dir) (halg : alg = c!"sha512" ∨ alg = c!"sha256")
    {u : Unit} :
    Pass (validateInventoryDigest E cfg s base (osPathJoin dir c!"inventory.json") alg) u ↔ Sidecar E cfg.checkDigests s (base ++ vd) alg := by
  have hw' : ∀ c ∈ alg, c.toNat < 128 ∧ c.isAlphanum = true := by
    rcases halg with h | h <;> (subst h; decide)
  have hne : alg ≠ [] := by
    rcases halg with h | h <;> (subst h; decide)
  have hslash : '/' ∉ alg := by
    rcases halg with h | h <;> (subst h; decide)
  have hfile : osPathJoin dir c!"inventory.json" ++ c!"." ++ alg = osPathJoin dir (c!"inventory.json." ++ alg) := by
    cases hv with
    | root => rfl
    | version hsafe =>
      have e1 : ∀ w, '/' ∉ w → osPathJoin dir w = joinWith '/' [dir, w] := by
        intro w hw
        have := osPathJoin_joinWith (ws := [dir]) (b := w) (by simpa using SafeName.isComp hsafe) hw
        simpa [joinWith] using this
      rw [e1 _ (by decide), e1 (c!"inventory.json." ++ alg) (by
        intro hm
        rcases List.mem_append.mp hm with hm | hm
        · revert hm; decide
        · exact absurd (hw' _ hm).2 (by decide))]
      simp [joinWith]
  have hres1 : FS.resolve base (osPathJoin dir c!"inventory.json") = base ++ vd ++ [c!"inventory.json"] := hv.resolve_in base (by decide)
  have hres2 : FS.resolve base (osPathJoin dir (c!"inventory.json." ++ alg)) = base ++ vd ++ [c!"inventory.json." ++ alg] :=
    hv.resolve_in base (sidecar_safe hslash)
  have hext : matchExtension E.isWord (osPathJoin dir (c!"inventory.json." ++ alg)) = some alg := by
    have hnl' : '\n' ∉ osPathJoin dir c!"inventory.json" := by
      cases hv with
      | root => decide
      | version hsafe =>
        have := osPathJoin_joinWith (ws := [dir]) (b := c!"inventory.json") (by simpa using SafeName.isComp hsafe) (by decide)
        have : osPathJoin dir c!"inventory.json" = dir ++ c!"/inventory.json" := by simpa [joinWith] using this
        rw [this]
        intro hm
        rcases List.mem_append.mp hm with hm | hm
        · exact hnl hm
        · revert hm; decide
    rw [← hfile, List.append_assoc]
    exact matchExtension_sidecar hw hnl' hw' hne
  unfold validateInventoryDigest Sidecar
  dsimp only
  rw [hfile, hres2, pass_ite]
  have hex : FS.exists_ s (base ++ vd ++ [c!"inventory.json." ++ alg]) = false ↔ look s (base ++ vd ++ [c!"inventory.json." ++ alg]) = none := by
    unfold FS.exists_
    simp
  rw [hex]
  have hmatch : Pass (validateDigestMatch E cfg s base (osPathJoin dir c!"inventory.json") (osPathJoin dir (c!"inventory.json." ++ alg))) u ↔
      (cfg.checkDigests = true → SidecarGood E s (base ++ vd) alg) := by
    unfold validateDigestMatch
    rw [pass_ite, hext]
    dsimp only
    have hsd : ∀ a b, sidecarDigests E s base (osPathJoin dir c!"inventory.json") (osPathJoin dir (c!"inventory.json." ++ alg)) alg = .ok (a, b) ↔
        readInventoryDigest E s base (osPathJoin dir (c!"inventory.json." ++ alg)) = .ok a ∧
        ∃ i, look s (base ++ vd ++ [c!"inventory.json"]) = some (.file i) ∧ fileDigest E.raw alg i = some b := by
      intro a b
      rw [← hres1, ← digestAt_ok]
      unfold sidecarDigests
      cases readInventoryDigest E s base (osPathJoin dir (c!"inventory.json." ++ alg)) with
      | error e => simp
      | ok a' =>
        cases digestAt E s (FS.resolve base (osPathJoin dir c!"inventory.json")) alg with
        | error e => simp
        | ok b' => simp
    have hgood : SidecarGood E s (base ++ vd) alg ↔
        ∃ d, sidecarDigests E s base (osPathJoin dir c!"inventory.json") (osPathJoin dir (c!"inventory.json." ++ alg)) alg = .ok (d, d) := by
      unfold SidecarGood
      constructor
      · rintro ⟨b, t, d, i, h1, h2, h3, h4, h5⟩
        exact ⟨d, (hsd d d).mpr ⟨(readInventoryDigest_ok hw hblank hres2).mpr ⟨b, t, h1, h2, h3⟩, i, h4, h5⟩⟩
      · rintro ⟨d, h⟩
        obtain ⟨h1, i, h4, h5⟩ := (hsd d d).mp h
        obtain ⟨b, t, h1, h2, h3⟩ := (readInventoryDigest_ok hw hblank hres2).mp h1
        exact ⟨b, t, d, i, h1, h2, h3, h4, h5⟩
    rw [hgood]
    cases hc : cfg.checkDigests with
    | false => simp [pass_ret]
    | true =>
      simp only [Bool.true_eq_false, false_and, not_false_eq_true, true_and, false_or, forall_const]
      cases hs : sidecarDigests E s base (osPathJoin dir c!"inventory.json") (osPathJoin dir (c!"inventory.json." ++ alg)) alg with
      | error e =>
        cases e <;> simp [pass_err, pass_raised]
      | ok r =>
        obtain ⟨a, b⟩ := r
        simp only [pass_errUnless, decide_eq_true_eq, Except.ok.injEq, Prod.mk.injEq]
        constructor
        · rintro rfl
          exact ⟨b, rfl, rfl⟩
        · rintro ⟨d, rfl, rfl⟩
          rfl
  rw [hmatch, pass_err]
  simp

end Validator
end Ocfl
