import Verif.Proofs.StoreAdd
import Verif.Props.Namaste
import Verif.Props.LayoutConfig

/-!
# The structure of a storage root
-/

namespace Ocfl
namespace Store

open Spec FS Prog

variable {E : Env} {reg : Dict Str LayoutObj} {s : FS} {base : Path}

theorem declaredVersion_iff {t v : Str} : declaredVersion t = some v ↔ v ∈ supported ∧ t = c!"ocfl_" ++ v := by
  have e : ∀ v, namasteFilename 0 t = c!"0=ocfl_" ++ v ↔ t = c!"ocfl_" ++ v := by
    intro v
    have : namasteFilename 0 t = c!"0=" ++ t := rfl
    rw [this, show c!"0=ocfl_" ++ v = c!"0=" ++ (c!"ocfl_" ++ v) from rfl]
    exact List.append_right_inj _
  unfold declaredVersion
  constructor
  · intro h
    refine ⟨List.mem_of_find?_eq_some h, ?_⟩
    have := List.find?_some h
    exact (e v).mp (of_decide_eq_true this)
  · rintro ⟨hv, h⟩
    have h1 := (e v).mpr h
    have : ∀ x, decide (namasteFilename 0 t = c!"0=ocfl_" ++ x) = decide (x = v) := by
      intro x
      rw [h1]
      apply decide_eq_decide.mpr
      constructor
      · intro h; exact (List.append_cancel_left h).symm
      · rintro rfl; rfl
    simp only [this]
    rcases List.mem_cons.mp hv with rfl | hv
    · decide
    · rw [List.mem_singleton] at hv; subst hv; decide

theorem contentOk_iff {t : Str} (ht : t ≠ []) (hsl : '/' ∉ t) : namasteContentOk E.isWord s base 0 t [] = .ok true ↔
    ∃ b text, look s (base ++ [c!"0=" ++ t]) = some (.file b) ∧ utf8Decode b = some text ∧ IsTvalue E.isWord (univNewlines text) t := by
  have h := C52_check (isWord := E.isWord) (s := s) (base := base) (ws := []) (dir := []) (by simp) (.inl rfl) 0 hsl
  have e : ∀ t, base ++ ([] : List Str) ++ [natStr 0 ++ c!"=" ++ t] = base ++ [c!"0=" ++ t] := by
    intro t; rw [List.append_nil]; rfl
  rw [e] at h
  unfold namasteContentOk
  rw [← h.trans (and_iff_right ht)]
  constructor
  · intro h
    split at h
    · assumption
    · cases h
    · cases h
  · intro h
    rw [h]

/-- The declaration is checked. -/
theorem declared_iff (hw : s.WF) (hd : look s base = some .dir) {v : Str} :
    (∃ t, findNamastes s base 0 [] 10 = .ok [t] ∧ declaredVersion t = some v ∧ namasteContentOk E.isWord s base 0 t [] = .ok true) ↔
      RootDeclared E s base v := by
  obtain ⟨l, hn, _, hl, hf⟩ := C52_find hw (base := base) (ws := []) (dir := []) (by simp) (.inl rfl) (by simpa using hd) 0
  have e : ∀ t, base ++ ([] : List Str) ++ [natStr 0 ++ c!"=" ++ t] = base ++ [c!"0=" ++ t] := by
    intro t; rw [List.append_nil]; rfl
  simp only [e] at hl
  rw [hf]
  have hsafe : ∀ v ∈ supported, '/' ∉ c!"ocfl_" ++ v := by decide
  constructor
  · rintro ⟨t, h1, h2, h3⟩
    obtain ⟨hv, rfl⟩ := declaredVersion_iff.mp h2
    split_ifs at h1
    cases h1
    refine ⟨hv, ?_, fun t ht => ?_⟩
    · exact (contentOk_iff (by simp) (hsafe v hv)).mp h3
    · simpa using (hl t).mpr ht
  · intro h
    have h1 : l = [c!"ocfl_" ++ v] := by
      rw [nodup_singleton_iff hn]
      intro t
      rw [hl]
      constructor
      · exact h.one t
      · rintro rfl
        obtain ⟨b, _, hb, _⟩ := h.declaration
        have e : c!"0=" ++ (c!"ocfl_" ++ v) = c!"0=ocfl_" ++ v := rfl
        rw [e, hb]
        simp
    refine ⟨_, ?_, declaredVersion_iff.mpr ⟨h.supported, rfl⟩, (contentOk_iff (by simp) (hsafe v h.supported)).mpr h.declaration⟩
    rw [if_neg (by rw [h1]; simp), h1]

theorem read_iff {p : Path} {b : Bytes} : FS.read s p = .ok b ↔ look s p = some (.file b) := by
  unfold FS.read
  cases look s p with
  | none => simp
  | some n => cases n <;> simp

theorem readParams_iff (hraw : Spec.HexDigests E.raw) {l : LayoutObj} :
    (∃ l', l.readParams E.lib E.raw s base false = .ok l') ↔ RootParams E s base l := by
  unfold LayoutObj.readParams RootParams
  rw [resolve_configFile]
  generalize base ++ [c!"extensions", l.name, c!"config.json"] = p
  by_cases hx : look s p = none
  · simp [exists_, hx]
  · have he : exists_ s p = true := by
      unfold exists_
      cases h : look s p with
      | none => exact absurd h hx
      | some n => rfl
    rw [if_pos he]
    simp only [hx, false_or]
    constructor
    · rintro ⟨l', h⟩
      split at h
      · cases h
      · rename_i b hb
        split at h
        · rename_i config hc
          exact ⟨b, config, l', read_iff.mp hb, hc, (C50_accepts hraw).mp h⟩
        · cases h
    · rintro ⟨b, config, l', hb, hc, h⟩
      refine ⟨l', ?_⟩
      rw [read_iff.mpr hb]
      dsimp only
      rw [hc]
      exact (C50_accepts hraw).mpr h

theorem parseLayoutFile_iff {name : Str} : parseLayoutFile E s base = .ok name ↔
    ∃ b d desc, look s (base ++ [c!"ocfl_layout.json"]) = some (.file b) ∧ E.lib.loadb b = some (.obj d) ∧
      Dict.get? d c!"extension" = some (.str name) ∧ Dict.get? d c!"description" = some (.str desc) := by
  have er : resolve base layoutFile = base ++ [c!"ocfl_layout.json"] := resolve_name base (by decide)
  unfold parseLayoutFile
  rw [er]
  constructor
  · intro h
    split at h
    · cases h
    · rename_i b hb
      split at h
      · cases h
      · rename_i d hd
        split at h
        · rename_i n desc h1 h2
          cases h
          exact ⟨b, d, desc, read_iff.mp hb, hd, h1, h2⟩
        · cases h
      · cases h
  · rintro ⟨b, d, desc, hb, hd, h1, h2⟩
    rw [read_iff.mpr hb]
    dsimp only
    rw [hd]
    dsimp only
    rw [h1, h2]

theorem checkLayout_iff (hraw : Spec.HexDigests E.raw) {r : StorageRoot} (hr : r.layout = none) :
    (∃ r', checkLayout E reg s base r = (r', .ok ())) ↔ RootLayout E reg s base := by
  have er : resolve base layoutFile = base ++ [c!"ocfl_layout.json"] := resolve_name base (by decide)
  unfold checkLayout RootLayout
  rw [er]
  by_cases hx : look s (base ++ [c!"ocfl_layout.json"]) = none
  · simp [exists_, hx]
  · have he : exists_ s (base ++ [c!"ocfl_layout.json"]) = true := by
      unfold exists_
      cases h : look s (base ++ [c!"ocfl_layout.json"]) with
      | none => exact absurd h hx
      | some n => rfl
    rw [if_pos he]
    simp only [hx, false_or]
    have hlo : ∀ name l, Dict.get? reg name = some l →
        layoutOf reg { r with layoutName := some name } = ({ r with layoutName := some name, layout := some l }, .ok (some l)) := by
      intro name l h
      unfold layoutOf
      dsimp only
      rw [hr]
      dsimp only
      unfold getLayout
      rw [h]
    constructor
    · rintro ⟨r', h⟩
      split at h
      · cases (Prod.mk.inj h).2
      · rename_i name hn
        obtain ⟨b, d, desc, h1, h2, h3, h4⟩ := parseLayoutFile_iff.mp hn
        split_ifs at h with hsup
        · cases (Prod.mk.inj h).2
        · have : ∃ l, Dict.get? reg name = some l := by
            unfold layoutIsSupported Dict.has at hsup
            cases hg : Dict.get? reg name with
            | none => simp [hg] at hsup
            | some l => exact ⟨l, rfl⟩
          obtain ⟨l, hl⟩ := this
          rw [hlo name l hl] at h
          dsimp only at h
          refine ⟨b, d, name, desc, l, h1, h2, h3, h4, hl, (readParams_iff hraw).mp ?_⟩
          split at h
          · cases (Prod.mk.inj h).2
          · exact ⟨_, by assumption⟩
    · rintro ⟨b, d, name, desc, l, h1, h2, h3, h4, hl, hp⟩
      obtain ⟨l', hl'⟩ := (readParams_iff hraw).mpr hp
      rw [parseLayoutFile_iff.mpr ⟨b, d, desc, h1, h2, h3, h4⟩]
      dsimp only
      rw [if_neg, hlo name l hl]
      · dsimp only
        rw [hl']
        exact ⟨_, rfl⟩
      · unfold layoutIsSupported Dict.has
        simp [hl]

/-- The check of the structure accepts exactly the storage roots with a declaration and an allowed layout. -/
theorem checkStructure_iff (hraw : Spec.HexDigests E.raw) (hw : s.WF) (hd : look s base = some .dir) {r : StorageRoot}
    (hr : r.layout = none) : (∃ r', checkStructure E reg s base r = (r', .ok ())) ↔
      (∃ v, (r.specVersion = none ∨ r.specVersion = some v) ∧ RootDeclared E s base v) ∧ RootLayout E reg s base := by
  constructor
  · rintro ⟨r', h⟩
    obtain ⟨t, v, h1, h2, h3, h4, h5⟩ := checkStructure_ok h
    exact ⟨⟨v, h3, (declared_iff hw hd).mp ⟨t, h1, h2, h4⟩⟩, (checkLayout_iff hraw (by exact hr)).mp ⟨r', h5⟩⟩
  · rintro ⟨⟨v, h3, hv⟩, hl⟩
    obtain ⟨t, h1, h2, h4⟩ := (declared_iff hw hd).mpr hv
    obtain ⟨r', h5⟩ := (checkLayout_iff (r := { r with specVersion := some v }) hraw hr).mpr hl
    refine ⟨r', ?_⟩
    unfold checkStructure
    rw [h1]
    dsimp only
    rw [h2]
    dsimp only
    rw [if_neg (by rintro ⟨a, b⟩; rcases h3 with h | h <;> contradiction), h4]
    exact h5

/-- The check leaves the other attributes alone. -/
theorem checkStructure_keeps {r r' : StorageRoot} (h : checkStructure E reg s base r = (r', .ok ())) :
    r'.root = r.root ∧ r'.lax = r.lax ∧ r'.log = r.log ∧ r'.traversalErrors = r.traversalErrors := by
  obtain ⟨t, v, _, _, _, _, h5⟩ := checkStructure_ok h
  have h1 := checkLayout_layout h5
  refine ⟨h1.1, h1.2.1, h1.2.2.1, ?_⟩
  unfold checkLayout at h5
  have hlay : ∀ {r r1 : StorageRoot} {x}, layoutOf reg r = (r1, x) → r1.traversalErrors = r.traversalErrors := by
    intro r r1 x h
    unfold layoutOf at h
    split at h
    · split at h <;> (obtain ⟨rfl, _⟩ := Prod.mk.inj h; rfl)
    · obtain ⟨rfl, _⟩ := Prod.mk.inj h; rfl
  split_ifs at h5
  · split at h5
    · cases (Prod.mk.inj h5).2
    · dsimp only at h5
      split_ifs at h5
      · cases (Prod.mk.inj h5).2
      · split at h5
        · cases (Prod.mk.inj h5).2
        · cases (Prod.mk.inj h5).2
        · rename_i hl
          have h2 := hlay hl
          split at h5
          · cases (Prod.mk.inj h5).2
          · obtain ⟨rfl, _⟩ := Prod.mk.inj h5
            exact h2
  · obtain ⟨rfl, _⟩ := Prod.mk.inj h5
    rfl

/-! ## The objects -/

theorem goodObjects_le {cfg : Validator.Config} : ∀ {ps : List Str} {n : Nat}, goodObjects E cfg s base ps = .ok n →
    n ≤ ps.length ∧ (n = ps.length → ∀ p ∈ ps, ∃ es, Validator.validateAt E cfg 0 s (resolve base p) = .ok (true, es))
  | [], n, h => by cases h; simp
  | p :: ps, n, h => by
    unfold goodObjects at h
    split at h
    · cases h
    · rename_i ok es hv
      split at h
      · cases h
      · rename_i m hm
        obtain ⟨h1, h2⟩ := goodObjects_le hm
        cases h
        cases ok with
        | true =>
          rw [if_pos rfl]
          refine ⟨by simpa using h1, fun e => ?_⟩
          intro q hq
          rcases List.mem_cons.mp hq with rfl | hq
          · exact ⟨es, hv⟩
          · exact h2 (by simpa using e) q hq
        | false =>
          simp only [Bool.false_eq_true, if_false, List.length_cons]
          exact ⟨by omega, fun e => by omega⟩

theorem goodObjects_all {cfg : Validator.Config} : ∀ {ps : List Str},
    (∀ p ∈ ps, ∃ es, Validator.validateAt E cfg 0 s (resolve base p) = .ok (true, es)) → goodObjects E cfg s base ps = .ok ps.length
  | [], _ => rfl
  | p :: ps, h => by
    obtain ⟨es, he⟩ := h p (by simp)
    unfold goodObjects
    rw [he]
    dsimp only
    rw [goodObjects_all (fun q hq => h q (by simp [hq]))]
    rfl

end Store
end Ocfl
