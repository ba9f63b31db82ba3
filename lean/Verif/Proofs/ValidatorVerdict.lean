import Verif.Proofs.ValidatorObject
import Verif.Props.Namaste
import Verif.Proofs.InventoryNoRaise
import Verif.Spec.Verdict

/-!
# Object validation that gives a verdict
-/

namespace Ocfl
open IV V Spec

/-! ## Attributes of an inventory validator -/

/-- If the step ends, its value has the property. -/
def Yields {α : Type} (m : V α) (P : α → Prop) : Prop := ∀ a es, m = .done a es → P a

theorem yields_bind {α β : Type} {m : V α} {f : α → V β} {P : α → Prop} {Q : β → Prop} (h : Yields m P)
    (hf : ∀ a, P a → Yields (f a) Q) : Yields (m >>= f) Q := by
  intro b es hb
  rw [bind_def] at hb
  unfold V.bind at hb
  split at hb
  · cases hb
  · rename_i a es1
    split at hb
    · cases hb
    · rename_i b' es2 h2
      cases hb
      exact hf a (h a es1 rfl) b es2 h2

theorem yields_any {α : Type} (m : V α) : Yields m (fun _ => True) := fun _ _ _ => trivial

theorem yields_bind' {α β : Type} {m : V α} {f : α → V β} {Q : β → Prop} (hf : ∀ a, Yields (f a) Q) : Yields (m >>= f) Q :=
  yields_bind (yields_any m) (fun a _ => hf a)

theorem yields_ret {α : Type} {a : α} {P : α → Prop} (h : P a) : Yields (V.ret a) P := by
  intro b es hb; cases hb; exact h

theorem yields_ite {α : Type} {p : Prop} [Decidable p] {m m' : V α} {P : α → Prop} (h : p → Yields m P) (h' : ¬ p → Yields m' P) :
    Yields (if p then m else m') P := by
  by_cases hp : p
  · rw [if_pos hp]; exact h hp
  · rw [if_neg hp]; exact h' hp

theorem yields_mono {α : Type} {m : V α} {P Q : α → Prop} (h : Yields m P) (hi : ∀ a, P a → Q a) : Yields m Q :=
  fun a es ha => hi a (h a es ha)

/-- What is always true of the attributes, even of an inventory with errors. -/
structure Attributes (j : Json) (r : Result) : Prop where
  alg : r.digestAlgorithm = .str c!"sha512" ∨ r.digestAlgorithm = .str c!"sha256"
  versions : ∀ v ∈ r.allVersions, ∃ style n vs, v = styleName style n ∧ Member j c!"versions" (.obj vs) ∧ v ∈ Dict.keys vs

theorem yields_sequenceFrom {vs : List (Str × Json)} {w : Option Nat} {mx : Nat} :
    Yields (sequenceFrom vs w mx) (fun r => ∀ v ∈ r, ∃ style n, v = styleName style n) := by
  obtain ⟨k, _, hl, _, _⟩ := seqLoop_spec vs w (mx - 1) 2
  have hmem : ∀ v ∈ vfmt w 1 :: (seqLoop vs w (mx - 1) 2).1, ∃ style n, v = styleName style n := by
    intro v hv
    rcases List.mem_cons.mp hv with rfl | hv
    · exact ⟨w, 1, vfmt_eq w 1⟩
    · rw [hl, mem_namesFrom] at hv
      obtain ⟨i, _, _, rfl⟩ := hv
      exact ⟨w, i, rfl⟩
  unfold sequenceFrom
  generalize hq : seqLoop vs w (mx - 1) 2 = q at hmem
  obtain ⟨l, r⟩ := q
  dsimp only at hmem ⊢
  cases r with
  | none =>
    have h : ∀ m : V Unit, Yields (m >>= fun _ => V.ret (vfmt w 1 :: l)) (fun r => ∀ v ∈ r, ∃ style n, v = styleName style n) :=
      fun m => yields_bind' fun _ => yields_ret hmem
    exact yields_ite (fun _ => h _) (fun _ => h _)
  | some n =>
    have h : ∀ m : V Unit, Yields (m >>= fun _ => V.ret (vfmt w 1 :: l)) (fun r => ∀ v ∈ r, ∃ style n, v = styleName style n) :=
      fun m => yields_bind' fun _ => yields_ret hmem
    exact yields_ite (fun _ => h _) (fun _ => h _)

theorem yields_validateVersionSequence (j : Json) :
    Yields (validateVersionSequence j) (fun r => ∀ v ∈ r, ∃ style n, v = styleName style n) := by
  unfold validateVersionSequence
  split
  · refine yields_ite (fun _ => yields_bind' fun _ => yields_ret (by simp)) (fun _ => ?_)
    refine yields_ite (fun _ => yields_sequenceFrom) (fun _ => ?_)
    split
    · exact yields_bind' fun _ => yields_ret (by simp)
    · exact yields_bind' fun _ => yields_sequenceFrom
  · exact yields_bind' fun _ => yields_ret (by simp)

theorem yields_checkDigestAlgorithm (j : Json) :
    Yields (checkDigestAlgorithm false j) (fun a => ∀ x, a = some x → x = .str c!"sha512" ∨ x = .str c!"sha256") := by
  unfold checkDigestAlgorithm
  refine yields_bind' fun b => yields_ite (fun _ => ?_) (fun _ => ?_)
  · exact yields_bind' fun _ => yields_ret (by rintro x hx; cases hx; exact .inl rfl)
  · refine yields_bind' fun a => yields_ite (fun _ => yields_ret (by rintro x hx; cases hx; exact .inl rfl)) (fun _ => ?_)
    refine yields_ite (fun h => (by cases h)) (fun _ => ?_)
    refine yields_ite (fun h => yields_bind' fun _ => yields_ret ?_) (fun _ => yields_bind' fun _ => yields_ret (by rintro x hx; cases hx))
    rintro x hx
    cases hx
    right
    cases a <;> cases h
    rfl

theorem member_of_pyIndex {j : Json} {k : Str} {x : Json} (h : j.pyIndex k = .ok x) (hwf : j.WF) : Member j k x := by
  cases j with
  | obj d =>
    rw [pyIndex_obj] at h
    cases hx : Dict.get? d k with
    | none => rw [hx] at h; cases h
    | some y =>
      rw [hx] at h
      cases h
      exact (member_iff (wf_obj hwf).1).mpr hx
  | _ => simp [Json.pyIndex] at h

theorem yields_lift {α : Type} (x : Py α) : Yields (V.lift x) (fun a => x = .ok a) := fun _ _ h => lift_done h

theorem yields_versionsPart {isWord : Char → Bool} {alg : Json} {u : Option (List Str)} {j : Json} (hwf : j.WF) :
    Yields (versionsPart isWord false alg u j) (fun vu => ∀ v ∈ vu.1, ∃ style n vs, v = styleName style n ∧
      Member j c!"versions" (.obj vs) ∧ v ∈ Dict.keys vs) := by
  unfold versionsPart
  refine yields_bind' fun b => yields_ite (fun _ => ?_) (fun _ => yields_bind' fun _ => yields_ret (by simp))
  refine yields_bind (yields_lift _) fun vs hvs => ?_
  have hm := member_of_pyIndex hvs hwf
  refine yields_bind (P := fun av => ∀ v ∈ av, ∃ style n vs, v = styleName style n ∧ Member j c!"versions" (.obj vs) ∧ v ∈ Dict.keys vs)
    ?_ fun av hav => yields_bind' fun _ => yields_ret hav
  intro av es h v hv
  obtain ⟨style, n, rfl⟩ := yields_validateVersionSequence vs av es h v hv
  obtain ⟨d, rfl, hk⟩ := (noRaise_validateVersionSequence vs).2 av es h _ hv
  exact ⟨style, n, d, rfl, hm, hk⟩

theorem attributes_of {isWord : Char → Bool} {ds : Str} {force : Option Str} {j : Json} (hwf : j.WF) {r : Result} {ok : Bool} {es : List Entry}
    (h : validate isWord false ds force j = .ok (r, ok, es)) : Attributes j r := by
  have hb : Yields (validateBody isWord false ds force j) (fun x => Attributes j x.1) := by
    unfold validateBody
    refine yields_bind' fun id => yields_bind' fun spec => yields_bind (yields_checkDigestAlgorithm j) fun a ha => ?_
    cases a with
    | none => exact yields_ret ⟨.inl rfl, by simp⟩
    | some alg =>
      have ha := ha alg rfl
      dsimp only
      refine yields_bind' fun cd => ?_
      unfold IV.validateRest
      refine yields_bind' fun man => yields_bind (yields_versionsPart hwf) fun vu hvu => yields_bind' fun head => ?_
      refine yields_ite (fun _ => yields_ret ⟨ha, hvu⟩) (fun _ => yields_bind' fun _ => yields_bind' fun _ => yields_ret ⟨ha, hvu⟩)
  unfold validate at h
  split at h
  · cases h
  · rename_i res es' he
    cases h
    exact hb _ _ he
  · rename_i res es' he
    cases h
    exact hb _ _ he

/-! ## Steps of the object validation -/

namespace Validator
open W FS

variable {α β σ : Type}

/-- The step raises nothing; if it does not give up, its value has the property. -/
def Gives (m : W α) (P : α → Prop) : Prop := (∃ a es, m = .done a es ∧ P a) ∨ ∃ es, m = .abort es

theorem gives_after {es : List Entry} {m : W α} {P : α → Prop} (h : Gives m P) : Gives (after es m) P := by
  rcases h with ⟨a, es', rfl, hp⟩ | ⟨es', rfl⟩
  · exact .inl ⟨a, _, rfl, hp⟩
  · exact .inr ⟨_, rfl⟩

theorem gives_bind {m : W α} {f : α → W β} {P : α → Prop} {Q : β → Prop} (h : Gives m P) (hf : ∀ a, P a → Gives (f a) Q) :
    Gives (W.bind m f) Q := by
  rcases h with ⟨a, es, rfl, hp⟩ | ⟨es, rfl⟩
  · exact gives_after (hf a hp)
  · exact .inr ⟨_, rfl⟩

theorem gives_ret {a : α} {P : α → Prop} (h : P a) : Gives (ret a) P := .inl ⟨a, [], rfl, h⟩
theorem gives_err {c : Str} {P : Unit → Prop} (h : P ()) : Gives (err c) P := .inl ⟨(), _, rfl, h⟩
theorem gives_warn {c : Str} {P : Unit → Prop} (h : P ()) : Gives (warn c) P := .inl ⟨(), _, rfl, h⟩
theorem gives_log {es : List Entry} {P : Unit → Prop} (h : P ()) : Gives (log es) P := .inl ⟨(), _, rfl, h⟩
theorem gives_py {x : Py α} {a : α} {P : α → Prop} (hx : x = .ok a) (h : P a) : Gives (py x) P := by
  subst hx; exact .inl ⟨a, _, rfl, h⟩

theorem gives_ite {p : Prop} [Decidable p] {m m' : W α} {P : α → Prop} (h : p → Gives m P) (h' : ¬ p → Gives m' P) :
    Gives (if p then m else m') P := by
  by_cases hp : p
  · rw [if_pos hp]; exact h hp
  · rw [if_neg hp]; exact h' hp

theorem gives_errUnless {c : Bool} {code : Str} {P : Unit → Prop} (h : P ()) : Gives (errUnless c code) P :=
  gives_ite (fun _ => gives_ret h) (fun _ => gives_err h)

theorem gives_mono {m : W α} {P Q : α → Prop} (h : Gives m P) (hi : ∀ a, P a → Q a) : Gives m Q := by
  rcases h with ⟨a, es, rfl, hp⟩ | ⟨es, rfl⟩
  · exact .inl ⟨a, es, rfl, hi a hp⟩
  · exact .inr ⟨_, rfl⟩

theorem gives_forM {body : σ → α → W σ} {I : σ → Prop} : ∀ {l : List α}, (∀ x ∈ l, ∀ st, I st → Gives (body st x) I) →
    ∀ {st : σ}, I st → Gives (W.forM body l st) I
  | [], _, _, hs => gives_ret hs
  | x :: l, h, _, hs => gives_bind (h x (by simp) _ hs) fun _ hs' => gives_forM (fun y hy => h y (by simp [hy])) hs'

theorem gives_forEach {body : α → W Unit} : ∀ {l : List α}, (∀ x ∈ l, Gives (body x) (fun _ => True)) →
    Gives (W.forEach body l) (fun _ => True)
  | [], _ => gives_ret trivial
  | x :: l, h => gives_bind (h x (by simp)) fun _ _ => gives_forEach (fun y hy => h y (by simp [hy]))

variable {E : Env} {cfg : Config} {s : FS} {base : Path}

theorem readText_text {p : Path} (h : TextFile s p) : ∃ t, readText s p = .ok t := by
  obtain ⟨b, t, hl, ht⟩ := h
  refine ⟨univNewlines t, ?_⟩
  unfold readText FS.read
  rw [hl]
  dsimp only
  rw [ht]

theorem missing_child (hw : s.WF) (hd : look s base = some .dir) (v : Str) : FS.missing s (base ++ [v]) = .fileNotFound := by
  unfold FS.missing
  rw [if_neg]
  simp only [List.any_eq_true, List.mem_range, not_exists, not_and, List.length_append, List.length_singleton]
  intro n hn
  have hle : n ≤ base.length := by omega
  rw [List.take_append_of_le_length hle]
  have : look s (base.take n) = some .dir := by
    by_cases he : base.take n = base
    · rw [he, hd]
    · exact look_prefix hw (List.take_prefix n base) he hd
  unfold FS.isfile
  rw [this]
  simp

/-! ### Declaration -/

theorem gives_declStep (ht : Tidy E s base) {sv : Option Str} {t : Str} (hl : look s (base ++ [c!"0=" ++ t]) ≠ none) :
    Gives (declStep E s base sv t) (fun _ => True) := by
  unfold declStep
  cases hv : declVersion t with
  | none => exact gives_bind (P := fun _ => True) (gives_err trivial) fun _ _ => gives_ret trivial
  | some v =>
    obtain ⟨hsup, rfl⟩ := declVersion_some.mp hv
    dsimp only
    refine gives_ite (fun _ => ?_) (fun _ => gives_ret trivial)
    have hok : ∃ b, namasteContentOk E.isWord s base 0 (c!"ocfl_object_" ++ v) [] = .ok b := by
      obtain ⟨t, hr⟩ := readText_text (ht.declarations v hsup (by simpa using hl))
      have hres : FS.resolve base (osPathJoin [] (namasteFilename 0 (c!"ocfl_object_" ++ v))) = base ++ [c!"0=ocfl_object_" ++ v] := by
        rw [osPathJoin_nil]
        refine resolve_name _ ?_
        simp only [supported, List.mem_cons, List.not_mem_nil, or_false] at hsup
        rcases hsup with rfl | rfl <;> decide
      unfold namasteContentOk namasteCheck
      rw [if_neg (by simp), hres, hr]
      dsimp only
      split
      · exact ⟨true, rfl⟩
      · exact ⟨false, rfl⟩
      · rename_i e h1 h2
        split at h2
        · cases h2; exact absurd rfl h1
        · cases h2
    obtain ⟨b, hb⟩ := hok
    exact gives_bind (P := fun _ => True) (gives_py hb trivial) fun _ _ =>
      gives_bind (P := fun _ => True) (gives_errUnless trivial) fun _ _ => gives_ret trivial

theorem gives_checkDeclaration (ht : Tidy E s base) {tvalues : List Str} (hl : ∀ t ∈ tvalues, look s (base ++ [c!"0=" ++ t]) ≠ none) :
    Gives (checkDeclaration E cfg s base tvalues) (fun _ => True) := by
  unfold checkDeclaration
  refine gives_ite (fun _ => gives_bind (P := fun _ => True) (gives_err trivial) fun _ _ => gives_ret trivial) (fun _ => ?_)
  refine gives_bind (P := fun _ => True) (gives_forM (fun t hm st _ => gives_declStep ht (hl t hm)) trivial) fun sv _ => ?_
  cases sv with
  | none => exact gives_bind (P := fun _ => True) (gives_err trivial) fun _ _ => gives_ret trivial
  | some v => exact gives_bind (P := fun _ => True) (gives_errUnless trivial) fun _ _ => gives_ret trivial

/-! ### Inventories -/

theorem gives_validateInventory (hE : Libraries E) (hlax : cfg.lax = false) {spec file : Str} {p : Path}
    (hp : FS.resolve base file = p) (htext : TextFile s p) (hshape : ∀ j, StoredJson E.lib s p j → Shape false j) :
    Gives (validateInventory E cfg spec s base file) (fun jr => StoredJson E.lib s p jr.1 ∧ Attributes jr.1 jr.2) := by
  obtain ⟨b, t, hl, hu⟩ := htext
  have hr : readText s p = .ok (univNewlines t) := by
    unfold readText FS.read
    rw [hl]; dsimp only; rw [hu]
  unfold validateInventory
  rw [hp, hr]
  dsimp only
  cases hj : E.lib.loads (univNewlines t) with
  | none => exact .inr ⟨_, rfl⟩
  | some j =>
    dsimp only
    have hst : StoredJson E.lib s p j := ⟨b, t, hl, hu, hj⟩
    have hwf := storedJson_wf hE.json hst
    rw [hlax]
    obtain ⟨⟨r, ok, es⟩, hv⟩ := noRaise_validate (isWord := E.isWord) (ds := spec) (force := none) hwf (hshape j hst)
    rw [hv]
    exact .inl ⟨_, _, rfl, hst, attributes_of hwf hv⟩

theorem gives_validateInventoryDigest {dir alg : Str} {vd : Path} (hv : VDir dir vd) (halg : alg = c!"sha512" ∨ alg = c!"sha256")
    (hinv : ∃ b, look s (base ++ vd ++ [c!"inventory.json"]) = some (.file b))
    (hside : look s (base ++ vd ++ [c!"inventory.json." ++ alg]) ≠ some .dir) :
    Gives (validateInventoryDigest E cfg s base (osPathJoin dir c!"inventory.json") alg) (fun _ => True) := by
  have hslash : '/' ∉ alg := by
    rcases halg with h | h <;> (subst h; decide)
  have hfile : osPathJoin dir c!"inventory.json" ++ c!"." ++ alg = osPathJoin dir (c!"inventory.json." ++ alg) := by
    cases hv with
    | root => rfl
    | version hsafe =>
      have e1 : ∀ w, '/' ∉ w → osPathJoin dir w = joinWith '/' [dir, w] := by
        intro w hw
        have := osPathJoin_joinWith (ws := [dir]) (b := w) (by simpa using SafeName.isComp hsafe) hw
        simpa [joinWith] using this
      rw [e1 _ (by decide), e1 (c!"inventory.json." ++ alg) (by
        intro hm
        rcases List.mem_append.mp hm with hm | hm
        · revert hm; decide
        · exact hslash hm)]
      simp [joinWith]
  have hres1 : FS.resolve base (osPathJoin dir c!"inventory.json") = base ++ vd ++ [c!"inventory.json"] := hv.resolve_in base (by decide)
  have hres2 : FS.resolve base (osPathJoin dir (c!"inventory.json." ++ alg)) = base ++ vd ++ [c!"inventory.json." ++ alg] :=
    hv.resolve_in base (sidecar_safe hslash)
  unfold validateInventoryDigest
  dsimp only
  rw [hfile, hres2]
  refine gives_ite (fun _ => gives_err trivial) (fun hex => ?_)
  unfold validateDigestMatch
  refine gives_ite (fun _ => gives_ret trivial) (fun _ => ?_)
  cases matchExtension E.isWord (osPathJoin dir (c!"inventory.json." ++ alg)) with
  | none => exact gives_err trivial
  | some alg' =>
    dsimp only
    have hcases : (∃ a b, sidecarDigests E s base (osPathJoin dir c!"inventory.json") (osPathJoin dir (c!"inventory.json." ++ alg)) alg' = .ok (a, b)) ∨
        sidecarDigests E s base (osPathJoin dir c!"inventory.json") (osPathJoin dir (c!"inventory.json." ++ alg)) alg' = .error .valueError ∨
        sidecarDigests E s base (osPathJoin dir c!"inventory.json") (osPathJoin dir (c!"inventory.json." ++ alg)) alg' = .error .unicodeError := by
      obtain ⟨i, hi⟩ := hinv
      unfold sidecarDigests readInventoryDigest readText FS.read
      rw [hres1, hres2]
      cases hl : look s (base ++ vd ++ [c!"inventory.json." ++ alg]) with
      | none => unfold FS.exists_ at hex; rw [hl] at hex; exact absurd rfl hex
      | some nd =>
        cases nd with
        | dir => exact absurd hl hside
        | file b =>
          dsimp only
          cases utf8Decode b with
          | none => exact .inr (.inr rfl)
          | some t =>
            dsimp only
            cases matchSidecar E.isWord (readline (univNewlines t)) with
            | none => exact .inr (.inl rfl)
            | some dn =>
              obtain ⟨d, nm⟩ := dn
              dsimp only
              by_cases hn : nm ≠ inventoryFilename
              · rw [if_pos hn]; exact .inr (.inl rfl)
              · rw [if_neg hn]
                dsimp only
                unfold digestAt FS.read
                rw [hi]
                cases fileDigest E.raw alg' [] with
                | none => exact .inr (.inl rfl)
                | some _ =>
                  dsimp only
                  cases fileDigest E.raw alg' i with
                  | none => exact .inr (.inl rfl)
                  | some x => exact .inl ⟨_, _, rfl⟩
    rcases hcases with ⟨a, b, h⟩ | h | h
    · rw [h]; exact gives_errUnless trivial
    · rw [h]; exact gives_err trivial
    · rw [h]; exact gives_err trivial

/-! ### Object root -/

theorem gives_validateObjectRoot (hw : s.WF) (hd : look s base = some .dir) {spec alg : Str} {vds already : List Str} :
    Gives (validateObjectRoot s base spec alg vds already) (fun _ => True) := by
  unfold validateObjectRoot
  dsimp only
  refine gives_bind (P := fun l => l = (children s base).map (fun e => (e.1, decide (e.2 = .dir)))) (gives_py (listdir_root hd) rfl) ?_
  rintro l rfl
  refine gives_forEach ?_
  intro x hx
  obtain ⟨⟨w, nd⟩, hm, rfl⟩ := List.mem_map.mp hx
  rw [mem_children hw] at hm
  unfold rootEntry
  refine gives_ite (fun _ => gives_errUnless trivial) (fun hdir => ?_)
  refine gives_ite (fun _ => gives_ret trivial) (fun _ => gives_ite (fun _ => gives_ret trivial) (fun _ => gives_ite (fun hx => ?_) (fun _ => ?_)))
  · have hx : w = c!"extensions" := hx
    subst hx
    have : nd = .dir := by
      cases nd with
      | dir => rfl
      | file b => exact absurd rfl hdir
    subst this
    unfold validateExtensionsDir
    refine gives_bind (P := fun _ => True) (gives_py (listdir_name safe_extensions hm) trivial) fun l _ => gives_forEach fun e _ => ?_
    exact gives_ite (fun _ => gives_ite (fun _ => gives_ret trivial) (fun _ => gives_warn trivial)) (fun _ => gives_err trivial)
  · exact gives_ite (fun _ => gives_err trivial) (fun _ => gives_err trivial)

/-! ### Inventories of versions -/

theorem addDigest_ok (m : List (Str × List Str)) (fm : Dict Str (List Str)) (d : Str) (ps : List Str) :
    ∃ fm', addDigest (ofDigestMap m) fm (d, .arr (ps.map .str)) = .ok fm' := by
  cases hg : Dict.get? m d with
  | some cs => exact ⟨_, addDigest_eq hg⟩
  | none =>
    unfold addDigest
    have : Dict.has (encMap m) d = false := by
      rw [Bool.eq_false_iff]
      intro hh
      obtain ⟨x, hx⟩ := Dict.exists_of_mem_keys ((Dict.has_iff _ _).mp hh)
      rw [get?_encMap, hg] at hx
      cases hx
    rw [ofDigestMap_eq, pyIn_obj, this]
    exact ⟨fm, rfl⟩

theorem foldl_addDigest_ok (m : List (Str × List Str)) : ∀ (st : List (Str × List Str)) (fm : Dict Str (List Str)),
    ∃ fm', (encMap st).foldlM (addDigest (ofDigestMap m)) fm = .ok fm'
  | [], fm => ⟨fm, rfl⟩
  | e :: st, fm => by
    obtain ⟨fm1, h1⟩ := addDigest_ok m fm e.1 e.2
    obtain ⟨fm2, h2⟩ := foldl_addDigest_ok m st fm1
    refine ⟨fm2, ?_⟩
    show (addDigest (ofDigestMap m) fm (e.1, .arr (e.2.map .str)) >>= fun x => (encMap st).foldlM (addDigest (ofDigestMap m)) x) = _
    rw [h1]
    exact h2

theorem resolve_versionInventory (base : Path) {v : Str} (hv : SafeName v) :
    FS.resolve base (osPathJoin v inventoryFilename) = base ++ [v, c!"inventory.json"] := by
  have := (VDir.version hv).resolve_in base (w := c!"inventory.json") (by decide)
  rw [show inventoryFilename = c!"inventory.json" from rfl, this]
  simp

/-- What the comparison looks up in a version of a well shaped inventory. -/
theorem wellShaped_version {j : Json} (hwf : j.WF) (h : WellShaped j) {r : IV.Result} (ha : Attributes j r) {v : Str} (hv : v ∈ r.allVersions) :
    (∃ b, ((j.pyIndex c!"versions").bind (Json.pyIndex v)) = .ok (.obj b)) ∧ (∃ st, stateBlock j v = .ok (ofDigestMap st)) ∧
      ∃ mp, logicalPathMap j v = .ok mp := by
  obtain ⟨_, _, vs, _, hm, hk⟩ := ha.versions v hv
  obtain ⟨bj, hb⟩ := Dict.exists_of_mem_keys hk
  obtain ⟨d, rfl, hd⟩ := id hm
  obtain ⟨hnk, hw⟩ := wf_obj hwf
  have hg := Dict.get?_of_mem hnk hd
  obtain ⟨hnk2, hw2⟩ := wf_obj (hw _ _ hg)
  obtain ⟨st, hst⟩ := h.state _ v bj hm ((member_iff hnk2).mpr hb)
  obtain ⟨b, rfl, hbm⟩ := id hst
  have hgb := Dict.get?_of_mem (wf_obj (hw2 _ _ hb)).1 hbm
  have h1 : (((Json.obj d).pyIndex c!"versions").bind (Json.pyIndex v)) = .ok (.obj b) := by
    rw [pyIndex_obj, hg]
    show (Json.obj vs).pyIndex v = _
    rw [pyIndex_obj, hb]
  have h2 : stateBlock (.obj d) v = .ok (ofDigestMap st) := by
    unfold stateBlock
    rw [h1]
    show (Json.obj b).pyIndex c!"state" = _
    rw [pyIndex_obj, hgb]
  refine ⟨⟨b, h1⟩, ⟨st, h2⟩, ?_⟩
  obtain ⟨m, dm, hdm, hmm⟩ := h.manifest
  cases hdm
  obtain ⟨fm, hfm⟩ := foldl_addDigest_ok m st []
  refine ⟨fm, ?_⟩
  unfold logicalPathMap
  rw [h2, pyIndex_obj, Dict.get?_of_mem hnk hmm]
  exact hfm

theorem gives_prior {same : Option Json → Option Json → Bool} {self prior : Json} {r r' : IV.Result} (hwf : self.WF) (hwf' : prior.WF)
    (hs : WellShaped self) (hs' : WellShaped prior) (ha : Attributes self r) (ha' : Attributes prior r') :
    ∃ x, validateAsPriorVersion same (self, r) (prior, r') = .ok x := by
  have hb : NoRaise (priorBody same (self, r) (prior, r')) := by
    unfold priorBody
    dsimp only
    refine noRaise_ite (fun _ => noRaise_err) (fun hsub => noRaise_forM (fun v hv _ => ?_) _)
    have hsub : (r'.allVersions.all (fun v => v ∈ r.allVersions) && r.allVersions.any (fun v => v ∉ r'.allVersions)) = true := by
      simpa using hsub
    simp only [Bool.and_eq_true, List.all_eq_true, decide_eq_true_eq] at hsub
    obtain ⟨⟨b', hb'⟩, ⟨st', hst'⟩, mp', hmp'⟩ := wellShaped_version hwf' hs' ha' hv
    obtain ⟨⟨b, hb⟩, ⟨st, hst⟩, mp, hmp⟩ := wellShaped_version hwf hs ha (hsub.1 v hv)
    unfold priorStep
    refine noRaise_bind' ?_ fun _ => noRaise_bind' (noRaise_lift hmp') fun _ => noRaise_bind' (noRaise_lift hmp) fun _ =>
      noRaise_bind' ?_ fun _ => ?_
    · unfold compareStatesIf
      refine noRaise_ite (fun _ => ?_) (fun _ => noRaise_ret)
      unfold compareStates
      refine noRaise_bind (noRaise_lift hst) fun x es hx => ?_
      cases (lift_done hx).symm.trans hst
      refine noRaise_bind (noRaise_lift hst') fun x es hx => ?_
      cases (lift_done hx).symm.trans hst'
      exact noRaise_forM (fun _ _ _ => noRaise_ite (fun _ => noRaise_err) (fun _ => noRaise_ite (fun _ => noRaise_err) (fun _ => noRaise_ret))) _
    · unfold compareMaps
      dsimp only
      refine noRaise_ite (fun _ => ?_) (fun _ => noRaise_forM (fun _ _ _ => noRaise_ite (fun _ => noRaise_ret) (fun _ => noRaise_err)) _)
      exact noRaise_ite (fun _ => noRaise_bind' noRaise_err fun _ => noRaise_ite (fun _ => noRaise_err) (fun _ => noRaise_ret))
        (fun _ => noRaise_bind' noRaise_ret fun _ => noRaise_ite (fun _ => noRaise_err) (fun _ => noRaise_ret))
    · obtain ⟨es, h, _⟩ := clean_compareMetadata (same := same) hb' hb
      exact ⟨_, _, h⟩
  obtain ⟨u, es, hb⟩ := hb
  unfold validateAsPriorVersion
  rw [hb]
  exact ⟨_, rfl⟩

/-- All algorithms recorded are known. -/
def Known (rec : Recorded) : Prop := ∀ x ∈ rec, KnownAlg x.2.1

theorem known_append {a b : Recorded} (ha : Known a) (hb : Known b) : Known (a ++ b) := by
  intro x hx
  rcases List.mem_append.mp hx with h | h
  · exact ha x h
  · exact hb x h

theorem known_block {alg : Str} (h : KnownAlg alg) (m : List (Str × List Str)) : Known (recordBlock alg m) := by
  intro x hx
  rw [(mem_recordBlock.mp hx).1]
  exact h

theorem gives_recordManifest {j : Json} (hwf : j.WF) (h : WellShaped j) {alg : Str} (halg : KnownAlg alg) {prior : Recorded} (hp : Known prior) :
    Gives (recordManifest j alg prior) Known := by
  obtain ⟨m, d, rfl, hm⟩ := h.manifest
  obtain ⟨hk, hw⟩ := wf_obj hwf
  have hg := Dict.get?_of_mem hk hm
  unfold recordManifest
  refine gives_bind (P := fun b => b = true) (gives_py (pyIn_obj d _) (has_of_get hg)) ?_
  rintro b rfl
  simp only [Bool.true_eq_false, if_false]
  refine gives_bind (P := fun x => x = ofDigestMap m) (gives_py (by rw [pyIndex_obj, hg]) rfl) ?_
  rintro x rfl
  refine gives_bind (P := fun x => x = m) (gives_py (iterBlock_map (nk_of_wf (hw _ _ hg))) rfl) ?_
  rintro x rfl
  exact gives_bind (P := fun _ => True) (gives_errUnless trivial) fun _ _ => gives_ret (known_append hp (known_block halg _))

theorem gives_recordFixity {j : Json} (hwf : j.WF) (h : WellShaped j) {prior : Recorded} (hp : Known prior) :
    Gives (recordFixity j prior) Known := by
  obtain ⟨m, d, rfl, hm⟩ := h.manifest
  obtain ⟨hk, hw⟩ := wf_obj hwf
  unfold recordFixity
  refine gives_bind (P := fun b => b = Dict.has d c!"fixity") (gives_py (pyIn_obj d _) rfl) ?_
  rintro b rfl
  refine gives_ite (fun _ => gives_ret hp) (fun hh => ?_)
  have hh : Dict.has d c!"fixity" = true := by simpa using hh
  obtain ⟨fx, hfx⟩ := Dict.exists_of_mem_keys ((Dict.has_iff _ _).mp hh)
  obtain ⟨hobj, hmaps⟩ := h.fixity fx ((member_iff hk).mpr hfx)
  obtain ⟨blocks, hbl, hmem⟩ := iterFixity_maps (hw _ _ hfx) hobj (fun a b hab => (hmaps a b hab).2)
  refine gives_bind (P := fun x => x = fx) (gives_py (by rw [pyIndex_obj, hfx]) rfl) ?_
  rintro x rfl
  refine gives_bind (P := fun x => x = blocks) (gives_py hbl rfl) ?_
  rintro x rfl
  refine gives_ret (known_append hp ?_)
  intro y hy
  obtain ⟨⟨a, mm⟩, hab, hy⟩ := List.mem_flatMap.mp hy
  rw [(mem_recordBlock.mp hy).1]
  exact (hmaps a _ ((hmem a mm).mp hab)).1

/-- The state of the loop over the versions. -/
def KnownState (st : VState) : Prop := Known st.manifests ∧ Known st.fixity

theorem known_sha {alg : Str} (h : alg = c!"sha512" ∨ alg = c!"sha256") : KnownAlg alg := by
  rcases h with rfl | rfl <;> (left; decide)

theorem shape_of_wellShaped {j : Json} (hwf : j.WF) (h : WellShaped j) : Shape false j := by
  have hlist : ∀ m : List (Str × List Str), ListsOfStrings (ofDigestMap m) := by
    rintro m d l ⟨dd, he, hm⟩ x hx
    cases he
    obtain ⟨e, _, he⟩ := List.mem_map.mp hm
    obtain ⟨_, rfl⟩ := Prod.mk.inj he |>.imp id (fun h => Json.arr.inj h)
    obtain ⟨p, _, rfl⟩ := List.mem_map.mp hx
    exact ⟨p, rfl⟩
  refine ⟨?_, fun h => (by cases h), ?_, ?_, ?_⟩
  · obtain ⟨m, hm⟩ := h.manifest
    exact ⟨_, hm, hlist m⟩
  · intro vs v b h1 h2
    obtain ⟨st, d, rfl, _⟩ := h.state vs v b h1 h2
    exact ⟨d, rfl⟩
  · intro vs v b st h1 h2 h3
    obtain ⟨st', hst'⟩ := h.state vs v b h1 h2
    have hb : b.WF := by
      obtain ⟨d, rfl, hd⟩ := h1
      obtain ⟨d2, rfl, hd2⟩ := h2
      have hw1 := (wf_obj hwf).2 _ _ (Dict.get?_of_mem (wf_obj hwf).1 hd)
      exact (wf_obj hw1).2 _ _ (Dict.get?_of_mem (wf_obj hw1).1 hd2)
    rw [Validator.member_str_unique hb h3 hst']
    exact hlist st'
  · intro fx a b d l h1 h2 h3 x hx
    obtain ⟨m, rfl⟩ := ((h.fixity fx h1).2 a b h2).2
    obtain ⟨p, rfl⟩ := hlist m d l h3 x hx
    rintro (⟨_, h⟩ | ⟨_, h⟩) <;> cases h

theorem gives_priorInventory (hE : Libraries E) (hlax : cfg.lax = false) (ht : Tidy E s base) {root : Root}
    (hst : StoredJson E.lib s (base ++ [c!"inventory.json"]) root.inv) (hra : Attributes root.inv root.res) {v : Str} (hv : SafeName v)
    (hex : look s (base ++ [v, c!"inventory.json"]) ≠ none) {st : VState} (hk : KnownState st) :
    Gives (priorInventory E cfg s base root st v) (fun r => KnownState r.2) := by
  have hjw := storedJson_wf hE.json hst
  have hres := resolve_versionInventory base hv
  have htext := ht.others v hex
  unfold priorInventory
  dsimp only
  refine gives_bind (gives_validateInventory hE hlax hres htext (fun j hj =>
    shape_of_wellShaped (storedJson_wf hE.json hj) (ht.shapes v j hj).1)) ?_
  rintro ⟨j', r'⟩ ⟨hst', ha'⟩
  have hst' : StoredJson E.lib s (base ++ [v, c!"inventory.json"]) j' := hst'
  have ha' : Attributes j' r' := ha'
  have hjw' := storedJson_wf hE.json hst'
  obtain ⟨hsh', hall⟩ := ht.shapes v j' hst'
  have hsh := hall _ hst
  have halg : ∃ a, r'.digestAlgorithm = .str a ∧ (a = c!"sha512" ∨ a = c!"sha256") := by
    rcases ha'.alg with h | h
    · exact ⟨_, h, .inl rfl⟩
    · exact ⟨_, h, .inr rfl⟩
  obtain ⟨a, hra', hax⟩ := halg
  refine gives_bind (P := fun x => x = a) (gives_py (by rw [hra']; rfl) rfl) ?_
  rintro x rfl
  refine gives_bind (gives_validateInventoryDigest (VDir.version hv) hax ?_ ?_) fun _ _ => ?_
  · obtain ⟨b, _, hb, _⟩ := htext
    exact ⟨b, by simpa using hb⟩
  · exact ht.sidecars [v] _ (.inr ⟨v, rfl⟩)
  refine gives_bind (P := fun _ => True) ?_ fun _ _ => ?_
  · unfold checkSameId
    obtain ⟨m, d, rfl, _⟩ := hsh'.manifest
    dsimp only
    split
    · exact gives_ret trivial
    · exact gives_ret trivial
    · refine gives_bind (P := fun b => b = Dict.has d c!"id") (gives_py (pyIn_obj d _) rfl) ?_
      rintro b rfl
      refine gives_ite (fun _ => gives_ret trivial) (fun hh => ?_)
      have hh : Dict.has d c!"id" = true := by simpa using hh
      obtain ⟨x, hx⟩ := Dict.exists_of_mem_keys ((Dict.has_iff _ _).mp hh)
      exact gives_bind (P := fun _ => True) (gives_py (by rw [pyIndex_obj, hx]) trivial) fun _ _ => gives_errUnless trivial
  refine gives_bind (P := fun _ => True) (gives_errUnless trivial) fun _ _ => ?_
  refine gives_bind (P := fun _ => True) (gives_errUnless trivial) fun _ _ => ?_
  refine gives_bind (gives_recordManifest hjw' hsh' (known_sha hax) hk.1) fun ms hms => ?_
  obtain ⟨pv, hpv⟩ := gives_prior (same := E.same) hjw hjw' hsh hsh' hra ha'
  refine gives_bind (P := fun _ => True) (gives_py hpv trivial) fun pv _ => ?_
  refine gives_bind (P := fun _ => True) (gives_log trivial) fun _ _ => ?_
  refine gives_bind (gives_recordFixity hjw' hsh' hk.2) fun fx hfx => ?_
  exact gives_ret ⟨hms, hfx⟩

theorem gives_lastInventory (ht : Tidy E s base) {root : Root} (hroot : ∃ b, look s (base ++ [c!"inventory.json"]) = some (.file b))
    (halg : root.alg = c!"sha512" ∨ root.alg = c!"sha256") {v : Str} (hv : SafeName v)
    (hex : look s (base ++ [v, c!"inventory.json"]) ≠ none) {st : VState} (hk : KnownState st) :
    Gives (lastInventory E cfg s base root st v) (fun r => KnownState r.2) := by
  obtain ⟨b0, hb0⟩ := hroot
  obtain ⟨b, t, hb, hu⟩ := ht.others v hex
  have hres := resolve_versionInventory base hv
  have hres0 : FS.resolve base inventoryFilename = base ++ [c!"inventory.json"] := FS.resolve_name base (by decide)
  unfold lastInventory
  dsimp only
  refine gives_bind (P := fun _ => True) (gives_py (a := filesIdentical E.buflen (osPathJoin v inventoryFilename) inventoryFilename b b0) (by
    unfold filesIdenticalAt
    rw [hres, hres0, hb, hb0]) trivial) fun same _ => ?_
  refine gives_bind (P := fun _ => True) (gives_ite (fun _ => ?_) (fun _ => gives_err trivial)) fun _ _ => gives_ret hk
  exact gives_validateInventoryDigest (VDir.version hv) halg ⟨b, by simpa using hb⟩ (ht.sidecars [v] _ (.inr ⟨v, rfl⟩))

theorem gives_versions (hE : Libraries E) (hlax : cfg.lax = false) (ht : Tidy E s base) {root : Root}
    (hst : StoredJson E.lib s (base ++ [c!"inventory.json"]) root.inv) (hra : Attributes root.inv root.res)
    (halg : root.alg = c!"sha512" ∨ root.alg = c!"sha256") {vds : List Str} (hv : ∀ v ∈ vds, SafeName v) :
    Gives (validateVersionInventories E cfg s base root vds) KnownState := by
  unfold validateVersionInventories
  refine gives_forM (fun v hm st hk => ?_) (show KnownState {} from ⟨fun x hx => (by cases hx), fun x hx => (by cases hx)⟩)
  have hres := resolve_versionInventory base (hv v hm)
  unfold versionInventory
  rw [hres]
  refine gives_ite (fun _ => gives_bind (P := fun _ => True) (gives_warn trivial) fun _ _ => gives_ret hk) (fun hex => ?_)
  have hex : look s (base ++ [v, c!"inventory.json"]) ≠ none := by
    intro h
    apply hex
    unfold FS.exists_
    rw [h]; rfl
  refine gives_bind (P := fun r => KnownState r.2) (gives_ite (fun _ => ?_) (fun _ => ?_)) fun r hr =>
    gives_bind (P := fun _ => True) (gives_errUnless trivial) fun _ _ => gives_ret hr
  · obtain ⟨b, _, hb, _⟩ := hst
    exact gives_lastInventory ht ⟨b, hb⟩ halg (hv v hm) hex hk
  · exact gives_priorInventory hE hlax ht hst hra (hv v hm) hex hk

/-! ### Content -/

/-- Every path seen is that of a file. -/
def Files (s : FS) (base : Path) (seen : List Str) : Prop := ∀ p ∈ seen, ∃ b, look s (FS.resolve base p) = some (.file b)

theorem gives_contentFiles (hw : s.WF) {v cd : Str} (hv : SafeName v) {nd : Node} (hl : look s (base ++ [v, cd]) = some nd) :
    Gives (contentFiles s base (osPathJoin v cd)) (Files s base) := by
  have hc : SafeName cd := look_names hw hl cd (by simp)
  have hws : ∀ w ∈ [v, cd], SafeName w := by simp [hv, hc]
  have hj : osPathJoin v cd = joinWith '/' [v, cd] := by
    have := osPathJoin_joinWith (ws := [v]) (b := cd) (by simpa using SafeName.isComp hv) hc.2.2.2
    simpa [joinWith] using this
  rw [hj]
  unfold contentFiles
  cases nd with
  | file b =>
    refine gives_bind (P := fun x => x = [⟨dstr [v, cd], [], []⟩]) (gives_py (walk_of_file hv hc hl) rfl) ?_
    rintro x rfl
    refine gives_bind (P := fun _ => True) (gives_forEach fun _ _ => gives_errUnless trivial) fun _ _ => ?_
    refine gives_bind (P := fun _ => True) (gives_ite (fun _ => gives_warn trivial) (fun _ => gives_ret trivial)) fun _ _ => ?_
    exact gives_ret (fun p hp => (by simp at hp))
  | dir =>
    refine gives_bind (P := fun x => x = _) (gives_py (fswWalk_eq hw hws hl (.inl rfl)) rfl) ?_
    rintro x rfl
    refine gives_bind (P := fun _ => True) (gives_forEach fun _ _ => gives_errUnless trivial) fun _ _ => ?_
    refine gives_bind (P := fun _ => True) (gives_ite (fun _ => gives_warn trivial) (fun _ => gives_ret trivial)) fun _ _ => ?_
    refine gives_ret ?_
    intro p hp
    obtain ⟨vis, hvis, hp⟩ := List.mem_flatMap.mp hp
    obtain ⟨q, hq, rfl⟩ := List.mem_map.mp hvis
    obtain ⟨f, hf, rfl⟩ := List.mem_map.mp hp
    obtain ⟨⟨ws, rfl⟩, hd⟩ := (mem_treeWalk_dirs hw hl).mp hq
    obtain ⟨b, hb⟩ := (mem_fileNames hw).mp hf
    have hb' : look s (base ++ ([v, cd] ++ ws ++ [f])) = some (.file b) := by simpa using hb
    have hsafe : ∀ w ∈ [v, cd] ++ ws ++ [f], SafeName w := fun w hwm => look_names hw hb' w (by
      rw [List.mem_append]; exact .inr hwm)
    have h2 : ∀ w ∈ [v, cd] ++ ws, SafeName w := fun w hwm => hsafe w (by rw [List.mem_append]; exact .inl hwm)
    refine ⟨b, ?_⟩
    show look s (FS.resolve base (lstripSlash (osPathJoin (dstr ([v, cd] ++ ws)) f))) = _
    rw [osPathJoin_dstr (isComp_list h2) (SafeName.isComp (hsafe f (by simp)))]
    rw [show lstripSlash (dstr ([v, cd] ++ ws ++ [f])) = joinWith '/' ([v, cd] ++ ws ++ [f]) from lstripSlash_slash (isComp_list hsafe)]
    rw [FS.resolve_join base hsafe, hb']

theorem gives_versionContent (hw : s.WF) (hd : look s base = some .dir) {cd : Str} (hcd : cd ≠ c!".") {df : Dict Str Str} {seen : List Str}
    (hs : Files s base seen) {v : Str} (hv : SafeName v) : Gives (versionContent E s base cd df seen v) (Files s base) := by
  have hres : FS.resolve base v = base ++ [v] := FS.resolve_name base hv
  unfold versionContent
  cases hl : look s (base ++ [v]) with
  | none =>
    have : listdir s base v = .error .fileNotFound := by
      unfold listdir
      rw [hres]
      dsimp only
      rw [hl, missing_child hw hd]
    rw [this]
    exact gives_bind (P := fun _ => True) (gives_err trivial) fun _ _ => gives_ret hs
  | some nd =>
    cases nd with
    | file b =>
      have : listdir s base v = .ok [(v, false)] := by
        unfold listdir
        rw [hres]
        dsimp only
        rw [hl]
        dsimp only
        rw [rstripSlash_name hv]
      rw [this]
      refine gives_bind ?_ fun st hst => gives_ret hst
      have hrel : relpath E.cwd v v = .ok c!"." := by
        unfold relpath
        have := sharedLength_append (absComps E.cwd v) []
        rw [List.append_nil] at this
        rw [if_neg hv.1]
        dsimp only
        rw [this]
        simp
      unfold versionEntry
      refine gives_bind (P := fun x => x = c!".") (gives_py hrel rfl) ?_
      rintro x rfl
      refine gives_ite (fun _ => gives_ret hs) (fun _ => gives_ite (fun h => absurd h.symm hcd) (fun _ => ?_))
      exact gives_ite (fun _ => gives_bind (P := fun _ => True) (gives_warn trivial) fun _ _ => gives_ret hs)
        (fun _ => gives_bind (P := fun _ => True) (gives_err trivial) fun _ _ => gives_ret hs)
    | dir =>
      rw [listdir_name hv hl]
      refine gives_forM (fun x hx seen hs => ?_) hs
      obtain ⟨⟨w, nd⟩, hm, rfl⟩ := List.mem_map.mp hx
      rw [mem_children hw] at hm
      have hm : look s (base ++ [v, w]) = some nd := by simpa using hm
      have hwn : SafeName w := look_names hw hm w (by simp)
      unfold versionEntry
      refine gives_bind (P := fun x => x = w) (gives_py (relpath_entry E.cwd hv hwn) rfl) ?_
      rintro x rfl
      refine gives_ite (fun _ => gives_ret hs) (fun _ => gives_ite (fun h => ?_) (fun _ => ?_))
      · subst h
        refine gives_bind (gives_contentFiles hw hv hm) fun files hf => gives_ret ?_
        intro p hp
        rcases List.mem_append.mp hp with h | h
        · exact hs p h
        · exact hf p h
      · exact gives_ite (fun _ => gives_bind (P := fun _ => True) (gives_warn trivial) fun _ _ => gives_ret hs)
          (fun _ => gives_bind (P := fun _ => True) (gives_err trivial) fun _ _ => gives_ret hs)

theorem digestAt_known {p : Path} {alg : Str} (h : KnownAlg alg) {b : Bytes} (hb : look s p = some (.file b)) :
    ∃ d, digestAt E s p alg = .ok d := by
  have hk : ∀ c, ∃ d, fileDigest E.raw alg c = some d := by
    intro c
    unfold fileDigest
    rcases h with h | h
    · unfold hexLength at h
      split_ifs at h with h1 h2 h3 h4 h5
      all_goals first
        | (rw [if_pos (by tauto)]; exact ⟨_, rfl⟩)
        | cases h
    · rcases h with rfl | rfl
      · exact ⟨_, rfl⟩
      · exact ⟨_, rfl⟩
  unfold digestAt FS.read
  obtain ⟨d0, h0⟩ := hk []
  obtain ⟨d, hd⟩ := hk b
  rw [h0, hb]
  dsimp only
  rw [hd]
  exact ⟨d, rfl⟩

theorem gives_checkAdditional {p code : Str} {rec : Recorded} (hk : Known rec) {b : Bytes} (hb : look s (FS.resolve base p) = some (.file b)) :
    Gives (checkAdditional E s base p code rec) (fun _ => True) := by
  unfold checkAdditional
  refine gives_forEach (fun r hr => gives_ite (fun _ => ?_) (fun _ => gives_ret trivial))
  obtain ⟨d, hd⟩ := digestAt_known (E := E) (hk r hr) hb
  exact gives_bind (P := fun _ => True) (gives_py hd trivial) fun _ _ => gives_errUnless trivial

theorem gives_manifestFile {alg : Str} (halg : KnownAlg alg) {fixity : Recorded} (hf : Known fixity) {st : VState} (hk : KnownState st)
    {left : List Str} (hl : Files s base left) (e : Str × Str) :
    Gives (manifestFile E cfg s base alg fixity st left e) (Files s base) := by
  unfold manifestFile
  refine gives_ite (fun _ => gives_bind (P := fun _ => True) (gives_err trivial) fun _ _ => gives_ret hl) (fun hm => ?_)
  have hm : e.2 ∈ left := by simpa using hm
  obtain ⟨b, hb⟩ := hl _ hm
  refine gives_bind (P := fun _ => True) (gives_ite (fun _ => ?_) (fun _ => gives_ret trivial)) fun _ _ =>
    gives_ret (fun p hp => hl p (List.mem_of_mem_filter hp))
  obtain ⟨d, hd⟩ := digestAt_known (E := E) halg hb
  refine gives_bind (P := fun _ => True) (gives_py hd trivial) fun _ _ => gives_bind (P := fun _ => True) (gives_errUnless trivial) fun _ _ => ?_
  exact gives_bind (gives_checkAdditional hf hb) fun _ _ => gives_bind (gives_checkAdditional hk.1 hb) fun _ _ =>
    gives_checkAdditional hk.2 hb

theorem gives_rootFixity {j : Json} (hwf : j.WF) {alg : Json} {cd : Str} {m : List (Str × List Str)} {vs : List (Str × Json)}
    {states : Str → List (Str × List Str)} {style : Option Nat} {n : Nat} (h : RulesWith false none j alg cd m vs states style n)
    {seen : List Str} : Gives (rootFixity j seen) Known := by
  obtain ⟨d, rfl, hm⟩ := h.manifest
  obtain ⟨hk, hw⟩ := wf_obj hwf
  unfold rootFixity
  refine gives_bind (P := fun b => b = Dict.has d c!"fixity") (gives_py (pyIn_obj d _) rfl) ?_
  rintro b rfl
  refine gives_ite (fun _ => gives_ret (fun x hx => (by cases hx))) (fun hh => ?_)
  have hh : Dict.has d c!"fixity" = true := by simpa using hh
  obtain ⟨fx, hfx⟩ := Dict.exists_of_mem_keys ((Dict.has_iff _ _).mp hh)
  have hr := h.fixity fx ((member_iff hk).mpr hfx)
  obtain ⟨blocks, hbl, hmem⟩ := iterFixity_ok (hw _ _ hfx) hr
  refine gives_bind (P := fun x => x = fx) (gives_py (by rw [pyIndex_obj, hfx]) rfl) ?_
  rintro x rfl
  refine gives_bind (P := fun x => x = blocks) (gives_py hbl rfl) ?_
  rintro x rfl
  refine gives_bind (P := fun _ => True) (gives_forEach fun _ _ => gives_errUnless trivial) fun _ _ => gives_ret ?_
  intro y hy
  obtain ⟨⟨a, mm⟩, hab, hy⟩ := List.mem_flatMap.mp (List.mem_of_mem_filter hy)
  obtain ⟨e, _, hy⟩ := List.mem_flatMap.mp hy
  obtain ⟨p, _, rfl⟩ := List.mem_map.mp hy
  exact (hr.block a _ ((hmem a mm).mp hab)).1 rfl

theorem gives_validateContent (hw : s.WF) (hd : look s base = some .dir) {root : Root} (hwf : root.inv.WF) {alg : Json} {cd : Str}
    {m : List (Str × List Str)} {vs : List (Str × Json)} {states : Str → List (Str × List Str)} {style : Option Nat} {n : Nat}
    (h : RulesWith false none root.inv alg cd m vs states style n) (halg : root.alg = c!"sha512" ∨ root.alg = c!"sha256")
    (hcd : root.res.contentDirectory ≠ c!".") {st : VState} (hk : KnownState st) {vds : List Str} (hv : ∀ v ∈ vds, SafeName v) :
    Gives (validateContent E cfg s base root st vds) (fun _ => True) := by
  unfold validateContent
  refine gives_bind (gives_forM (fun v hm seen hs => gives_versionContent hw hd hcd hs (hv v hm))
    (show Files s base [] from fun p hp => (by cases hp))) fun seen hs => ?_
  refine gives_bind (gives_rootFixity hwf h) fun fx hfx => ?_
  refine gives_bind (P := fun _ => True) ?_ fun _ _ => gives_errUnless trivial
  obtain ⟨d, he, hm⟩ := h.manifest
  rw [he] at hwf
  obtain ⟨hnk, hwv⟩ := wf_obj hwf
  have hg := Dict.get?_of_mem hnk hm
  unfold manifestContent
  rw [he]
  refine gives_bind (P := fun b => b = true) (gives_py (pyIn_obj d _) (has_of_get hg)) ?_
  rintro b rfl
  simp only [Bool.true_eq_false, if_false]
  refine gives_bind (P := fun x => x = ofDigestMap m) (gives_py (by rw [pyIndex_obj, hg]) rfl) ?_
  rintro x rfl
  refine gives_bind (P := fun x => x = m) (gives_py (iterBlock_map (nk_of_wf (hwv _ _ hg))) rfl) ?_
  rintro x rfl
  exact gives_mono (gives_forM (fun e _ left hl => gives_manifestFile (known_sha halg) hfx hk hl e) hs) fun _ _ => trivial

/-- Validation of a tidy directory ends with a verdict. -/
theorem verdict_at (hE : Libraries E) (hlax : cfg.lax = false) (hw : s.WF) (hd : look s base = some .dir) (ht : Tidy E s base) (errors : Nat) :
    ∃ ok es, validateAt E cfg errors s base = .ok (ok, es) := by
  obtain ⟨l, hnodup, _, hmem, hfind⟩ := C52_find hw (base := base) (ws := []) (by simp) (dir := []) (.inl rfl) (by simpa using hd) 0
  have hmem : ∀ t, t ∈ l ↔ look s (base ++ [c!"0=" ++ t]) ≠ none := by
    intro t
    rw [hmem, List.append_nil]
    rfl
  have hlen : l.length ≤ 10 := ht.fewDeclarations l hnodup fun t h => (hmem t).mp h
  unfold validateAt
  rw [hfind, if_neg (by omega)]
  dsimp only
  have hinv : FS.resolve base inventoryFilename = base ++ [c!"inventory.json"] := FS.resolve_name base (by decide)
  suffices h : Gives (validateSteps E cfg errors s base l) (fun _ => True) by
    rcases h with ⟨a, es, h, _⟩ | ⟨es, h⟩
    · rw [h]; exact ⟨_, _, rfl⟩
    · rw [h]; exact ⟨_, _, rfl⟩
  have hfirst : Gives (validateFirst E cfg s base l) (fun r => ∀ spec jr, r = some (spec, jr) →
      StoredJson E.lib s (base ++ [c!"inventory.json"]) jr.1 ∧ Attributes jr.1 jr.2) := by
    unfold validateFirst
    refine gives_bind (gives_checkDeclaration ht fun t h => (hmem t).mp h) fun spec _ => ?_
    refine gives_ite (fun _ => gives_bind (P := fun _ => True) (gives_err trivial) fun _ _ => gives_ret (by rintro _ _ ⟨⟩)) (fun hex => ?_)
    have hex : look s (base ++ [c!"inventory.json"]) ≠ none := by
      rw [hinv] at hex
      unfold FS.exists_ at hex
      intro h0
      rw [h0] at hex
      exact hex rfl
    refine gives_bind (gives_validateInventory hE hlax hinv (ht.inventory hex) ht.shape) fun jr hjr => gives_ret ?_
    rintro spec' jr' he
    cases he
    exact hjr
  unfold validateSteps
  rcases hfirst with ⟨r, es, he, hr⟩ | ⟨es, he⟩
  swap
  · rw [he]; exact .inr ⟨_, rfl⟩
  rw [he]
  cases r with
  | none => exact .inl ⟨_, _, rfl, trivial⟩
  | some x =>
    obtain ⟨spec, jr⟩ := x
    obtain ⟨hst, hattr⟩ := hr _ _ rfl
    have hjw := storedJson_wf hE.json hst
    have hfile : ∃ b, look s (base ++ [c!"inventory.json"]) = some (.file b) := by
      obtain ⟨b, _, hb, _⟩ := hst
      exact ⟨b, hb⟩
    refine gives_after ?_
    unfold validateRest
    obtain ⟨alg, halg, hj⟩ : ∃ alg, (alg = c!"sha512" ∨ alg = c!"sha256") ∧ jr.2.digestAlgorithm = .str alg := by
      rcases hattr.alg with h | h
      · exact ⟨_, .inl rfl, h⟩
      · exact ⟨_, .inr rfl, h⟩
    refine gives_bind (P := fun x => x = alg) (gives_py (by rw [hj]; rfl) rfl) ?_
    rintro x rfl
    dsimp only
    have hv : ∀ v ∈ jr.2.allVersions, SafeName v := by
      intro v hm
      obtain ⟨style, n, vs, rfl, _⟩ := hattr.versions v hm
      exact styleName_safe style n
    have hside := ht.sidecars [] x (.inl rfl)
    refine gives_bind (gives_validateInventoryDigest VDir.root halg (by simpa using hfile) hside) fun _ _ => ?_
    refine gives_bind (gives_validateObjectRoot hw hd) fun _ _ => ?_
    refine gives_bind (gives_versions hE hlax ht hst hattr halg hv) fun st hk => ?_
    refine gives_ite (fun hval => ?_) (fun _ => gives_ret trivial)
    have h0 : IV.numErrors es = 0 := by
      have : errors + IV.numErrors es = 0 := by simpa using hval
      omega
    have hp : Pass (validateFirst E cfg s base l) (some (spec, jr)) := ⟨es, he, h0⟩
    unfold validateFirst at hp
    rw [pass_bind] at hp
    obtain ⟨sp, _, hp⟩ := hp
    have hp : Clean (IV.validateBody E.isWord cfg.lax sp none jr.1) (jr.2, true) := by
      split_ifs at hp
      · rw [pass_bind] at hp
        obtain ⟨_, _, hp⟩ := hp
        cases pass_ret.mp hp
      · rw [pass_bind] at hp
        obtain ⟨jr', h1, hp⟩ := hp
        have := pass_ret.mp hp
        cases this
        exact ((pass_validateInventory hinv).mp h1).2
    rw [hlax, clean_says hjw] at hp
    obtain ⟨idv, spv, alg', cd, m, vs, states, style, n, hs⟩ := hp
    refine gives_validateContent hw hd hjw hs.rules halg ?_ hk hv
    show jr.2.contentDirectory ≠ _
    rw [hs.result]
    show cd.getD c!"content" ≠ _
    rcases hs.rules.contentDirectory with h | h
    · exact h.2.2.1
    · rw [h.2]; decide

end Validator
end Ocfl
