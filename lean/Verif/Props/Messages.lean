import Verif.Proofs.Messages
import Verif.Props.Verdict

/-!
# C90: every report of the validators is documented
-/

namespace Ocfl
open Spec Validator Messages

/-- The codes that are used but have no description. -/
def undescribed : List Str := [c!"E011", c!"E092"]

/-- The description of the code can be filled in from its arguments, and the code has an anchor. -/
def describedBy (code : Str) (names : List Str) : Bool :=
  match Dict.get? standard code with
  | some ⟨ps, some [(lang, template)]⟩ =>
    lang = c!"en" && places template = some (ps.getD []).length && (ps.getD []).all (· ∈ names) &&
      matchCode code = some (code.take 4, (code.take 4).tail) && intOf (code.take 4).tail < 200
  | _ => false

theorem described_all : (argNames.all fun e => e.1 ∈ undescribed || describedBy e.1 e.2) = true := by decide +kernel

theorem usedErrors_kind {c : Str} (h : c ∈ usedErrors) : c.head? = some 'E' := by
  simpa using (List.mem_filter.mp h).2

theorem usedWarnings_kind {c : Str} (h : c ∈ usedWarnings) : c.head? = some 'W' := by
  simpa using (List.mem_filter.mp h).2

theorem used_kind {e : Entry} (h : Used e) : RightKind e.isError e.code := by
  unfold Used at h
  unfold RightKind
  cases he : e.isError with
  | true => rw [he] at h; exact usedErrors_kind h
  | false => rw [he] at h; exact usedWarnings_kind h

theorem used_names {e : Entry} (h : Used e) : ∃ names, (e.code, names) ∈ argNames := by
  have hm : e.code ∈ Dict.keys argNames := by
    unfold Used at h
    split at h
    · exact (List.mem_filter.mp h).1
    · exact (List.mem_filter.mp h).1
  obtain ⟨x, hx, hx'⟩ := List.mem_map.mp hm
  exact ⟨x.2, by rw [← hx']; exact hx⟩

theorem paramValues_given {args : Dict Str Str} : ∀ {params : List Str}, (∀ p ∈ params, ∃ v, Dict.get? args p = some v) →
    (paramValues args params).map some = params.map (Dict.get? args)
  | [], _ => rfl
  | p :: ps, h => by
    obtain ⟨v, hv⟩ := h p (by simp)
    have ih := paramValues_given (params := ps) (fun q hq => h q (by simp [hq]))
    unfold paramValues at ih ⊢
    rw [List.map_cons, List.map_cons, List.map_cons, ih, hv]
    rfl

theorem filled_nil {t text : Str} (h : FilledIn t [] text) : t = text := by
  generalize hv : ([] : List Str) = vs at h
  induction h with
  | nil => rfl
  | char _ _ ih => rw [ih hv]
  | place _ _ => cases hv

theorem langText_en (lang sev template : Str) : langText lang sev [(c!"en", template)] = template := by
  unfold langText
  by_cases hl : c!"en" = lang
  · subst hl; rfl
  · have : Dict.get? [(c!"en", template)] lang = none := by
      simp [Dict.get?, hl]
    rw [this]
    rfl

/-- The text for a code with a description and parameters. -/
theorem body_eq {code template text : Str} {params : List Str} {args : Dict Str Str} (repr : Dict Str Str → Str) (lang : Str)
    (isError : Bool) (hg : Dict.get? standard code = some ⟨some params, some [(c!"en", template)]⟩)
    (hp : (percent template (paramValues args params)).getD (template ++ c!" " ++ repr args) = text) :
    body standard repr lang code isError args = c!"[" ++ code ++ c!"] " ++ text := by
  unfold body
  rw [hg]
  dsimp only
  rw [langText_en, hp]

/-- What the code writes for a described code. -/
theorem message_documented {code : Str} {names : List Str} (hn : (code, names) ∈ argNames) (hu : code ∉ undescribed)
    (repr : Dict Str Str → Str) (lang specVersion : Str) (isError : Bool) {args : Dict Str Str} (ha : ArgsGiven code args) :
    Documented standard specVersion code args (message standard repr lang specVersion code isError args) := by
  have hd := List.all_eq_true.mp described_all _ hn
  rw [Bool.or_eq_true] at hd
  have hd := hd.resolve_left (fun h => hu (by simpa using h))
  unfold describedBy at hd
  split at hd
  · rename_i ps lang' template hg
    simp only [Bool.and_eq_true, decide_eq_true_eq] at hd
    obtain ⟨⟨⟨⟨rfl, hpl⟩, hps⟩, hmc⟩, hlt⟩ := hd
    have hgiven : ∀ p ∈ ps.getD [], ∃ v, Dict.get? args p = some v := by
      intro p hp
      have := List.all_eq_true.mp hps p hp
      exact ha names hn p (by simpa using this)
    have hlen : (paramValues args (ps.getD [])).length = (ps.getD []).length := by
      unfold paramValues
      exact List.length_map _
    obtain ⟨text, hper, hfill⟩ := percent_filled template (paramValues args (ps.getD [])) (by rw [hpl, hlen])
    refine ⟨_, template, ps.getD [], paramValues args (ps.getD []), text, Dict.mem_of_get? hg, rfl, rfl, paramValues_given hgiven, hfill, ?_⟩
    have hbody : body standard repr lang code isError args = c!"[" ++ code ++ c!"] " ++ text := by
      unfold body
      rw [hg]
      dsimp only
      rw [langText_en]
      cases ps with
      | none =>
        cases filled_nil hfill
        rfl
      | some params =>
        have : percent template (paramValues args params) = some text := hper
        dsimp only
        rw [this]
        rfl
    unfold message specLink
    rw [hbody, hmc]
    dsimp only
    rw [if_pos hlt]
    simp only [List.append_assoc]
  · cases hd

/-- **C90** Every report made when an object is validated, whatever is there, has a code of the right kind; and all but
two codes have a description in which every place is filled in with what is given, and a link to the specification. -/
theorem C90_partial {E : Env} {cfg : Config} {errors : Nat} {s : FS} {path : Str} {ok : Bool} {es : List Entry}
    (h : validateObject E cfg errors s path = .ok (ok, es)) :
    ∀ e ∈ es, RightKind e.isError e.code ∧
      (e.code ∉ undescribed → ∀ repr lang specVersion args, ArgsGiven e.code args →
        Documented standard specVersion e.code args (message standard repr lang specVersion e.code e.isError args)) := by
  intro e he
  have hu := used_object h e he
  obtain ⟨names, hn⟩ := used_names hu
  exact ⟨used_kind hu, fun hd repr lang sv args ha => message_documented hn hd repr lang sv e.isError ha⟩

/-- **C90** for the validation of an inventory alone. -/
theorem C90_inventory {isWord : Char → Bool} {lax : Bool} {ds : Str} {force : Option Str} {j : Json} {r : IV.Result}
    {ok : Bool} {es : List Entry} (h : IV.validate isWord lax ds force j = .ok (r, ok, es)) :
    ∀ e ∈ es, RightKind e.isError e.code ∧
      (e.code ∉ undescribed → ∀ repr lang specVersion args, ArgsGiven e.code args →
        Documented standard specVersion e.code args (message standard repr lang specVersion e.code e.isError args)) := by
  intro e he
  have hu := (IV.used_validate h e he).1
  obtain ⟨names, hn⟩ := used_names hu
  exact ⟨used_kind hu, fun hd repr lang sv args ha => message_documented hn hd repr lang sv e.isError ha⟩

/-! ## Cases -/

/-- The entries of the validation of an inventory. -/
def reportsOf (j : Json) : Option (List Entry) :=
  match IV.validate demoEnv.isWord false c!"1.1" none j with
  | .ok (_, _, es) => some es
  | .error _ => none

theorem reportsOf_spec {j : Json} {es : List Entry} (h : reportsOf j = some es) :
    ∃ r ok, IV.validate demoEnv.isWord false c!"1.1" none j = .ok (r, ok, es) := by
  unfold reportsOf at h
  split at h
  · rename_i r ok es' he
    cases h
    exact ⟨r, ok, he⟩
  · cases h

/-- A version with the given logical path. -/
def pathVersion (v p : Str) : Str × Json :=
  (v, .obj [(c!"created", .str c!"2020-01-01T00:00:00Z"), (c!"message", .str c!"m"),
    (c!"user", .obj [(c!"name", .str c!"n"), (c!"address", .str c!"mailto:n@x")]), (c!"state", ofDigestMap [(smallDigest, [p])])])

/-- A report and its text: the wrong head of an inventory. -/
example : reportsOf (smallInv c!"v2" [pathVersion c!"v1" c!"f"] [smallManifest]) = some [⟨true, c!"E040"⟩] ∧
    ArgsGiven c!"E040" [(c!"where", c!"root"), (c!"got", c!"v2"), (c!"expected", c!"v1")] ∧
    message standard (fun _ => []) c!"en" c!"1.1" c!"E040" true [(c!"where", c!"root"), (c!"got", c!"v2"), (c!"expected", c!"v1")] =
      c!"[E040] OCFL Object root inventory head attribute doesn't match versions (got v2, expected v1) (see https://ocfl.io/1.1/spec/#E040)" := by
  refine ⟨by decide +kernel, ?_, by decide +kernel⟩
  have : ∀ e ∈ argNames, e.1 = c!"E040" → ∀ n ∈ e.2,
      (Dict.get? [(c!"where", c!"root"), (c!"got", c!"v2"), (c!"expected", c!"v1")] n).isSome = true := by decide +kernel
  intro names hn n hnn
  exact Option.isSome_iff_exists.mp (this _ hn rfl n hnn)

/-- **C90** fails for a manifest entry that is not a list: the code `E092` is used, where the table has `E091` for this
case, and the text is that of an unknown error. -/
theorem C90_violated : reportsOf (smallInv c!"v1" [pathVersion c!"v1" c!"f"] [(c!"manifest", .obj [(smallDigest, .str c!"v1/content/f")])]) =
      some [⟨true, c!"E092"⟩, ⟨true, c!"E050f"⟩, ⟨true, c!"E050a"⟩] ∧
    (∀ info, (c!"E092", info) ∉ standard) ∧
    ∀ repr lang specVersion args, message standard repr lang specVersion c!"E092" true args =
      c!"Unknown error: E092 - params (" ++ repr args ++ c!") (see https://ocfl.io/" ++ specVersion ++ c!"/spec/#E092)" := by
  refine ⟨by decide +kernel, ?_, ?_⟩
  · have : (standard.all fun e => e.1 ≠ c!"E092") = true := by decide +kernel
    intro info h
    simpa using List.all_eq_true.mp this _ h
  · intro repr lang sv args
    have hg : Dict.get? standard c!"E092" = none := by decide +kernel
    have hm : matchCode c!"E092" = some (c!"E092", c!"092") := by decide +kernel
    have hi : intOf c!"092" < 200 := by decide +kernel
    unfold message body specLink
    rw [hg, hm]
    dsimp only
    rw [if_pos hi]
    simp only [List.append_assoc, List.cons_append, List.nil_append, if_true]

/-- **C90** fails for more versions than zero-padded names have room for: `E011` is not in the table. -/
theorem C90_violated_padding :
    reportsOf (smallInv c!"v09" ((List.range 9).map (fun i => pathVersion (c!"v" ++ padStr 2 (i + 1)) c!"f") ++ [pathVersion c!"v10" c!"f"])
      [(c!"manifest", ofDigestMap [(smallDigest, [c!"v01/content/f"])])]) = some [⟨false, c!"W001"⟩, ⟨true, c!"E011"⟩] ∧
    ∀ info, (c!"E011", info) ∉ standard := by
  refine ⟨by decide +kernel, ?_⟩
  have : (standard.all fun e => e.1 ≠ c!"E011") = true := by decide +kernel
  intro info h
  simpa using List.all_eq_true.mp this _ h

/-- The descriptions of two codes are exchanged: a logical path with `..` is reported as one that begins or ends with
a slash, and the other way round. -/
theorem C90_exchanged :
    (reportsOf (smallInv c!"v1" [pathVersion c!"v1" c!"a/../f"] [smallManifest]) = some [⟨true, c!"E052"⟩] ∧
      ∀ repr lang, body standard repr lang c!"E052" true [(c!"where", c!"root"), (c!"version", c!"v1"), (c!"path", c!"a/../f")] =
        c!"[E052] OCFL Object root inventory v1 version block state block includes an invalid path a/../f that starts or ends with /") ∧
    (reportsOf (smallInv c!"v1" [pathVersion c!"v1" c!"f/"] [smallManifest]) = some [⟨true, c!"E053"⟩] ∧
      ∀ repr lang, body standard repr lang c!"E053" true [(c!"where", c!"root"), (c!"version", c!"v1"), (c!"path", c!"f/")] =
        c!"[E053] OCFL Object root inventory v1 version block state block includes an invalid path f/ that includes . .. or //") := by
  refine ⟨⟨by decide +kernel, fun repr lang => ?_⟩, by decide +kernel, fun repr lang => ?_⟩
  · exact body_eq repr lang true (params := [c!"where", c!"version", c!"path"])
      (template := c!"OCFL Object %s inventory %s version block state block includes an invalid path %s that starts or ends with /")
      (by decide +kernel) rfl
  · exact body_eq repr lang true (params := [c!"where", c!"version", c!"path"])
      (template := c!"OCFL Object %s inventory %s version block state block includes an invalid path %s that includes . .. or //")
      (by decide +kernel) rfl

/-- Three reports on storage roots are not complete, with the arguments given in `ocfl/storage_root.py` lines 250-252, 289
and 292: there is no name of the declaration, and for the layout file the places and the parameters do not fit together. -/
theorem C90_violated_root (repr : Dict Str Str → Str) (lang root declared expected : Str) :
    body standard repr lang c!"E069c" true [(c!"root", root), (c!"declared_spec_version", declared), (c!"expected_spec_version", expected)] =
      c!"[E069c] " ++ (c!"OCFL Storage Root " ++ root ++ c!" has unrecognized 0= declaration file ???") ∧
    body standard repr lang c!"E070b" true [(c!"root", root)] =
      c!"[E070b] " ++ (c!"OCFL Storage Root %s has an ocfl_layout.json file that isn't a JSON object " ++ repr [(c!"root", root)]) ∧
    body standard repr lang c!"E070c" true [(c!"root", root)] =
      c!"[E070c] " ++ (c!"OCFL Storage Root " ++ root ++
        c!" Storage root ??? has layout file doesn't have required extension and description string entries") := by
  refine ⟨?_, ?_, ?_⟩
  · exact body_eq repr lang true (params := [c!"root", c!"namaste_file"])
      (template := c!"OCFL Storage Root %s has unrecognized 0= declaration file %s") (by decide +kernel) (by
        show c!"OCFL Storage Root " ++ (root ++ c!" has unrecognized 0= declaration file ???") = _
        rw [List.append_assoc])
  · exact body_eq repr lang true (params := [c!"root", c!"message"])
      (template := c!"OCFL Storage Root %s has an ocfl_layout.json file that isn't a JSON object") (by decide +kernel) (by
        have : percent c!"OCFL Storage Root %s has an ocfl_layout.json file that isn't a JSON object"
          (paramValues [(c!"root", root)] [c!"root", c!"message"]) = none := rfl
        rw [this]
        rfl)
  · exact body_eq repr lang true (params := [c!"root", c!"message"])
      (template := c!"OCFL Storage Root %s Storage root %s has layout file doesn't have required extension and description string entries")
      (by decide +kernel) (by
        show c!"OCFL Storage Root " ++ (root ++
          c!" Storage root ??? has layout file doesn't have required extension and description string entries") = _
        rw [List.append_assoc])

end Ocfl
