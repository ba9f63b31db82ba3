import Verif.Spec.InventoryShape
import Verif.Proofs.InventoryIff

/-!
# The inventory validator does not raise on documents of the right shape
-/

namespace Ocfl
open IV V Spec

theorem noRaise_ite {α : Type} {p : Prop} [Decidable p] {m m' : V α} (h : p → NoRaise m) (h' : ¬ p → NoRaise m') :
    NoRaise (if p then m else m') := by
  split
  · exact h ‹_›
  · exact h' ‹_›

theorem noRaise_lift {α : Type} {x : Py α} {a : α} (h : x = .ok a) : NoRaise (V.lift x) := by
  subst h; exact ⟨_, _, rfl⟩

theorem noRaise_bind' {α β : Type} {m : V α} {f : α → V β} (h : NoRaise m) (hf : ∀ a, NoRaise (f a)) :
    NoRaise (m >>= f) := noRaise_bind h (fun a _ _ => hf a)

theorem lift_done {α : Type} {x : Py α} {a : α} {es : List Entry} (h : V.lift x = .done a es) : x = .ok a := by
  unfold V.lift at h
  split at h
  · cases h
  · cases h; rfl

/-- `if k in d: f(d[k]) else: g` -/
theorem noRaise_field {α : Type} {d : List (Str × Json)} {k : Str} {f : Json → V α} {g : V α}
    (h : ∀ v, Dict.get? d k = some v → NoRaise (f v)) (hg : Dict.get? d k = none → NoRaise g) :
    NoRaise (V.lift ((Json.obj d).pyIn k) >>= fun b => if b = true then V.lift ((Json.obj d).pyIndex k) >>= f else g) := by
  refine noRaise_bind (noRaise_lift (pyIn_obj d k)) ?_
  intro b es hb
  have hb := lift_done hb
  rw [pyIn_obj] at hb
  cases hb
  cases hk : Dict.get? d k with
  | none =>
    rw [(Dict.has_eq_false_iff_get d k).mpr hk]
    exact hg hk
  | some v =>
    rw [has_of_get hk, pyIndex_obj, hk]
    refine noRaise_bind (noRaise_lift rfl) ?_
    intro v' es' hv
    cases lift_done hv
    exact h v hk

theorem noRaise_field_not {α : Type} {d : List (Str × Json)} {k : Str} {f : Json → V α} {g : V α}
    (h : ∀ v, Dict.get? d k = some v → NoRaise (f v)) (hg : Dict.get? d k = none → NoRaise g) :
    NoRaise (V.lift ((Json.obj d).pyIn k) >>= fun b => if (!b) = true then g else V.lift ((Json.obj d).pyIndex k) >>= f) := by
  have := noRaise_field h hg
  convert this using 2
  funext b
  cases b <;> rfl

theorem noRaise_checkId (d : List (Str × Json)) : NoRaise (checkId (.obj d)) := by
  unfold checkId
  refine noRaise_field ?_ ?_
  · intro v _
    split
    · refine noRaise_ite (fun _ => noRaise_bind' noRaise_err fun _ => noRaise_ret) (fun _ => ?_)
      split
      · exact noRaise_bind' noRaise_warn fun _ => noRaise_ret
      · exact noRaise_bind' noRaise_ret fun _ => noRaise_ret
    · exact noRaise_bind' noRaise_err fun _ => noRaise_ret
  · intro _
    exact noRaise_bind' noRaise_err fun _ => noRaise_ret

theorem noRaise_errRet {α : Type} {c : Str} {a : α} : NoRaise (V.err c >>= fun _ => V.ret a) :=
  noRaise_bind' noRaise_err fun _ => noRaise_ret

theorem noRaise_warnRet {α : Type} {c : Str} {a : α} : NoRaise (V.warn c >>= fun _ => V.ret a) :=
  noRaise_bind' noRaise_warn fun _ => noRaise_ret

theorem noRaise_checkType (force : Option Str) (spec : Str) (d : List (Str × Json)) :
    NoRaise (checkType force spec (.obj d)) := by
  unfold checkType
  refine noRaise_field_not ?_ (fun _ => noRaise_errRet)
  intro v _
  split
  · refine noRaise_ite (fun _ => noRaise_errRet) (fun _ => ?_)
    split
    · exact noRaise_errRet
    · exact noRaise_ite (fun _ => noRaise_ret) (fun _ => noRaise_errRet)
  · exact noRaise_errRet

theorem noRaise_checkDigestAlgorithm (lax : Bool) (d : List (Str × Json)) :
    NoRaise (checkDigestAlgorithm lax (.obj d)) := by
  unfold checkDigestAlgorithm
  refine noRaise_field_not ?_ (fun _ => noRaise_errRet)
  intro v _
  refine noRaise_ite (fun _ => noRaise_ret) (fun _ => noRaise_ite (fun _ => noRaise_ret) (fun _ =>
    noRaise_ite (fun _ => noRaise_warnRet) (fun _ => noRaise_errRet)))

theorem noRaise_checkContentDirectory (d : List (Str × Json)) : NoRaise (checkContentDirectory (.obj d)) := by
  unfold checkContentDirectory
  refine noRaise_field ?_ (fun _ => noRaise_ret)
  intro v _
  split
  · exact noRaise_ite (fun _ => noRaise_errRet) (fun _ => noRaise_ite (fun _ => noRaise_errRet) (fun _ => noRaise_ret))
  · exact noRaise_errRet

theorem noRaise_digestMatcher {lax : Bool} {alg : Json} (h : ¬ Unhashable alg) : NoRaise (digestMatcher lax alg) := by
  have hu : NoRaise (do
      if !lax then err c!"E026a" else ret ()
      ret matchAny : V (Str → Bool)) := by
    cases lax
    · exact noRaise_errRet
    · exact noRaise_bind' noRaise_ret fun _ => noRaise_ret
  unfold digestMatcher
  dsimp only
  split
  · split
    · exact noRaise_ret
    · exact hu
  · exact absurd (Or.inl ⟨_, rfl⟩) h
  · exact absurd (Or.inr ⟨_, rfl⟩) h
  · exact hu

theorem noRaise_checkContentPath (cd p : Str) (paths dirs : List Str) : NoRaise (checkContentPath cd p paths dirs) := by
  unfold checkContentPath
  refine noRaise_ite (fun _ => noRaise_errRet) (fun _ => ?_)
  split
  · exact noRaise_errRet
  · refine noRaise_ite (fun _ => noRaise_errRet) (fun _ => ?_)
    dsimp only
    exact noRaise_ite (fun _ => noRaise_errRet) (fun _ => noRaise_ite (fun _ => noRaise_errRet) (fun _ => noRaise_ret))

theorem noRaise_manifestFile (cd norm : Str) (s : MState) (f : Str) : NoRaise (manifestFile cd norm s (.str f)) := by
  unfold manifestFile
  exact noRaise_bind' (noRaise_checkContentPath ..) fun _ => noRaise_ret

theorem noRaise_manifestDigest {lax : Bool} {alg : Json} (ha : ¬ Unhashable alg) {cd : Str} {s : MState} {e : Str × Json}
    (h : ∀ l, e.2 = .arr l → ∀ x ∈ l, ∃ s, x = .str s) : NoRaise (manifestDigest lax alg cd s e) := by
  unfold manifestDigest
  refine noRaise_bind' (noRaise_digestMatcher ha) fun m => ?_
  refine noRaise_ite (fun _ => noRaise_errRet) (fun _ => ?_)
  split
  · rename_i files hf
    dsimp only
    have hall : ∀ s, NoRaise (forM (manifestFile cd (normalizedDigestJ e.1 alg)) files s) := fun s => by
      refine noRaise_forM (fun x hx s => ?_) _
      obtain ⟨f, rfl⟩ := h files hf x hx
      exact noRaise_manifestFile ..
    split
    · exact noRaise_bind' noRaise_err fun _ => noRaise_bind' noRaise_ret hall
    · exact noRaise_bind' noRaise_ret hall
  · exact noRaise_errRet

theorem noRaise_conflicts (c : Str) (paths dirs : List Str) : NoRaise (conflicts c paths dirs) := by
  unfold conflicts
  exact noRaise_forM (fun x _ s => noRaise_ite (fun _ => noRaise_err) (fun _ => noRaise_ret)) _

theorem noRaise_validateManifest {lax : Bool} {alg : Json} (ha : ¬ Unhashable alg) {cd : Str} {m : Json}
    (h : ListsOfStrings m) : NoRaise (validateManifest lax alg cd m) := by
  unfold validateManifest
  split
  · rename_i m
    refine noRaise_bind' (noRaise_forM (fun e he s => noRaise_manifestDigest ha ?_) _) fun s => ?_
    · intro l hl
      exact h e.1 l ⟨m, rfl, by rw [← hl]; exact he⟩
    · exact noRaise_bind' (noRaise_conflicts ..) fun _ => noRaise_ret
  · exact noRaise_errRet

theorem noRaise_checkLogicalPath (p : Str) (s : List Str × List Str) : NoRaise (checkLogicalPath p s) := by
  unfold checkLogicalPath
  refine noRaise_ite (fun _ => noRaise_errRet) (fun _ => ?_)
  dsimp only
  exact noRaise_ite (fun _ => noRaise_errRet) (fun _ => noRaise_ret)

theorem noRaise_validateStateBlock {lax : Bool} {alg : Json} (ha : ¬ Unhashable alg) (u : List Str) {st : Json}
    (h : ListsOfStrings st) : NoRaise (validateStateBlock lax alg (some u) st) := by
  unfold validateStateBlock
  split
  · rename_i st
    refine noRaise_bind' (noRaise_digestMatcher ha) fun m => ?_
    refine noRaise_bind' (noRaise_forM (fun e he s => ?_) _) fun s => noRaise_bind' (noRaise_conflicts ..) fun _ => noRaise_ret
    unfold stateDigest
    refine noRaise_ite (fun _ => noRaise_errRet) (fun _ => ?_)
    split
    · rename_i paths hp
      refine noRaise_bind' (noRaise_forM (fun x hx s => ?_) _) fun s => ?_
      · obtain ⟨p, rfl⟩ := h e.1 paths ⟨st, rfl, by rw [← hp]; exact he⟩ x hx
        unfold statePath
        exact noRaise_ite (fun _ => noRaise_errRet) (fun _ => noRaise_checkLogicalPath ..)
      · dsimp only
        split
        · exact noRaise_errRet
        · exact noRaise_bind' noRaise_ret fun _ => noRaise_ret
    · exact noRaise_errRet
  · exact noRaise_errRet

theorem strToDatetime_error {s : Str} {e : PyErr} (h : strToDatetime s = .error e) : e = .valueError := by
  unfold strToDatetime at h
  dsimp only at h
  split at h
  · cases h; rfl
  · split at h
    · cases h; rfl
    · split at h
      · cases h; rfl
      · split at h
        · cases h
        · split at h
          · cases h; rfl
          · cases h

theorem noRaise_checkCreated (b : List (Str × Json)) : NoRaise (checkCreated (.obj b)) := by
  unfold checkCreated
  refine noRaise_field_not ?_ (fun _ => noRaise_err)
  intro v _
  split
  · split
    · exact noRaise_err
    · rename_i e he _
      exact absurd (strToDatetime_error ‹_›) ‹_›
    · dsimp only
      refine noRaise_ite (fun _ => noRaise_bind' noRaise_err fun _ => ?_) (fun _ => noRaise_bind' noRaise_ret fun _ => ?_) <;>
        exact noRaise_ite (fun _ => noRaise_err) (fun _ => noRaise_ret)
  · exact noRaise_err

theorem noRaise_checkMessage (b : List (Str × Json)) : NoRaise (checkMessage (.obj b)) := by
  unfold checkMessage
  refine noRaise_field_not ?_ (fun _ => noRaise_warn)
  intro v _
  split
  · exact noRaise_ret
  · exact noRaise_err

theorem noRaise_checkUser (isWord : Char → Bool) (b : List (Str × Json)) : NoRaise (checkUser isWord (.obj b)) := by
  unfold checkUser
  refine noRaise_field_not ?_ (fun _ => noRaise_warn)
  intro v _
  split
  · have hx : ∀ u : List (Str × Json), NoRaise (match Dict.get? u c!"address" with
      | none => warn c!"W008"
      | some (.str a) => if !matchAddress isWord a then warn c!"W009" else ret ()
      | some _ => err c!"E054c") := by
      intro u
      split
      · exact noRaise_warn
      · exact noRaise_ite (fun _ => noRaise_warn) (fun _ => noRaise_ret)
      · exact noRaise_err
    rename_i u _
    dsimp only
    cases (Dict.get? u c!"name").bind Json.str? with
    | some _ => exact noRaise_bind' noRaise_ret fun _ => hx _
    | none => exact noRaise_bind' noRaise_err fun _ => hx _
  · exact noRaise_err

theorem noRaise_validateVersion {isWord : Char → Bool} {lax : Bool} {alg : Json} (ha : ¬ Unhashable alg) (u : List Str)
    {vs : List (Str × Json)} {v : Str} {b : List (Str × Json)} (hv : Dict.get? vs v = some (.obj b))
    (hst : ∀ st, Dict.get? b c!"state" = some st → ListsOfStrings st) (used : List Str) :
    NoRaise (validateVersion isWord lax alg (some u) (.obj vs) used v) := by
  unfold validateVersion
  have hp : (Json.obj vs).pyIndex v = .ok (.obj b) := by rw [pyIndex_obj, hv]
  refine noRaise_bind (noRaise_lift hp) ?_
  intro b' es hb
  have hb := lift_done hb
  rw [hp] at hb
  cases hb
  refine noRaise_bind' (noRaise_checkCreated b) fun _ => ?_
  have hrest : ∀ used : List Str, NoRaise (do
      checkMessage (.obj b)
      checkUser isWord (.obj b)
      ret used : V (List Str)) := fun used =>
    noRaise_bind' (noRaise_checkMessage b) fun _ => noRaise_bind' (noRaise_checkUser isWord b) fun _ => noRaise_ret
  dsimp only
  refine noRaise_field ?_ (fun _ => noRaise_bind' noRaise_err fun _ => noRaise_bind' noRaise_ret hrest)
  intro st hs
  exact noRaise_bind' (noRaise_validateStateBlock ha u (hst st hs)) fun _ => noRaise_bind' noRaise_ret hrest

theorem sequenceFrom_keys {vs : List (Str × Json)} {w : Option Nat} {mx : Nat} (h1 : Dict.has vs (vfmt w 1) = true) :
    NoRaise (sequenceFrom vs w mx) ∧ ∀ r es, sequenceFrom vs w mx = .done r es → ∀ v ∈ r, v ∈ Dict.keys vs := by
  obtain ⟨k, _, hl, hkeys, _⟩ := seqLoop_spec vs w (mx - 1) 2
  have hmem : ∀ v ∈ vfmt w 1 :: (seqLoop vs w (mx - 1) 2).1, v ∈ Dict.keys vs := by
    intro v hv
    rcases List.mem_cons.mp hv with rfl | hv
    · exact (Dict.has_iff _ _).mp h1
    · rw [hl, mem_namesFrom] at hv
      obtain ⟨i, hi1, hi2, rfl⟩ := hv
      exact hkeys i hi1 hi2
  unfold sequenceFrom
  have hd : ∀ (c : Bool) (code : Str) (l : List Str), NoRaise (do
      if c then err code else ret ()
      ret l : V (List Str)) ∧ ∀ r es, (do
      if c then err code else ret ()
      ret l : V (List Str)) = .done r es → r = l := by
    intro c code l
    cases c
    · exact ⟨noRaise_bind' noRaise_ret fun _ => noRaise_ret, fun r es h => by cases h; rfl⟩
    · exact ⟨noRaise_errRet, fun r es h => by cases h; rfl⟩
  generalize hq : seqLoop vs w (mx - 1) 2 = q at hmem
  obtain ⟨l, r⟩ := q
  dsimp only at hmem ⊢
  cases r with
  | none =>
    have := hd (decide (vs.length > mx)) c!"E011" (vfmt w 1 :: l)
    simp only [decide_eq_true_eq] at this
    exact ⟨this.1, fun r es h => by rw [this.2 r es h]; exact hmem⟩
  | some n =>
    have := hd (decide (vs.length ≠ n - 1)) c!"E010" (vfmt w 1 :: l)
    simp only [decide_eq_true_eq] at this
    exact ⟨this.1, fun r es h => by rw [this.2 r es h]; exact hmem⟩

theorem noRaise_validateVersionSequence (j : Json) :
    NoRaise (validateVersionSequence j) ∧ ∀ r es, validateVersionSequence j = .done r es →
      ∀ v ∈ r, ∃ vs, j = .obj vs ∧ v ∈ Dict.keys vs := by
  have he : ∀ c : Str, NoRaise (do
      err c
      ret [] : V (List Str)) ∧ ∀ r es, (do
      err c
      ret [] : V (List Str)) = .done r es → ∀ v ∈ r, ∃ vs, j = .obj vs ∧ v ∈ Dict.keys vs := by
    intro c
    refine ⟨noRaise_errRet, fun r es h => ?_⟩
    cases h
    simp
  unfold validateVersionSequence
  split
  · rename_i vs
    split
    · exact he _
    · split
      · rename_i h
        obtain ⟨h1, h2⟩ := sequenceFrom_keys (w := none) (mx := 999999) (show Dict.has vs (vfmt none 1) = true from h)
        exact ⟨h1, fun r es h v hv => ⟨vs, rfl, h2 r es h v hv⟩⟩
      · split
        · exact he _
        · rename_i w hw
          obtain ⟨h1, h2⟩ := sequenceFrom_keys (w := some w) (mx := 10 ^ (w - 1) - 1) (vs := vs) (by
            rw [vfmt_eq]; exact (Dict.has_iff _ _).mpr (findWidth_some hw).2)
          obtain ⟨a, es, ha⟩ := h1
          have hq : (do
            warn c!"W001"
            sequenceFrom vs (some w) (10 ^ (w - 1) - 1)) = V.done a ([⟨false, c!"W001"⟩] ++ es) := by
            show V.bind _ _ = _
            unfold V.bind V.warn
            dsimp only
            rw [ha]
          rw [hq]
          refine ⟨⟨_, _, rfl⟩, ?_⟩
          intro r es' h v hv
          cases h
          exact ⟨vs, rfl, h2 _ _ ha v hv⟩
  · exact he _

theorem noRaise_fixityFile {mf : Dict Str Str} {x : Json} (h : ¬ Unhashable x) : NoRaise (fixityFile (some mf) x) := by
  unfold fixityFile
  dsimp only
  split
  · exact noRaise_ite (fun _ => noRaise_ret) (fun _ => noRaise_err)
  · exact absurd (Or.inl ⟨_, rfl⟩) h
  · exact absurd (Or.inr ⟨_, rfl⟩) h
  · exact noRaise_err

theorem noRaise_fixityBlock {m : Str → Bool} {known : Bool} {alg : Str} {mf : Dict Str Str} {b : Json}
    (h : ∀ d l, Member b d (.arr l) → ∀ x ∈ l, ¬ Unhashable x) : NoRaise (fixityBlock m known alg (some mf) b) := by
  unfold fixityBlock
  split
  · rename_i b
    refine noRaise_bind' (noRaise_forM (fun e he seen => ?_) _) fun _ => noRaise_ret
    unfold fixityDigest
    refine noRaise_ite (fun _ => noRaise_errRet) (fun _ => ?_)
    split
    · rename_i files hf
      dsimp only
      have hall : ∀ seen : List Str, NoRaise (do
          forM (fun _ f => fixityFile (some mf) f) files ()
          ret seen : V (List Str)) := fun seen =>
        noRaise_bind' (noRaise_forM (fun x hx _ =>
          noRaise_fixityFile (h e.1 files ⟨b, rfl, by rw [← hf]; exact he⟩ x hx)) _) fun _ => noRaise_ret
      split <;> split
      · exact noRaise_bind' noRaise_err fun _ => noRaise_bind' noRaise_ret hall
      · exact noRaise_bind' noRaise_ret hall
      · exact noRaise_bind' noRaise_err fun _ => noRaise_bind' noRaise_ret hall
      · exact noRaise_bind' noRaise_ret hall
    · exact noRaise_errRet
  · exact noRaise_err

theorem noRaise_validateFixity {lax : Bool} {spec : Str} {mf : Dict Str Str} {fx : Json}
    (h : ∀ alg b d l, Member fx alg b → Member b d (.arr l) → ∀ x ∈ l, ¬ Unhashable x) :
    NoRaise (validateFixity lax spec (some mf) fx) := by
  unfold validateFixity
  split
  · rename_i fx
    refine noRaise_forM (fun e he _ => ?_) _
    have hb := h e.1 e.2
    have hm : Member (.obj fx) e.1 e.2 := ⟨fx, rfl, he⟩
    unfold fixityAlgorithm
    split
    · exact noRaise_fixityBlock (fun d l hd => hb d l hm hd)
    · exact noRaise_ite (fun _ => noRaise_err) (fun _ => noRaise_fixityBlock (fun d l hd => hb d l hm hd))
  · exact noRaise_err

theorem noRaise_validate {isWord : Char → Bool} {lax : Bool} {ds : Str} {force : Option Str} {j : Json} (hwf : j.WF)
    (h : Shape lax j) : ∃ r, validate isWord lax ds force j = .ok r := by
  have hb : NoRaise (validateBody isWord lax ds force j) := by
    obtain ⟨m, ⟨d, rfl, hm⟩, hls⟩ := h.manifest
    obtain ⟨hk, hw⟩ := wf_obj hwf
    have hmg := (Dict.mem_iff_get? hk).mp hm
    unfold validateBody
    refine noRaise_bind' (noRaise_checkId d) fun id => ?_
    refine noRaise_bind' (noRaise_checkType ..) fun spec => ?_
    refine noRaise_bind (noRaise_checkDigestAlgorithm lax d) fun alg es halg => ?_
    cases alg with
    | none => exact noRaise_ret
    | some alg =>
      have ha : ¬ Unhashable alg := by
        unfold checkDigestAlgorithm at halg
        cases hg : Dict.get? d c!"digestAlgorithm" with
        | none =>
          rw [pyIn_obj, (Dict.has_eq_false_iff_get d _).mpr hg] at halg
          cases halg
          rintro (⟨_, h⟩ | ⟨_, h⟩) <;> cases h
        | some a =>
          rw [pyIn_obj, has_of_get hg, pyIndex_obj, hg] at halg
          by_cases h1 : a.str? = some c!"sha512"
          · have : V.done (some (Json.str c!"sha512")) ([] : List Entry) = .done (some alg) es := by
              rw [← halg]
              show _ = V.bind _ _
              simp [V.bind, V.lift, h1, bind_def, V.ret]
            cases this
            rintro (⟨_, h⟩ | ⟨_, h⟩) <;> cases h
          · by_cases h2 : lax = true
            · have : V.done (some a) ([] : List Entry) = .done (some alg) es := by
                rw [← halg]
                show _ = V.bind _ _
                simp [V.bind, V.lift, h1, h2, bind_def, V.ret]
              cases this
              exact h.digestAlgorithm h2 _ ((member_iff hk).mpr hg)
            · by_cases h3 : a.str? = some c!"sha256"
              · have : V.done (some a) ([⟨false, c!"W004"⟩] : List Entry) = .done (some alg) es := by
                  rw [← halg]
                  show _ = V.bind _ _
                  simp [V.bind, V.lift, h2, h3, bind_def, V.ret, V.warn]
                cases this
                rintro (⟨_, rfl⟩ | ⟨_, rfl⟩) <;> cases h3
              · exfalso
                have : V.done (none : Option Json) ([⟨true, c!"E025a"⟩] : List Entry) = .done (some alg) es := by
                  rw [← halg]
                  show _ = V.bind _ _
                  simp [V.bind, V.lift, h1, h2, h3, bind_def, V.ret, V.err]
                cases this
      refine noRaise_bind' (noRaise_checkContentDirectory d) fun cd => ?_
      unfold validateRest
      have hman : ∃ s es, manifestPart lax alg (cd.getD c!"content") (.obj d) = .done (some s) es := by
        unfold manifestPart
        rw [pyIn_obj, has_of_get hmg, pyIndex_obj, hmg]
        obtain ⟨s, es, hs⟩ := noRaise_validateManifest (lax := lax) ha (cd := cd.getD c!"content") hls
        refine ⟨s, es, ?_⟩
        show V.bind _ _ = _
        simp [V.bind, V.lift, hs, bind_def, V.ret]
      obtain ⟨s, es', hman⟩ := hman
      refine noRaise_bind ⟨_, _, hman⟩ fun man es'' hm'' => ?_
      rw [hman] at hm''
      cases hm''
      refine noRaise_bind' ?_ fun vu => ?_
      · unfold versionsPart
        refine noRaise_field ?_ (fun _ => noRaise_errRet)
        intro vs hvs
        have hmv := (member_iff hk).mpr hvs
        obtain ⟨h1, h2⟩ := noRaise_validateVersionSequence vs
        refine noRaise_bind h1 fun av es hav => noRaise_bind' ?_ fun _ => noRaise_ret
        unfold validateVersions
        refine noRaise_forM (fun v hv used => ?_) _
        obtain ⟨vd, rfl, hvk⟩ := h2 av es hav v hv
        obtain ⟨b, hb⟩ := Dict.exists_of_mem_keys hvk
        obtain ⟨hvnk, hvw⟩ := wf_obj (hw _ _ hvs)
        have hbm : Member (.obj vd) v b := (member_iff hvnk).mpr hb
        obtain ⟨bd, rfl⟩ := h.version _ v b hmv hbm
        refine noRaise_validateVersion ha _ hb ?_ used
        intro st hst
        exact h.state _ v _ st hmv hbm ((member_iff (wf_obj (hvw _ _ hb)).1).mpr hst)
      · refine noRaise_bind' ?_ fun head => ?_
        · unfold headPart
          refine noRaise_bind (noRaise_lift (pyIn_obj d _)) fun b es hb => ?_
          have hb := lift_done hb
          rw [pyIn_obj] at hb
          cases hb
          refine noRaise_ite (fun hh => ?_) (fun _ => noRaise_errRet)
          refine noRaise_ite (fun _ => ?_) (fun _ => noRaise_ret)
          obtain ⟨x, hx⟩ := Dict.exists_of_mem_keys ((Dict.has_iff _ _).mp hh)
          refine noRaise_bind' (noRaise_lift (a := x) (by rw [pyIndex_obj, hx])) fun _ => ?_
          refine noRaise_bind' ?_ fun _ => noRaise_ret
          unfold checkHead
          exact noRaise_ite (fun _ => noRaise_err) (fun _ => noRaise_ret)
        · dsimp only
          refine noRaise_ite (fun _ => noRaise_ret) (fun _ => ?_)
          refine noRaise_bind' ?_ fun _ => noRaise_bind' ?_ fun _ => noRaise_ret
          · unfold crossPart
            dsimp only
            refine noRaise_bind' ?_ fun _ => ?_
            · unfold checkPathVersions
              exact noRaise_forM (fun _ _ _ => noRaise_ite (fun _ => noRaise_err) (fun _ => noRaise_ret)) _
            · unfold checkDigestsUsed
              have hx : ∀ (b : Bool) (c : Str), NoRaise (if b = true then err c else ret ()) := by
                intro b c; exact noRaise_ite (fun _ => noRaise_err) (fun _ => noRaise_ret)
              dsimp only
              exact noRaise_ite (fun _ => noRaise_bind' noRaise_err fun _ => hx _ _)
                (fun _ => noRaise_bind' noRaise_ret fun _ => hx _ _)
          · unfold fixityPart
            refine noRaise_field ?_ (fun _ => noRaise_ret)
            intro fx hfx
            exact noRaise_validateFixity (fun alg b d l h1 h2 => h.fixity fx alg b d l ((member_iff hk).mpr hfx) h1 h2)
  obtain ⟨⟨res, ok⟩, es, hb⟩ := hb
  unfold validate
  rw [hb]
  cases ok
  · exact ⟨_, rfl⟩
  · exact ⟨_, rfl⟩

end Ocfl
