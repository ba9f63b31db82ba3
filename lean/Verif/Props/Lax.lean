import Verif.Proofs.Lax
import Verif.Props.ObjectValidation
import Verif.Props.Verdict
import Verif.Props.StoreObjects

/-!
# C89: lax digests only add digest algorithms
-/

namespace Ocfl
open Spec FS Validator W

/-- What two runs of the validation have in common: the verdict and the errors, or the exception. -/
def SameOutcome (x y : Py (Bool × List Entry)) : Prop :=
  (∀ b es, x = .ok (b, es) → ∃ es', y = .ok (b, es') ∧ es'.filter (fun e => e.isError) = es.filter (fun e => e.isError)) ∧
  (∀ e, x = .error e → y = .error e)

theorem bind_done_inv {α β : Type} {x : W α} {f : α → W β} {b : β} {es : List Entry} (h : W.bind x f = .done b es) :
    ∃ a es1 es2, x = .done a es1 ∧ f a = .done b es2 := by
  cases x with
  | raised e => cases h
  | abort es => cases h
  | done a es1 =>
    have h : after es1 (f a) = .done b es := h
    cases hf : f a with
    | raised e => rw [hf] at h; cases h
    | abort es => rw [hf] at h; cases h
    | done c es2 => rw [hf] at h; cases h; exact ⟨a, es1, es2, rfl, hf⟩

theorem lr_validateSteps {E : Env} (hE : E.lib.Lawful) {s : FS} {base : Path} {P : Prop} {cd : Bool} {ds : Str} {n : Nat} {tv : List Str}
    (h : P → OrdinaryAt E s base) :
    LaxRel P (validateSteps E (cfgWith cd false ds) n s base tv) (validateSteps E (cfgWith cd true ds) n s base tv) := by
  intro hp
  have hfirst := lr_validateFirst (P := P) (E := E) (s := s) (base := base) (cd := cd) (ds := ds) (tv := tv) h
  unfold validateSteps at hp ⊢
  cases h1 : validateFirst E (cfgWith cd false ds) s base tv with
  | raised e =>
    rw [h1] at hp hfirst
    have hs := hfirst (hp.imp_right fun h => h)
    cases h2 : validateFirst E (cfgWith cd true ds) s base tv with
    | raised e' => rw [h2] at hs; exact hs
    | abort es' => rw [h2] at hs; exact hs.elim
    | done b es' => rw [h2] at hs; exact hs.elim
  | abort es =>
    rw [h1] at hp hfirst
    have hs := hfirst (hp.imp_right fun h => h)
    cases h2 : validateFirst E (cfgWith cd true ds) s base tv with
    | raised e' => rw [h2] at hs; exact hs.elim
    | abort es' => rw [h2] at hs; exact hs
    | done b es' => rw [h2] at hs; exact hs.elim
  | done a es =>
    rw [h1] at hp hfirst
    cases a with
    | none =>
      have hs := hfirst (hp.imp_right fun h => h)
      cases h2 : validateFirst E (cfgWith cd true ds) s base tv with
      | raised e' => rw [h2] at hs; exact hs.elim
      | abort es' => rw [h2] at hs; exact hs.elim
      | done b es' =>
        rw [h2] at hs
        obtain ⟨rfl, he⟩ := hs
        exact ⟨rfl, he⟩
    | some a =>
      obtain ⟨spec, jr⟩ := a
      dsimp only at hp
      have hs := hfirst (hp.imp_right fun h => (noErr_after h).1)
      cases h2 : validateFirst E (cfgWith cd true ds) s base tv with
      | raised e' => rw [h2] at hs; exact hs.elim
      | abort es' => rw [h2] at hs; exact hs.elim
      | done b es' =>
        rw [h2] at hs
        obtain ⟨rfl, he⟩ := hs
        dsimp only
        have hn : IV.numErrors es' = IV.numErrors es := by rw [numErrors_errorsOf, numErrors_errorsOf, he]
        rw [hn]
        refine Same.after he (lr_validateRest (fun hp v hv j hj => ?_) (hp.imp_right fun h => (noErr_after h).2))
        have hsafe : SafeName v := by
          obtain ⟨j', hwf, hval⟩ : ∃ j', j'.WF ∧ ∃ spec' ok es', IV.validate E.isWord false spec' none j' = .ok (jr.2, ok, es') := by
            unfold validateFirst at h1
            obtain ⟨sp, _, es2, _, h3⟩ := bind_done_inv h1
            split at h3
            · obtain ⟨_, _, _, _, h4⟩ := bind_done_inv h3
              cases h4
            · obtain ⟨jr', _, _, h4, h5⟩ := bind_done_inv h3
              cases h5
              unfold validateInventory at h4
              split at h4
              · cases h4
              · cases h4
              · split at h4
                · cases h4
                · rename_i jx hl
                  split at h4
                  · cases h4
                  · rename_i r b es' hv
                    cases h4
                    exact ⟨_, hE.wf _ _ hl, _, _, _, hv⟩
          obtain ⟨spec', ok, es', hval⟩ := hval
          obtain ⟨style, n, vs, rfl, _⟩ := (attributes_of hwf hval).versions v hv
          exact styleName_safe style n
        refine h hp _ j (.inr ⟨v, ?_⟩) hj
        rw [show osPathJoin v inventoryFilename = joinWith '/' [v, c!"inventory.json"] from
          osPathJoin_joinWith (ws := [v]) (by simpa using SafeName.isComp hsafe) (by decide)]
        exact resolve_join _ (by intro w hw; simp at hw; rcases hw with rfl | rfl; exacts [hsafe, by decide])

theorem same_validateObject {E : Env} (hE : E.lib.Lawful) {cfg : Config} {n : Nat} {s : FS} {path : Str}
    (h : OrdinaryAt E s (absComps E.cwd path) ∨ ∃ es, validateObject E { cfg with lax := false } n s path = .ok (true, es)) :
    SameOutcome (validateObject E { cfg with lax := false } n s path) (validateObject E { cfg with lax := true } n s path) := by
  have hrefl : ∀ x, SameOutcome x x := fun x => ⟨fun b es hx => ⟨es, hx, rfl⟩, fun e hx => hx⟩
  unfold validateObject at h ⊢
  cases ho : fswOpen E.cwd path s with
  | error e => cases e <;> exact hrefl _
  | ok base =>
    have hb : base = absComps E.cwd path := by
      unfold fswOpen at ho
      dsimp only at ho
      split at ho
      · cases ho; rfl
      · cases ho
    subst hb
    rw [ho] at h
    dsimp only at h ⊢
    unfold validateAt at h ⊢
    cases hf : findNamastes s (absComps E.cwd path) 0 [] 10 with
    | error e => exact hrefl _
    | ok tv =>
      rw [hf] at h
      dsimp only at h ⊢
      have hs : Same (validateSteps E { cfg with lax := false } n s (absComps E.cwd path) tv)
          (validateSteps E { cfg with lax := true } n s (absComps E.cwd path) tv) := by
        refine lr_validateSteps hE (P := OrdinaryAt E s (absComps E.cwd path)) id (h.imp_right ?_)
        rintro ⟨es, hv⟩
        cases hx : validateSteps E { cfg with lax := false } n s (absComps E.cwd path) tv with
        | raised e => rw [hx] at hv; cases hv
        | abort es' =>
          rw [hx] at hv
          have := (Prod.mk.inj (Except.ok.inj hv)).1
          simp at this
          exact this.2
        | done u es' =>
          rw [hx] at hv
          have := (Prod.mk.inj (Except.ok.inj hv)).1
          simp at this
          exact this.2
      generalize validateSteps E { cfg with lax := false } n s (absComps E.cwd path) tv = x at hs
      generalize validateSteps E { cfg with lax := true } n s (absComps E.cwd path) tv = y at hs
      cases x with
      | raised e =>
        cases y with
        | raised e' => cases hs; exact hrefl _
        | abort es' => exact hs.elim
        | done b es' => exact hs.elim
      | abort es =>
        cases y with
        | raised e' => exact hs.elim
        | abort es' =>
          have hs : errorsOf es = errorsOf es' := hs
          refine ⟨fun b es1 hx => ?_, fun e hx => by cases hx⟩
          cases hx
          exact ⟨es', by dsimp only; rw [numErrors_errorsOf, numErrors_errorsOf, hs], hs.symm⟩
        | done b es' => exact hs.elim
      | done u es =>
        cases y with
        | raised e' => exact hs.elim
        | abort es' => exact hs.elim
        | done b es' =>
          have hs : errorsOf es = errorsOf es' := hs.2
          refine ⟨fun b es1 hx => ?_, fun e hx => by cases hx⟩
          cases hx
          exact ⟨es', by dsimp only; rw [numErrors_errorsOf, numErrors_errorsOf, hs], hs.symm⟩

/-- **C89**: what is valid is valid with lax digests. -/
theorem C89_widens {E : Env} (hE : E.lib.Lawful) {cfg : Config} {n : Nat} {s : FS} {path : Str} {es : List Entry}
    (h : validateObject E { cfg with lax := false } n s path = .ok (true, es)) :
    ∃ es', validateObject E { cfg with lax := true } n s path = .ok (true, es') := by
  obtain ⟨es', h1, _⟩ := (same_validateObject hE (.inr ⟨es, h⟩)).1 true es h
  exact ⟨es', h1⟩

/-- **C89**: on an object whose inventories use no other digest algorithms, lax digests change neither the verdict nor the errors nor
the exceptions. -/
theorem C89_same {E : Env} (hE : E.lib.Lawful) {cfg : Config} {n : Nat} {s : FS} {path : Str}
    (h : ∀ q j, (q = absComps E.cwd path ++ [c!"inventory.json"] ∨ ∃ v, q = absComps E.cwd path ++ [v, c!"inventory.json"]) →
      StoredJson E.lib s q j → OrdinaryDigests j) :
    SameOutcome (validateObject E { cfg with lax := false } n s path) (validateObject E { cfg with lax := true } n s path) :=
  same_validateObject hE (.inl h)

/-- **C89**: if lax digests make a difference, then some inventory of the object has a digest algorithm other than SHA-512 and SHA-256,
or an unknown one in its fixity block. -/
theorem C89_reason {E : Env} (hE : E.lib.Lawful) {cfg : Config} {n : Nat} {s : FS} {path : Str} {es : List Entry}
    (h : validateObject E { cfg with lax := true } n s path = .ok (true, es))
    (hnot : ∀ es', validateObject E { cfg with lax := false } n s path ≠ .ok (true, es')) :
    ∃ q j, (q = absComps E.cwd path ++ [c!"inventory.json"] ∨ ∃ v, q = absComps E.cwd path ++ [v, c!"inventory.json"]) ∧
      StoredJson E.lib s q j ∧ ((∃ a, Member j c!"digestAlgorithm" a ∧ a ≠ .str c!"sha512" ∧ a ≠ .str c!"sha256") ∨
        ∃ fx alg b, Member j c!"fixity" fx ∧ Member fx alg b ∧ alg ∉ knownAlgorithms) := by
  by_contra hno
  push Not at hno
  have hsame := C89_same hE (cfg := cfg) (n := n) (s := s) (path := path) (by
    intro q j hq hj
    obtain ⟨h1, h2⟩ := hno q j hq hj
    refine ⟨fun a ha => ?_, h2⟩
    by_cases h512 : a = .str c!"sha512"
    · exact .inl h512
    · exact .inr (h1 a ha h512))
  cases hx : validateObject E { cfg with lax := false } n s path with
  | error e =>
    rw [hsame.2 e hx] at h
    cases h
  | ok r =>
    obtain ⟨b, es1⟩ := r
    obtain ⟨es2, h2, _⟩ := hsame.1 b es1 hx
    rw [h] at h2
    cases h2
    exact hnot es1 hx

/-! ## What this gives for the other properties -/

/-- Lax digests change nothing if the inventories of the object use no other algorithms. -/
theorem lax_valid_iff {E : Env} (hE : E.lib.Lawful) {cfg : Config} {s : FS} {path : Str} (ho : OrdinaryAt E s (absComps E.cwd path)) :
    (∃ es, validateObject E cfg 0 s path = .ok (true, es)) ↔ ∃ es, validateObject E { cfg with lax := false } 0 s path = .ok (true, es) := by
  have hsame := C89_same hE (cfg := cfg) (n := 0) (s := s) (path := path) ho
  cases hl : cfg.lax with
  | false => rw [show ({ cfg with lax := false } : Config) = cfg by cases cfg; cases hl; rfl]
  | true =>
    rw [show ({ cfg with lax := true } : Config) = cfg by cases cfg; cases hl; rfl] at hsame
    constructor
    · rintro ⟨es, h⟩
      cases hx : validateObject E { cfg with lax := false } 0 s path with
      | error e => rw [hsame.2 e hx] at h; cases h
      | ok r =>
        obtain ⟨b, es1⟩ := r
        obtain ⟨es2, h2, _⟩ := hsame.1 b es1 hx
        rw [h] at h2
        cases h2
        exact ⟨es1, rfl⟩
    · rintro ⟨es, h⟩
      obtain ⟨es', h', _⟩ := hsame.1 true es h
      exact ⟨es', h'⟩

/-- **C73** with lax digests, for inventories without other algorithms. -/
theorem C73_lax {E : Env} (hE : Libraries E) {cfg : Config} {s : FS} (hw : s.WF) {path : Str} (ho : OrdinaryAt E s (absComps E.cwd path)) :
    (∃ es, validateObject E cfg 0 s path = .ok (true, es)) ↔
      look s (absComps E.cwd path) = some .dir ∧ ValidObject E cfg.checkDigests s (absComps E.cwd path) :=
  (lax_valid_iff hE.json ho).trans (C73 hE (cfg := { cfg with lax := false }) rfl hw)

/-- **C39** with lax digests, for inventories without other algorithms. -/
theorem C39_lax {E : Env} (hE : Libraries E) {cfg : Config} {s : FS} (hw : s.WF) {path : Str} (ho : OrdinaryAt E s (absComps E.cwd path))
    {es : List Entry} (hv : validateObject E cfg 0 s path = .ok (true, es)) :
    ∃ j, StoredJson E.lib s (absComps E.cwd path ++ [c!"inventory.json"]) j ∧
      ∀ cd m vs, ContentDir j cd → Member j c!"manifest" (ofDigestMap m) → Member j c!"versions" (.obj vs) →
        (cfg.checkDigests = true ∨ cd ∉ [c!"inventory.json.sha512", c!"inventory.json.sha256"]) →
        ∀ p, p ∈ listed m ↔ ContentFiles s (absComps E.cwd path) (vs.map Prod.fst) cd p := by
  obtain ⟨es', hv'⟩ := (lax_valid_iff hE.json ho).mp ⟨es, hv⟩
  exact C39_partial hE (cfg := { cfg with lax := false }) rfl hw hv'

/-- **C70** with lax digests, for inventories without other algorithms. -/
theorem C70_lax {E : Env} (hE : Libraries E) {cfg : Config} {s : FS} (hw : s.WF) {path : Str}
    (ht : Tidy E s (absComps E.cwd path)) (ho : OrdinaryAt E s (absComps E.cwd path)) (errors : Nat) :
    ∃ ok es, validateObject E cfg errors s path = .ok (ok, es) := by
  obtain ⟨ok, es, h⟩ := C70_partial hE (cfg := { cfg with lax := false }) rfl hw ht errors
  cases hl : cfg.lax with
  | false => rw [show ({ cfg with lax := false } : Config) = cfg by cases cfg; cases hl; rfl] at h; exact ⟨ok, es, h⟩
  | true =>
    obtain ⟨es', h', _⟩ := (C89_same hE.json (cfg := cfg) (n := errors) (s := s) (path := path) ho).1 ok es h
    rw [show ({ cfg with lax := true } : Config) = cfg by cases cfg; cases hl; rfl] at h'
    exact ⟨ok, es', h'⟩

/-! ## Examples -/

/-- An inventory that uses MD5 for its content. -/
def md5Inv : Json :=
  .obj [(c!"digestAlgorithm", .str c!"md5"), (c!"head", .str c!"v1"), (c!"id", .str c!"info:x"),
    (c!"type", .str c!"https://ocfl.io/1.1/spec/#inventory"),
    (c!"versions", .obj [(c!"v1", .obj [(c!"created", .str c!"2020-01-01T00:00:00Z"), (c!"state", ofDigestMap [(demoRaw c!"md5" [1], [c!"f"])])])]),
    (c!"manifest", ofDigestMap [(demoRaw c!"md5" [1], [c!"v1/content/f"])])]

/-- An object with this inventory. -/
def md5FS : FS :=
  objectOf [declared, ([c!"inventory.json"], textOf md5Inv),
    ([c!"inventory.json.md5"], .file (utf8 (demoRaw c!"md5" (utf8 (pyJson.dumps md5Inv)) ++ c!" inventory.json\n"))),
    ([c!"v1"], .dir), ([c!"v1", c!"content"], .dir), ([c!"v1", c!"content", c!"f"], .file [1])]

/-- It is valid with lax digests only. **C89** says why. -/
example : ∃ q j, StoredJson demoEnv.lib md5FS q j ∧
    ((∃ a, Member j c!"digestAlgorithm" a ∧ a ≠ .str c!"sha512" ∧ a ≠ .str c!"sha256") ∨
      ∃ fx alg b, Member j c!"fixity" fx ∧ Member fx alg b ∧ alg ∉ knownAlgorithms) := by
  obtain ⟨es, h⟩ := accepted_object (E := demoEnv) (cfg := { lax := true }) (s := md5FS) (path := c!"obj") (by decide +kernel)
  obtain ⟨es', h'⟩ := rejected_object (E := demoEnv) (cfg := {}) (s := md5FS) (path := c!"obj") (by decide +kernel)
  obtain ⟨q, j, _, h1, h2⟩ := C89_reason demoEnv_lawful (cfg := {}) h (fun es1 he => by
    rw [show ({ ({} : Config) with lax := false } : Config) = {} from rfl, h'] at he
    cases he)
  exact ⟨q, j, h1, h2⟩

/-- The object of the examples, which has SHA-256, is valid also with lax digests. -/
example : ∃ es, validateObject demoEnv { lax := true } 0 demoMade c!"obj" = .ok (true, es) := by
  obtain ⟨es, h⟩ := accepted_object (E := demoEnv) (cfg := {}) (s := demoMade) (path := c!"obj") (by decide +kernel)
  exact C89_widens demoEnv_lawful (cfg := {}) h

/-- A digest algorithm that is not a string. -/
def oddInv : Json := .obj [(c!"digestAlgorithm", .num c!"5")]

def oddFS : FS := objectOf [declared, ([c!"inventory.json"], textOf oddInv)]

/-- **C70** fails with lax digests if the digest algorithm is not a string; without them there is a verdict. -/
theorem C70_violated_lax : (∃ e, validateObject demoEnv { lax := true } 0 oddFS c!"obj" = .error e) ∧
    ∃ es, validateObject demoEnv {} 0 oddFS c!"obj" = .ok (false, es) :=
  ⟨by
    cases h : validateObject demoEnv { lax := true } 0 oddFS c!"obj" with
    | error e => exact ⟨e, rfl⟩
    | ok r => exact absurd h (by
        have : (match validateObject demoEnv { lax := true } 0 oddFS c!"obj" with | .ok _ => false | .error _ => true) = true := by decide +kernel
        intro h
        rw [h] at this
        cases this),
   rejected_object (by decide +kernel)⟩

theorem hiddenInv_ordinary : OrdinaryDigests hiddenInv where
  algorithm := by
    rintro a ⟨d, hd, hm⟩
    cases hd
    simp at hm
    exact .inl hm
  fixity := by
    rintro fx alg b ⟨d, hd, hm⟩
    cases hd
    simp at hm

/-- The inventories of a broken object are ordinary. -/
theorem brokenFS_ordinary : OrdinaryAt demoEnv brokenFS (absComps demoEnv.cwd c!"obj") := by
  intro q j hq hst
  have hall : ∀ e ∈ brokenFS, e.1.getLast? = some c!"inventory.json" → e.2 = textOf hiddenInv := by decide +kernel
  have hlast : q.getLast? = some c!"inventory.json" := by
    rcases hq with rfl | ⟨v, rfl⟩ <;> simp
  have hw : StoredJson demoEnv.lib brokenFS q hiddenInv := by
    obtain ⟨b, t, hl, _⟩ := hst
    have hne : q ≠ [] := by rintro rfl; cases hlast
    have hg : Dict.get? brokenFS q = some (.file b) := by
      unfold FS.look at hl
      rwa [if_neg hne] at hl
    have hb : Node.file b = textOf hiddenInv := hall _ (Dict.mem_of_get? hg) hlast
    rw [hb] at hl
    refine ⟨utf8 (pyJson.dumps hiddenInv), pyJson.dumps hiddenInv, hl, utf8Decode_utf8 _, ?_⟩
    rw [univNewlines_of_noCR (pyJson_lawful.noCR _ hiddenInv_writable)]
    exact pyJson_lawful.loads _ hiddenInv_writable
  rw [storedJson_unique hst hw]
  exact hiddenInv_ordinary

/-- **C70** and **C89** on this object: a verdict, the same errors. -/
example : (∃ ok es, validateObject demoEnv { lax := true } 0 brokenFS c!"obj" = .ok (ok, es)) ∧
    SameOutcome (validateObject demoEnv {} 0 brokenFS c!"obj") (validateObject demoEnv { lax := true } 0 brokenFS c!"obj") :=
  ⟨C70_lax demoLibraries brokenFS_wf (show Tidy demoEnv brokenFS (absComps demoEnv.cwd c!"obj") by rw [show absComps demoEnv.cwd c!"obj" = [c!"w", c!"obj"] by decide +kernel]; exact brokenFS_tidy)
    brokenFS_ordinary 0, C89_same demoEnv_lawful (cfg := {}) brokenFS_ordinary⟩

end Ocfl
