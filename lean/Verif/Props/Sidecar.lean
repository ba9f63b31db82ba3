import Verif.Proofs.Sidecar
import Verif.Proofs.Crash
import Verif.Props.Update
import Verif.Props.Crash

/-!
# C25: the sidecar matches the inventory it is written with
-/

namespace Ocfl

open Spec FS Prog Ocfl.Inv

theorem hexLength_cases {alg : Str} {n : Nat} (h : hexLength alg = some n) :
    0 < n ∧ alg ∈ [c!"sha512", c!"sha256", c!"sha1", c!"md5", c!"blake2b-512", c!"blake2b-384", c!"blake2b-256", c!"blake2b-160"] := by
  unfold hexLength at h
  split at h
  · rename_i hc
    cases h
    rcases hc with rfl | rfl <;> simp
  · split at h
    · rename_i hc
      cases h
      subst hc; simp
    · split at h
      · rename_i hc
        cases h
        rcases hc with rfl | rfl <;> simp
      · split at h
        · rename_i hc
          cases h
          rcases hc with rfl | rfl <;> simp
        · split at h
          · rename_i hc
            cases h
            subst hc; simp
          · cases h

theorem fileDigest_hexLength {raw : Str → Bytes → Str} {alg : Str} {n : Nat} (h : hexLength alg = some n) (b : Bytes) :
    fileDigest raw alg b = some (raw alg b) := by
  have := (hexLength_cases h).2
  unfold fileDigest
  rw [if_pos]
  simp only [List.mem_cons, List.not_mem_nil, or_false] at this
  rcases this with h | h | h | h | h | h | h | h <;> rw [h] <;> decide

/-- The sidecar in a directory, read by the validator, gives the digest of the inventory there. -/
def SidecarMatches (E : Env) (s : FS) (base : Path) (dir alg : Str) : Prop :=
  ∃ b d, look s (FS.resolve base (osPathJoin dir c!"inventory.json")) = some (.file b) ∧ fileDigest E.raw alg b = some d ∧
    Validator.readInventoryDigest E s base (osPathJoin dir (c!"inventory.json." ++ alg)) = .ok d

theorem sidecarMatches_of {E : Env} (hhash : HashLib E.raw) (hword : WordClass E.isWord) {alg : Str} {n : Nat}
    (halg : hexLength alg = some n) {s : FS} {base : Path} {dir : Str} {vd : Path} (hv : VDir dir vd) {text : Str} {d : Str}
    (hi : look s (base ++ vd ++ [inventoryFilename]) = some (.file (utf8 text))) (hd : fileDigest E.raw alg (utf8 text) = some d)
    (hs : look s (base ++ vd ++ [sidecarName alg]) = some (.file (sidecarLine d))) : SidecarMatches E s base dir alg := by
  refine ⟨utf8 text, d, ?_, hd, ?_⟩
  · rw [show c!"inventory.json" = inventoryFilename from rfl, hv.resolve_in base (by decide)]
    exact hi
  · rw [fileDigest_hexLength halg] at hd
    have hd' := Option.some.inj hd
    obtain ⟨h1, h2⟩ := hhash alg n halg (utf8 text)
    rw [hd'] at h1 h2
    refine readSidecar hword h2 ?_ ?_
    · intro h
      rw [h] at h1
      have := (hexLength_cases halg).1
      simp at h1
      omega
    · rw [show c!"inventory.json." ++ alg = sidecarName alg from rfl, hv.resolve_in base (sidecar_safe (fileDigest_noSlash (fileDigest_hexLength (raw := E.raw) halg (utf8 text))))]
      exact hs

/-- What the validator says about a sidecar that matches. -/
theorem validator_on_match {E : Env} (hword : WordClass E.isWord) {cfg : Validator.Config} {s : FS} {base : Path} {dir alg : Str} {vd : Path}
    (hv : VDir dir vd) (hnl : '\n' ∉ dir) (halg : alg ∈ [c!"sha512", c!"sha256", c!"sha1", c!"md5"]) (h : SidecarMatches E s base dir alg) :
    Validator.validateInventoryDigest E cfg s base (osPathJoin dir c!"inventory.json") alg = .done () [] := by
  obtain ⟨b, d, h1, h2, h3⟩ := h
  have hw : ∀ c ∈ alg, c.toNat < 128 ∧ c.isAlphanum = true := by
    simp only [List.mem_cons, List.not_mem_nil, or_false] at halg
    rcases halg with h | h | h | h <;> (subst h; decide)
  have hne : alg ≠ [] := by
    simp only [List.mem_cons, List.not_mem_nil, or_false] at halg
    rcases halg with h | h | h | h <;> (subst h; decide)
  have hfile : osPathJoin dir c!"inventory.json" ++ c!"." ++ alg = osPathJoin dir (c!"inventory.json." ++ alg) := by
    cases hv with
    | root => rfl
    | version hsafe =>
      have e1 : ∀ w, '/' ∉ w → osPathJoin dir w = joinWith '/' [dir, w] := by
        intro w hw
        have := osPathJoin_joinWith (ws := [dir]) (b := w) (by simpa using SafeName.isComp hsafe) hw
        simpa [joinWith] using this
      rw [e1 _ (by decide), e1 (c!"inventory.json." ++ alg) (by
        intro hm
        rcases List.mem_append.mp hm with hm | hm
        · revert hm; decide
        · exact absurd (hw _ hm).2 (by decide))]
      simp [joinWith]
  unfold Validator.validateInventoryDigest
  rw [hfile]
  have hex : FS.exists_ s (FS.resolve base (osPathJoin dir (c!"inventory.json." ++ alg))) = true := by
    unfold Validator.readInventoryDigest readText FS.read at h3
    unfold FS.exists_
    cases hl : look s (FS.resolve base (osPathJoin dir (c!"inventory.json." ++ alg))) with
    | none => rw [hl] at h3; cases h3
    | some x => rfl
  simp only [hex, Bool.true_eq_false, if_false]
  unfold Validator.validateDigestMatch
  split
  · rfl
  · have hnl' : '\n' ∉ osPathJoin dir c!"inventory.json" := by
      cases hv with
      | root => decide
      | version hsafe =>
        have := osPathJoin_joinWith (ws := [dir]) (b := c!"inventory.json") (by simpa using SafeName.isComp hsafe) (by decide)
        have : osPathJoin dir c!"inventory.json" = dir ++ c!"/inventory.json" := by simpa [joinWith] using this
        rw [this]
        intro hm
        rcases List.mem_append.mp hm with hm | hm
        · exact hnl hm
        · revert hm; decide
    have hx : Validator.matchExtension E.isWord (osPathJoin dir (c!"inventory.json." ++ alg)) = some alg := by
      rw [← hfile, List.append_assoc]
      exact matchExtension_sidecar hword hnl' hw hne
    rw [hx]
    dsimp only
    have hsd : Validator.sidecarDigests E s base (osPathJoin dir c!"inventory.json") (osPathJoin dir (c!"inventory.json." ++ alg)) alg = .ok (d, d) := by
      unfold Validator.sidecarDigests
      rw [h3, digestAt_ok.mpr ⟨b, h1, h2⟩]
    rw [hsd]
    simp [W.errUnless, W.ret]

/-- **C25**: `write_inventory_and_sidecar` for an inventory that declares the algorithm of the `Object`:
the sidecar under the name of the algorithm that the inventory declares is read back by the validator as
the digest of the inventory. For all algorithms with hexadecimal digests. -/
theorem C25_partial {E : Env} (hhash : HashLib E.raw) (hword : WordClass E.isWord) {o : Obj} {base : Path} {inv : Inv} {vdir : Str}
    (hdir : vdir = [] ∨ SafeName vdir) {s s' : FS} (hw : s.WF) (hb : look s base = some .dir) {n : Nat}
    (hsame : inv.digestAlgorithm = some o.digestAlgorithm) (halg : hexLength o.digestAlgorithm = some n)
    (hr : run (writeInventoryAndSidecar E o base (some inv) vdir) s = (s', .ok ())) :
    look s' (FS.resolve base (osPathJoin vdir c!"inventory.json")) = some (.file (utf8 (E.lib.dumpsSorted inv.toJson))) ∧
    ∃ alg, inv.digestAlgorithm = some alg ∧ SidecarMatches E s' base vdir alg := by
  obtain ⟨vd, hv⟩ : ∃ vd, VDir vdir vd := by
    rcases hdir with rfl | h
    · exact ⟨_, .root⟩
    · exact ⟨_, .version h⟩
  obtain ⟨w, _⟩ := run_writeInv_inv hv hw hb hr
  obtain ⟨d, hd, hs⟩ := w.digest
  refine ⟨?_, o.digestAlgorithm, hsame, sidecarMatches_of hhash hword halg hv w.inventory hd hs⟩
  rw [show c!"inventory.json" = inventoryFilename from rfl, hv.resolve_in base (by decide)]
  exact w.inventory

/-- **C25**, for updates: the inventory always declares the algorithm of the `Object`, and the root
sidecar under that name matches; the validator agrees if the name of the algorithm has no hyphen. -/
theorem C25_update {E : Env} (hlib : E.lib.Lawful) (hhash : HashLib E.raw) (hword : WordClass E.isWord) {o : Obj} {objdir : Str}
    {srcdir : Option Str} {metadata : Option VBlock} {abort : Bool} {s s' : FS} (hw : s.WF) {n : Nat}
    (halg : hexLength o.digestAlgorithm = some n) {inv : Inv}
    (hr : run (addVersionWithContent E o objdir srcdir metadata abort) s = (s', .ok (some inv))) :
    look s' (absComps E.cwd objdir ++ [c!"inventory.json"]) = some (.file (utf8 (E.lib.dumpsSorted inv.toJson))) ∧
    ∃ alg, inv.digestAlgorithm = some alg ∧ SidecarMatches E s' (absComps E.cwd objdir) [] alg ∧
      (alg ∈ [c!"sha512", c!"sha256", c!"sha1", c!"md5"] → ∀ cfg,
        Validator.validateInventoryDigest E cfg s' (absComps E.cwd objdir) c!"inventory.json" alg = .done () []) := by
  unfold addVersionWithContent at hr
  obtain ⟨s0, r0, h0, hr⟩ := run_bind_inv hr
  rw [run_look] at h0
  obtain ⟨hs0, hprep⟩ := Prod.mk.inj h0
  clear h0
  subst hs0
  cases r0 with
  | none => cases hr
  | some r0 =>
  obtain ⟨base, src, nv⟩ := r0
  obtain ⟨sd, hsd, nv0, inv0, alg, m, vs, style, k, inv1, hst, hadd⟩ := prepareUpdate_started hlib hprep
  have hbase := hst.base_eq
  subst hbase
  obtain ⟨s2, inv2, hwr, hr⟩ := run_bind_inv hr
  have hr : (s2, Except.ok (some inv2)) = (s', (.ok (some inv) : Py (Option Inv))) := hr
  cases hr
  obtain ⟨h1, h2, h3, h4, h5⟩ := hst.confined
  have hc := hst.confined_source hhash hw hadd
  rw [writeNewVersion_eq hc.head_eq] at hwr
  obtain ⟨s4, _, hput, hwr⟩ := run_bind_inv hwr
  obtain ⟨hw4, hb4, _⟩ := putVersion_complete hw hst.base_dir (styleName_safe _ _) hc.queue (by
    intro old ho
    rw [hc.old, h3] at ho
    cases ho
    exact h4) hput
  obtain ⟨s5, _, h5, hwr⟩ := run_bind_inv hwr
  have hwr : (s5, Except.ok nv.inv) = (s', (.ok inv : Py Inv)) := hwr
  cases hwr
  have halg' : nv.inv.digestAlgorithm = some o.digestAlgorithm := by
    rw [hc.algorithm]
    exact hst.algorithm
  obtain ⟨k1, a, k2, k3⟩ := C25_partial hhash hword (.inl rfl) hw4 hb4 halg' halg h5
  refine ⟨?_, a, k2, k3, ?_⟩
  · rw [← k1, osPathJoin_nil, resolve_name _ (by decide)]
  · intro ha cfg
    exact validator_on_match hword .root (by simp) ha k3

/-- With a hyphen in its name (the BLAKE2 family), the validator does not find the algorithm of a
sidecar, whatever is in it. -/
theorem C25_hyphen {E : Env} (hword : WordClass E.isWord) {cfg : Validator.Config} (hcheck : cfg.checkDigests = true) {s : FS} {base : Path} {alg : Str}
    (halg : alg ∈ [c!"blake2b-512", c!"blake2b-384", c!"blake2b-256", c!"blake2b-160"])
    (hex : FS.exists_ s (FS.resolve base (c!"inventory.json." ++ alg)) = true) :
    Validator.validateInventoryDigest E cfg s base c!"inventory.json" alg = .done () [⟨true, c!"E058b"⟩] := by
  unfold Validator.validateInventoryDigest
  rw [show c!"inventory.json" ++ c!"." ++ alg = c!"inventory.json." ++ alg from rfl]
  simp only [hex, Bool.true_eq_false, if_false]
  unfold Validator.validateDigestMatch
  rw [if_neg (by rw [hcheck]; simp)]
  have key : ∃ post, alg = c!"blake2b" ++ '-' :: post ∧ (∀ c ∈ post, c.toNat < 128 ∧ c.isAlphanum = true) ∧ post ≠ [] := by
    simp only [List.mem_cons, List.not_mem_nil, or_false] at halg
    rcases halg with h | h | h | h <;> (subst h; refine ⟨_, rfl, by decide, by decide⟩)
  obtain ⟨post, rfl, hp, hne⟩ := key
  have : c!"inventory.json." ++ (c!"blake2b" ++ '-' :: post) = c!"inventory.json" ++ '.' :: (c!"blake2b" ++ '-' :: post) := rfl
  rw [this, matchExtension_hyphen hword hp hne]
  rfl

/-- An update prepared with `start_new_version(digest_algorithm="sha512")` by an `Object` with SHA-256,
and written. -/
def demoOtherAlg : Prog Inv :=
  Prog.bind (Prog.look (startNewVersion demoEnv demoObj c!"obj" (some c!"src") (some c!"sha512") none (some demoMeta) false))
    (fun r => writeNewVersion demoEnv demoObj r.1 r.2.1 r.2.2)

/-- Does the written inventory declare an algorithm for which there is no sidecar? -/
def wrongSidecar (s : FS) : Bool :=
  match run demoOtherAlg s with
  | (s', .ok inv) => match inv.digestAlgorithm with
    | some alg => decide (look s' [c!"w", c!"obj", c!"inventory.json"] = some (.file (utf8 (inventoryText demoEnv inv)))) &&
        decide (look s' [c!"w", c!"obj", c!"inventory.json." ++ alg] = none) && decide (objectVerdict demoEnv c!"obj" s = some true) &&
        decide (objectVerdict demoEnv c!"obj" s' = some false)
    | none => false
  | _ => false

theorem wrongSidecar_spec {s : FS} (h : wrongSidecar s = true) : ∃ s' inv alg, run demoOtherAlg s = (s', .ok inv) ∧
    inv.digestAlgorithm = some alg ∧
    look s' (absComps demoEnv.cwd c!"obj" ++ [c!"inventory.json"]) = some (.file (utf8 (inventoryText demoEnv inv))) ∧
    look s' (absComps demoEnv.cwd c!"obj" ++ [c!"inventory.json." ++ alg]) = none ∧
    objectVerdict demoEnv c!"obj" s = some true ∧ objectVerdict demoEnv c!"obj" s' = some false := by
  unfold wrongSidecar at h
  split at h
  · rename_i s' inv hrun
    split at h
    · rename_i alg halg
      simp only [Bool.and_eq_true, decide_eq_true_eq] at h
      obtain ⟨⟨⟨h1, h2⟩, h3⟩, h4⟩ := h
      exact ⟨s', inv, alg, hrun, halg, h1, h2, h3, h4⟩
    · cases h
  · cases h

/-- **C25** fails if the algorithm given to `start_new_version` is not that of the `Object`: the sidecar
has the name of the other algorithm, there is none for the algorithm that the inventory declares, and a
valid object is not valid any more. -/
theorem C25_violated : ∃ s : FS, s.WF ∧ ∃ s' inv alg, run demoOtherAlg s = (s', .ok inv) ∧
    inv.digestAlgorithm = some alg ∧
    look s' (absComps demoEnv.cwd c!"obj" ++ [c!"inventory.json"]) = some (.file (utf8 (inventoryText demoEnv inv))) ∧
    look s' (absComps demoEnv.cwd c!"obj" ++ [c!"inventory.json." ++ alg]) = none ∧
    objectVerdict demoEnv c!"obj" s = some true ∧ objectVerdict demoEnv c!"obj" s' = some false :=
  ⟨demoChanged, demoChanged_wf, wrongSidecar_spec (by decide +kernel)⟩

/-- An inventory written with abbreviated digests. -/
def demoSpecEx : Prog Unit :=
  writeInventoryAndSidecar demoEnv { demoObj with digestAlgorithm := c!"sha256-spec-ex" } [c!"w"] (some { digestAlgorithm := some c!"sha256-spec-ex" }) []

/-- **C25** fails for the abbreviated digests: the reader does not accept their periods. -/
theorem C25_violated_specEx : ∃ s' : FS, run demoSpecEx demoFS = (s', .ok ()) ∧
    Validator.readInventoryDigest demoEnv s' [c!"w"] c!"inventory.json.sha256-spec-ex" = .error .valueError := by
  obtain ⟨_, h⟩ := succeeded_ok (r := run demoSpecEx demoFS) (by decide +kernel)
  exact ⟨_, h, by decide +kernel⟩

/-- The hypotheses of `C25_update` are met. -/
example : ∃ s' inv, run demoUpdate demoChanged = (s', .ok (some inv)) ∧ hexLength demoObj.digestAlgorithm = some 64 := by
  cases hr : run demoUpdate demoChanged with
  | mk s' r =>
    have h : (match (run demoUpdate demoChanged).2 with | .ok (some _) => true | _ => false) = true := by decide +kernel
    rw [hr] at h
    match r, h with
    | .ok (some inv), _ => exact ⟨s', inv, rfl, by decide⟩

end Ocfl
