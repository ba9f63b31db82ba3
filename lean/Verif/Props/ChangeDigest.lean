import Verif.Proofs.Recode
import Verif.Props.ExampleObject

/-!
# C19: changing the digest algorithm
-/

namespace Ocfl

open Spec FS Prog Ocfl.Inv

/-- **C19**: a new version is started with the algorithm `a`, the inventory that was read has `alg`.
Then every logical path of every version that was there leads to the same content paths as before, and
every digest of the new manifest is that of the stored file under `a`. Here stored files that the
manifest had under different digests must have different digests under `a`. Missing from the full
statement: manifests with two digests for files that are the same, see `C19_violated`. -/
theorem C19_partial {E : Env} (hlib : E.lib.Lawful) {o : Obj} {objdir : Str} {srcdir : Option Str} {a : Str}
    {fixity : Option (List Str)} {metadata : Option VBlock} {carry : Bool} {s : FS} {base src : Path} {nv : NV}
    (h : startNewVersion E o objdir srcdir (some a) fixity metadata carry s = .ok (base, src, nv)) :
    ∃ inv alg, parseInventory E base s = .ok inv ∧ inv.digestAlgorithm = some alg ∧ nv.inv.digestAlgorithm = some a ∧
      (a ≠ alg → TellsApart E s base a inv.manifestD →
        (∀ v ∈ Dict.keys inv.versionsD, ∀ p c, Resolves inv.manifestD (inv.stateOf v) p c ↔
          Resolves nv.inv.manifestD (nv.inv.stateOf v) p c) ∧
        (∀ d c, Lists nv.inv.manifestD d c → ∃ b, look s (FS.resolve base c) = some (.file b) ∧ fileDigest E.raw a b = some d) ∧
        ∀ c, c ∈ listed nv.inv.manifestD ↔ c ∈ listed inv.manifestD) ∧
      (a = alg → nv.inv.manifestD = inv.manifestD ∧ ∀ v ∈ Dict.keys inv.versionsD, nv.inv.stateOf v = inv.stateOf v) := by
  obtain ⟨sd, _, inv0, alg, m, vs, style, n, inv1, hst⟩ := startNewVersion_ok hlib h
  obtain ⟨k1, k2, k3⟩ := hst.kept
  have hg := hst.parsed.good
  have hch := hst.change
  have hkeys : Dict.keys inv1.versionsD = Dict.keys inv0.versionsD := by
    have := (changeDigest_ok hch).2.2.1
    rw [this, changeFixity_eq]
    rfl
  refine ⟨inv0, alg, hst.parse, hg.algorithm, hst.algorithm, ?_, ?_⟩
  · intro hne hta
    rw [hg.manifestD] at hta
    obtain ⟨f, hrec, hren, _⟩ := changeDigest_recoded hg hne hch hta
    refine ⟨?_, ?_, ?_⟩
    · intro v hv p c
      rw [k1, k3 v (by rw [hkeys]; exact hv), hg.manifestD, stateOf_versionsD, stateOf_versionsD, hg.versionsD]
      exact hrec.resolves hg v p c
    · intro d c hl
      rw [k1, hrec.manifest] at hl
      obtain ⟨d0, rfl, ps, h1, h2⟩ := lists_recode.mp hl
      exact digestAt_ok.mp ((newDigest_ok.mp (hren _ h1)).2 c h2)
    · intro c
      rw [k1, hrec.manifest, hg.manifestD, mem_listed, mem_listed]
      constructor
      · rintro ⟨d, hl⟩
        obtain ⟨d0, _, hl⟩ := lists_recode.mp hl
        exact ⟨d0, hl⟩
      · rintro ⟨d, hl⟩
        exact ⟨f d, lists_recode.mpr ⟨d, rfl, hl⟩⟩
  · rintro rfl
    obtain ⟨_, _, _, h4, _⟩ := changeDigest_ok hch
    obtain ⟨h5, h6⟩ := h4 rfl
    rw [changeFixity_eq] at h5 h6
    refine ⟨by rw [k1]; exact h5, ?_⟩
    intro v hv
    rw [k3 v (by rw [hkeys]; exact hv), stateOf_versionsD, stateOf_versionsD]
    have : inv1.versionsD = inv0.versionsD := by
      unfold Inv.versionsD
      rw [h6]
    rw [this]

/-- **C19**: a change of the algorithm is refused if two files that the manifest lists together have
different digests under the new algorithm, or if one of the files is not there. -/
theorem C19_refuses {E : Env} (hlib : E.lib.Lawful) {o : Obj} {objdir : Str} {srcdir : Option Str} {a alg : Str}
    {fixity : Option (List Str)} {metadata : Option VBlock} {carry : Bool} {s : FS} {inv : Inv}
    (hp : parseInventory E (absComps E.cwd objdir) s = .ok inv) (ha : inv.digestAlgorithm = some alg) (hne : a ≠ alg)
    {d : Str} {ps : List Str} (hm : (d, ps) ∈ inv.manifestD)
    (hbad : ¬ ∃ d', ∀ c ∈ ps, ∃ b, look s (FS.resolve (absComps E.cwd objdir) c) = some (.file b) ∧ fileDigest E.raw a b = some d') :
    ∃ e, startNewVersion E o objdir srcdir (some a) fixity metadata carry s = .error e := by
  cases hst : startNewVersion E o objdir srcdir (some a) fixity metadata carry s with
  | error e => exact ⟨e, rfl⟩
  | ok x =>
    exfalso
    obtain ⟨base, src, nv⟩ := x
    obtain ⟨sd, _, inv0, alg', m, vs, style, n, inv1, h⟩ := startNewVersion_ok hlib hst
    have hparse := h.parse
    rw [h.base_eq, hp] at hparse
    cases hparse
    have e := h.parsed.good.algorithm
    rw [ha] at e
    cases e
    obtain ⟨_, _, _, _, h5⟩ := changeDigest_ok h.change
    obtain ⟨o2n, h6, _⟩ := h5 hne
    rw [changeFixity_eq] at h6
    obtain ⟨f, r1, _⟩ := rehash_ok (by
      have := h.parsed.good.manifestKeys
      rw [← h.parsed.good.manifestD] at this
      exact this) h6
    refine hbad ⟨f d, fun c hc => ?_⟩
    have := (newDigest_ok.mp (r1 (d, ps) hm)).2 c hc
    rw [h.base_eq] at this
    exact digestAt_ok.mp this

/-! ## Examples -/

def recodeStart (s : FS) : Py (Path × Path × NV) :=
  startNewVersion demoEnv demoObj c!"obj" (some c!"src") (some c!"sha512") none (some demoMeta) false s

/-- Are the content files told apart? -/
def apartEntries (s : FS) (a : Str) : Bool :=
  match parseInventory demoEnv (absComps demoEnv.cwd c!"obj") s with
  | .error _ => false
  | .ok inv => inv.manifestD.all (fun e => inv.manifestD.all (fun e' => e.2.all (fun c => e'.2.all (fun c' =>
      decide (e.1 = e'.1) || decide (digestAt demoEnv s (FS.resolve (absComps demoEnv.cwd c!"obj") c) a ≠
        digestAt demoEnv s (FS.resolve (absComps demoEnv.cwd c!"obj") c') a)))))

theorem apartEntries_spec {s : FS} {a : Str} (h : apartEntries s a = true) : ∃ inv,
    parseInventory demoEnv (absComps demoEnv.cwd c!"obj") s = .ok inv ∧
    TellsApart demoEnv s (absComps demoEnv.cwd c!"obj") a inv.manifestD := by
  unfold apartEntries at h
  generalize hp : parseInventory demoEnv (absComps demoEnv.cwd c!"obj") s = pi at h
  cases pi with
  | error e => cases h
  | ok inv =>
    simp only [List.all_eq_true, Bool.or_eq_true, decide_eq_true_eq] at h
    refine ⟨inv, rfl, ?_⟩
    rintro d c d' c' b b' ⟨ps, h1, h2⟩ ⟨ps', h1', h2'⟩ hb hb' hd
    rcases h _ h1 _ h1' c h2 c' h2' with h | h
    · exact h
    · exfalso
      refine h ?_
      unfold digestAt
      rw [read_ok.mpr hb, read_ok.mpr hb']
      dsimp only
      rw [hd]

/-- The hypotheses of `C19_partial` hold for the example, with a change of the algorithm. -/
example : (∃ r, recodeStart demoMade = .ok r) ∧ ∃ inv, parseInventory demoEnv (absComps demoEnv.cwd c!"obj") demoMade = .ok inv ∧
    TellsApart demoEnv demoMade (absComps demoEnv.cwd c!"obj") c!"sha512" inv.manifestD :=
  ⟨isOk_ok (by decide +kernel), apartEntries_spec (by decide +kernel)⟩

/-- The example with a content file that is a copy of another one, against the manifest. -/
def demoCopied : FS := Dict.set demoMade [c!"w", c!"obj", c!"v1", c!"content", c!"d", c!"b"] (.file [1, 2, 3])

theorem demoCopied_wf : demoCopied.WF where
  nk := by decide +kernel
  noRoot := by decide +kernel
  parent := by decide +kernel
  names := by decide +kernel

/-- Are the files of each manifest entry the same, and does the change of the algorithm lose a path? -/
def losesPath (s : FS) (c : Str) : Bool :=
  match parseInventory demoEnv [c!"w", c!"obj"] s, recodeStart s with
  | .ok inv, .ok (base, _, nv) =>
    base = [c!"w", c!"obj"] && inv.manifestD.all (fun e => match e.2 with
      | [] => false
      | c0 :: _ => match look s (FS.resolve base c0) with
        | some (.file b) => e.2.all (fun c => look s (FS.resolve base c) = some (.file b))
        | _ => false) && decide (c ∈ listed inv.manifestD) && decide (c ∉ listed nv.inv.manifestD)
  | _, _ => false

theorem losesPath_spec {s : FS} {c : Str} (h : losesPath s c = true) : ∃ (inv : Inv) (base src : Path) (nv : NV),
    parseInventory demoEnv base s = .ok inv ∧ recodeStart s = .ok (base, src, nv) ∧
    (∀ d ps, (d, ps) ∈ inv.manifestD → ∃ b, ∀ c ∈ ps, look s (FS.resolve base c) = some (.file b)) ∧
    c ∈ listed inv.manifestD ∧ c ∉ listed nv.inv.manifestD := by
  unfold losesPath at h
  generalize hp : parseInventory demoEnv [c!"w", c!"obj"] s = pi at h
  generalize hr : recodeStart s = re at h
  cases pi with
  | error e => cases h
  | ok inv =>
    cases re with
    | error e => cases h
    | ok r =>
      obtain ⟨base, src, nv⟩ := r
      simp only [Bool.and_eq_true, decide_eq_true_eq] at h
      obtain ⟨⟨⟨hb, h2⟩, h3⟩, h4⟩ := h
      refine ⟨inv, base, src, nv, by rw [hb]; exact hp, rfl, ?_, h3, h4⟩
      intro d ps hm
      have h5 := List.all_eq_true.mp h2 _ hm
      cases ps with
      | nil => cases h5
      | cons c0 cs =>
        dsimp only at h5
        cases hl : look s (FS.resolve base c0) with
        | none => rw [hl] at h5; cases h5
        | some x =>
          rw [hl] at h5
          cases x with
          | dir => cases h5
          | file b =>
            exact ⟨b, fun c hc => of_decide_eq_true (List.all_eq_true.mp h5 c hc)⟩

/-- **C19** does not hold in full: stored files that are the same, but have different digests in the
manifest, get one new digest, and the paths of only one of them are kept. (Digests are not checked when
a version is started.) -/
theorem C19_violated : ∃ (s : FS) (c : Str), s.WF ∧ ∃ (inv : Inv) (base src : Path) (nv : NV),
    parseInventory demoEnv base s = .ok inv ∧ recodeStart s = .ok (base, src, nv) ∧
    (∀ d ps, (d, ps) ∈ inv.manifestD → ∃ b, ∀ c ∈ ps, look s (FS.resolve base c) = some (.file b)) ∧
    c ∈ listed inv.manifestD ∧ c ∉ listed nv.inv.manifestD :=
  ⟨demoCopied, c!"v1/content/d/b", demoCopied_wf, losesPath_spec (by decide +kernel)⟩

/-- The example stored without de-duplication, and one of two copies changed. -/
def demoMixed : FS :=
  Dict.set (run (create demoEnv { demoObj with dedupe := false } c!"src" (some demoMeta) (some c!"obj")) demoFS).1
    [c!"w", c!"obj", c!"v1", c!"content", c!"d", c!"c"] (.file [7])

/-- Does the manifest list two files together whose digests differ under the algorithm? -/
def mixedEntry (s : FS) (a : Str) : Bool :=
  match parseInventory demoEnv (absComps demoEnv.cwd c!"obj") s with
  | .error _ => false
  | .ok inv => decide (inv.digestAlgorithm = some c!"sha256") && inv.manifestD.any (fun e => e.2.any (fun c => e.2.any (fun c' =>
      decide (digestAt demoEnv s (FS.resolve (absComps demoEnv.cwd c!"obj") c) a ≠
        digestAt demoEnv s (FS.resolve (absComps demoEnv.cwd c!"obj") c') a))))

theorem mixedEntry_spec {s : FS} {a : Str} (h : mixedEntry s a = true) : ∃ inv d ps,
    parseInventory demoEnv (absComps demoEnv.cwd c!"obj") s = .ok inv ∧ inv.digestAlgorithm = some c!"sha256" ∧
    (d, ps) ∈ inv.manifestD ∧ ¬ ∃ d', ∀ c ∈ ps, ∃ b, look s (FS.resolve (absComps demoEnv.cwd c!"obj") c) = some (.file b) ∧
      fileDigest demoEnv.raw a b = some d' := by
  unfold mixedEntry at h
  generalize hp : parseInventory demoEnv (absComps demoEnv.cwd c!"obj") s = pi at h
  cases pi with
  | error e => cases h
  | ok inv =>
    simp only [Bool.and_eq_true, decide_eq_true_eq, List.any_eq_true] at h
    obtain ⟨h1, ⟨d, ps⟩, h2, c, hc, c', hc', hne⟩ := h
    refine ⟨inv, d, ps, rfl, h1, h2, ?_⟩
    rintro ⟨d', hd⟩
    exact hne (by rw [digestAt_ok.mpr (hd c hc), digestAt_ok.mpr (hd c' hc')])

/-- The hypotheses of `C19_refuses` can hold. -/
example : ∃ inv d ps, parseInventory demoEnv (absComps demoEnv.cwd c!"obj") demoMixed = .ok inv ∧
    inv.digestAlgorithm = some c!"sha256" ∧ (d, ps) ∈ inv.manifestD ∧
    ¬ ∃ d', ∀ c ∈ ps, ∃ b, look demoMixed (FS.resolve (absComps demoEnv.cwd c!"obj") c) = some (.file b) ∧
      fileDigest demoEnv.raw c!"sha512" b = some d' := mixedEntry_spec (by decide +kernel)

end Ocfl
