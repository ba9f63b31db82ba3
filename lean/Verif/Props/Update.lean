import Verif.Proofs.PlainCalls
import Verif.Proofs.WriteInv
import Verif.Props.ExampleObject

/-!
# C23: a new version leaves everything else as it was
-/

namespace Ocfl

open Spec FS Prog Ocfl.Inv

theorem writeNewVersion_onlyAdds {E : Env} {o : Obj} {base src : Path} {nv0 nv : NV} {head alg : Str} {s s' : FS} (hw : s.WF)
    (hb : look s base = some .dir) (hh : SafeName head) (hv : head.head? = some 'v') (hc : NV.Confined nv0 head nv)
    (hold : nv0.oldDigestAlgorithm = some alg) (ha : '/' ∉ alg) (hvis : Visits (writeNewVersion E o base src nv) s s') :
    OnlyAdds s s' base head [alg, o.digestAlgorithm] := by
  have ho : ∀ old, nv.oldDigestAlgorithm = some old → old = alg := by
    intro old h
    rw [hc.old, hold] at h
    exact (Option.some.inj h).symm
  constructor
  · intro q hq hl
    refine writeNewVersion_keeps hw hc.head_eq hh hv hc.queue (fun old h => by rw [ho old h]; exact ha) hvis ?_ ?_ ?_ hl
    · intro h; exact hq (Or.inl h)
    · intro h; exact hq (Or.inr ⟨_, by simp, h⟩)
    · intro old ho' h
      rw [ho old ho'] at h
      exact hq (Or.inr ⟨alg, by simp, h⟩)
  · intro q hq hl hl'
    by_contra hD
    refine hl' (writeNewVersion_adds hw hb hc.head_eq hh hv hc.queue (fun old h => by rw [ho old h]; exact ha) hvis ?_ ?_ hD hl)
    · intro h; exact hq (Or.inl h)
    · intro h; exact hq (Or.inr ⟨_, by simp, h⟩)

theorem Started.fresh {E : Env} {o : Obj} {objdir srcdir : Str} {newAlg : Option Str} {fixity : Option (List Str)}
    {metadata : Option VBlock} {carry : Bool} {s : FS} {base src : Path} {nv : NV} {inv0 : Inv} {alg : Str} {m : DigestMap}
    {vs : Dict Str VBlock} {style : Option Nat} {n : Nat} {inv1 : Inv}
    (h : Started E o objdir srcdir newAlg fixity metadata carry s base src nv inv0 alg m vs style n inv1) :
    styleName style (n + 1) ∉ Dict.keys inv0.versionsD := by
  intro hm
  obtain ⟨i, _, hi, he⟩ := (h.parsed.numbered.names _).mp hm
  have := styleName_inj he
  omega

/-- **C23**, for a `NewVersion` filled by any calls whose paths are plain. A new version is started
from the state `s0`; later, in any state `s`, it is written. At every moment of the writing (also if
it is interrupted, or ends with an exception) nothing has changed but the root inventory and its
sidecars, and whatever is new lies in the directory of the new version, which has a name that the
inventory did not list. Missing from the full statement: calls with paths that contain `..`, see
`C23_violated`. -/
theorem C23_partial {E : Env} (hlib : E.lib.Lawful) {o : Obj} {objdir : Str} {srcdir newAlg : Option Str}
    {fixity : Option (List Str)} {metadata : Option VBlock} {carry : Bool} {s0 : FS} {base src : Path} {nv0 : NV}
    (hstart : startNewVersion E o objdir srcdir newAlg fixity metadata carry s0 = .ok (base, src, nv0))
    {EN : NVEnv} (hx : HexNames EN.md5hex) {ops : List NV.Op} (hops : ∀ op ∈ ops, PlainCall op)
    {s s' : FS} (hw : s.WF) (hb : look s base = some .dir)
    (hvis : Visits (writeNewVersion E o base src (NV.run EN ops nv0)) s s') :
    ∃ inv alg head, parseInventory E base s0 = .ok inv ∧ inv.digestAlgorithm = some alg ∧
      (NV.run EN ops nv0).inv.head = some head ∧ head ∉ Dict.keys inv.versionsD ∧
      OnlyAdds s s' base head [alg, o.digestAlgorithm] := by
  obtain ⟨sd, rfl, inv0, alg, m, vs, style, n, inv1, hs⟩ := startNewVersion_ok hlib hstart
  obtain ⟨h1, h2, h3, h4, h5⟩ := hs.confined
  have hc := NV.Confined.run hx (styleName_safe style (n + 1)) h2 hops h1
  exact ⟨inv0, alg, _, hs.parse, hs.parsed.good.algorithm, hc.head_eq, hs.fresh,
    writeNewVersion_onlyAdds hw hb (styleName_safe _ _) (styleName_head _ _) hc h3 h4 hvis⟩

/-- The reading part of an update. -/
theorem prepareUpdate_started {E : Env} (hlib : E.lib.Lawful) {o : Obj} {objdir : Str} {srcdir : Option Str}
    {metadata : Option VBlock} {abort : Bool} {s : FS} {base src : Path} {nv : NV}
    (h : prepareUpdate E o objdir srcdir metadata abort s = .ok (some (base, src, nv))) :
    ∃ sd, srcdir = some sd ∧ ∃ nv0 inv0 alg m vs style n inv1,
      Started E o objdir sd (some o.digestAlgorithm) o.fixity metadata false s base src nv0 inv0 alg m vs style n inv1 ∧
      addFromSrcdir E s src nv0 = .ok nv := by
  unfold prepareUpdate at h
  split at h
  · cases h
  · rename_i base' src' nv0 hst
    obtain ⟨sd, rfl, inv0, alg, m, vs, style, n, inv1, hs⟩ := startNewVersion_ok hlib hst
    refine ⟨sd, rfl, nv0, inv0, alg, m, vs, style, n, inv1, ?_⟩
    split at h
    · cases h
    · rename_i nv' hadd
      split at h
      · split at h
        · cases h
        · cases h
        · cases h; exact ⟨hs, hadd⟩
      · cases h; exact ⟨hs, hadd⟩

theorem Started.confined_source {E : Env} (hhash : HashLib E.raw) {o : Obj} {objdir srcdir : Str} {newAlg : Option Str}
    {fixity : Option (List Str)} {metadata : Option VBlock} {carry : Bool} {s : FS} (hw : s.WF) {base src : Path} {nv0 nv : NV}
    {inv0 : Inv} {alg : Str} {m : DigestMap} {vs : Dict Str VBlock} {style : Option Nat} {n : Nat} {inv1 : Inv}
    (h : Started E o objdir srcdir newAlg fixity metadata carry s base src nv0 inv0 alg m vs style n inv1)
    (hadd : addFromSrcdir E s src nv0 = .ok nv) : NV.Confined nv0 (styleName style (n + 1)) nv := by
  obtain ⟨h1, h2, _⟩ := h.confined
  obtain ⟨files, hf, hso⟩ := sourceOf_walk hw h.src_dir
  unfold addFromSrcdir at hadd
  rw [hf] at hadd
  dsimp only at hadd
  have := NV.Confined.addAll (hexNames_srcEnv hhash s src) (styleName_safe style (n + 1)) h2 (ps := sortStr files) (nv := nv0)
    (fun p hp => by
      obtain ⟨r, hr1, hr2, hr3⟩ := hso.names.names p hp
      exact ⟨r, hr1, hr2, by rw [hr3, joinWith_eq_pathOf]⟩) h1
  split at hadd
  · cases hadd
  · rename_i nv' he
    cases hadd
    rw [he] at this
    exact this

/-- **C23** for `add_version_with_content`: at every moment of an update, nothing has changed but the
root inventory and its sidecars, and whatever is new lies in the directory of the new version, which
the inventory did not list. -/
theorem C23_update {E : Env} (hlib : E.lib.Lawful) (hhash : HashLib E.raw) {o : Obj} {objdir : Str} {srcdir : Option Str}
    {metadata : Option VBlock} {abort : Bool} {s s' : FS} (hw : s.WF)
    (hvis : Visits (addVersionWithContent E o objdir srcdir metadata abort) s s') :
    s' = s ∨ ∃ inv alg head, parseInventory E (absComps E.cwd objdir) s = .ok inv ∧ inv.digestAlgorithm = some alg ∧
      head ∉ Dict.keys inv.versionsD ∧ OnlyAdds s s' (absComps E.cwd objdir) head [alg, o.digestAlgorithm] := by
  unfold addVersionWithContent at hvis
  rcases visits_bind hvis with hvis | ⟨s1, r, hr, hvis⟩
  · exact Or.inl (visits_look hvis)
  rw [run_look] at hr
  obtain ⟨hr0, hr1⟩ := Prod.mk.inj hr
  clear hr
  subst hr0
  cases r with
  | none => exact Or.inl (visits_ret hvis)
  | some r =>
    obtain ⟨base, src, nv⟩ := r
    obtain ⟨sd, rfl, nv0, inv0, alg, m, vs, style, n, inv1, hs, hadd⟩ := prepareUpdate_started hlib hr1
    obtain ⟨h1, h2, h3, h4, h5⟩ := hs.confined
    have hc := hs.confined_source hhash hw hadd
    have hbase := hs.base_eq
    subst hbase
    rcases visits_bind hvis with hvis | ⟨s2, r, hr2, hvis⟩
    · exact Or.inr ⟨inv0, alg, _, hs.parse, hs.parsed.good.algorithm, hs.fresh,
        writeNewVersion_onlyAdds hw hs.base_dir (styleName_safe _ _) (styleName_head _ _) hc h3 h4 hvis⟩
    · have h2 := visits_ret hvis
      subst h2
      have hvis := visits_run (writeNewVersion E o (absComps E.cwd objdir) src nv) s
      rw [hr2] at hvis
      exact Or.inr ⟨inv0, alg, _, hs.parse, hs.parsed.good.algorithm, hs.fresh,
        writeNewVersion_onlyAdds hw hs.base_dir (styleName_safe _ _) (styleName_head _ _) hc h3 h4 hvis⟩

/-! ## A path that climbs -/

/-- An `Object` that stores every file again. -/
def climbObj : Obj := { demoObj with forwardDelta := false }

/-- Two calls with content paths that begin with `v2/content/`. -/
def climbOps : List NV.Op :=
  [.add c!"a.txt" c!"a" (some c!"v2/content/ok"), .add c!"d/b" c!"x" (some c!"v2/content/../../v1/content/a.txt")]

def climbStart : Py (Path × Path × NV) :=
  startNewVersion demoEnv climbObj c!"obj" (some c!"src") none none (some demoMeta) false demoMade

def climbResult : FS × Py Unit :=
  match climbStart with
  | .error e => ([], .error e)
  | .ok (base, src, nv) =>
    match run (writeNewVersion demoEnv climbObj base src (NV.run (srcEnv demoEnv demoMade src) climbOps nv)) demoMade with
    | (s, .ok _) => (s, .ok ())
    | (s, .error e) => (s, .error e)

theorem climb_ok : ∃ base src nv inv, climbStart = .ok (base, src, nv) ∧
    run (writeNewVersion demoEnv climbObj base src (NV.run (srcEnv demoEnv demoMade src) climbOps nv)) demoMade =
      (climbResult.1, .ok inv) := by
  have h : isOk climbResult.2 = true := by decide +kernel
  unfold climbResult at h ⊢
  cases hs : climbStart with
  | error e => rw [hs] at h; cases h
  | ok r =>
    obtain ⟨base, src, nv⟩ := r
    rw [hs] at h
    dsimp only at h ⊢
    cases hr : run (writeNewVersion demoEnv climbObj base src (NV.run (srcEnv demoEnv demoMade src) climbOps nv)) demoMade with
    | mk s r =>
      cases r with
      | error e => rw [hr] at h; cases h
      | ok inv => exact ⟨base, src, nv, inv, rfl, hr⟩

/-- **C23** does not hold in full: a content path with `..` that begins with the right directory is
accepted, and the file is written over one of an earlier version. The update succeeds. -/
theorem C23_violated : ∃ (s s' : FS) (base src : Path) (nv : NV) (inv : Inv), s.WF ∧
    startNewVersion demoEnv climbObj c!"obj" (some c!"src") none none (some demoMeta) false s = .ok (base, src, nv) ∧
    run (writeNewVersion demoEnv climbObj base src (NV.run (srcEnv demoEnv s src) climbOps nv)) s = (s', .ok inv) ∧
    look s [c!"w", c!"obj", c!"v1", c!"content", c!"a.txt"] = some (.file [1, 2, 3]) ∧
    look s' [c!"w", c!"obj", c!"v1", c!"content", c!"a.txt"] = some (.file [4]) := by
  obtain ⟨base, src, nv, inv, h1, h2⟩ := climb_ok
  exact ⟨demoMade, climbResult.1, base, src, nv, inv, demoMade_wf, h1, h2, by decide +kernel, by decide +kernel⟩

/-! ## Examples -/

/-- `C23_partial` applies: the object of `demoMade` and plain calls, one of them with a content path. -/
example : (∃ r, startNewVersion demoEnv climbObj c!"obj" (some c!"src") none none (some demoMeta) false demoMade = .ok r) ∧
    HexNames (srcEnv demoEnv demoMade [c!"w", c!"src"]).md5hex ∧
    (∀ op ∈ [NV.Op.add c!"a.txt" c!"a" (some c!"v2/content/ok"), NV.Op.add c!"d/b" c!"x" none, NV.Op.delete c!"x"], PlainCall op) := by
  refine ⟨?_, hexNames_srcEnv demoRaw_hash _ _, ?_⟩
  · obtain ⟨base, src, nv, inv, h1, h2⟩ := climb_ok
    exact ⟨_, h1⟩
  · intro op hop
    simp only [List.mem_cons, List.not_mem_nil, or_false] at hop
    rcases hop with rfl | rfl | rfl
    · exact ⟨[c!"v2", c!"content", c!"ok"], by decide, by decide, by decide⟩
    · exact ⟨[c!"d", c!"b"], by decide, by decide, by decide⟩
    · trivial

/-- `C23_update` applies to an update that succeeds, and that writes a file. -/
example : demoChanged.WF ∧ HashLib demoEnv.raw ∧ succeeded (run demoUpdate demoChanged) = true ∧
    look (run demoUpdate demoChanged).1 [c!"w", c!"obj", c!"v2", c!"content", c!"a.txt"] = some (.file [9]) :=
  ⟨demoChanged_wf, demoRaw_hash, by decide +kernel, by decide +kernel⟩

/-- ... and to one that changes the algorithm. -/
example : succeeded (run demoRehash demoChanged) = true ∧
    look demoChanged [c!"w", c!"obj", c!"inventory.json.sha256"] ≠ none ∧
    look (run demoRehash demoChanged).1 [c!"w", c!"obj", c!"inventory.json.sha256"] = none ∧
    look (run demoRehash demoChanged).1 [c!"w", c!"obj", c!"inventory.json.sha512"] ≠ none := by
  decide +kernel

end Ocfl
