import Verif.Proofs.NextGround

/-!
# The first version made from a source directory
-/

namespace Ocfl

open Spec FS Prog Ocfl.Inv

theorem NV.Added.keeps {EN : NVEnv} {nv0 nv : NV} {head : Str} {srcs : List Str} (ha : NV.Added EN nv0 head srcs nv) :
    nv.inv.id = nv0.inv.id ∧ nv.inv.type = nv0.inv.type ∧ nv.inv.contentDirectory = nv0.inv.contentDirectory ∧
      nv.inv.fixity = nv0.inv.fixity := by
  by_cases hne : srcs = []
  · rw [ha.none_done hne]; exact ⟨rfl, rfl, rfl, rfl⟩
  · rw [ha.inv hne]
    unfold Inv.setState
    refine ⟨?_, ?_, ?_, ?_⟩ <;> (dsimp only; split <;> rfl)

/-- What `prepareFirst` has done. -/
structure FirstFrom (E : Env) (o : Obj) (srcdir : Str) (metadata : Option VBlock) (s : FS) (src : Path) (nv0 nv : NV)
    (srcs : List Str) : Prop where
  src_eq : src = absComps E.cwd srcdir
  src_dir : look s src = some .dir
  ground : Ground nv0 o.digestAlgorithm [] [] none 0 (metadata.getD {})
  norm : nv0.norm = o.norm
  contentDirectory : nv0.inv.contentDirectoryToUse = o.contentDirectory
  old : nv0.oldDigestAlgorithm = none
  forwardDelta : nv0.forwardDelta = none
  dedupe : nv0.dedupe = o.dedupe
  id : nv0.inv.id = o.id
  type : nv0.inv.type = some (typeUri o.specVersion)
  source : SourceOf s src srcs
  added : NV.Added (srcEnv E s src) nv0 (styleName none 1) srcs nv

theorem prepareFirst_ok {E : Env} {o : Obj} {srcdir : Str} {metadata : Option VBlock} {s : FS} (hw : s.WF) {src : Path} {nv : NV}
    (ho : GoodSettings o) (hmeta : GoodMeta metadata) (h : prepareFirst E o srcdir metadata s = .ok (src, nv)) :
    ∃ nv0 srcs, FirstFrom E o srcdir metadata s src nv0 nv srcs := by
  unfold prepareFirst at h
  split at h
  · cases h
  rename_i id hid
  split at h
  · cases h
  rename_i src' hsrc
  split at h
  · cases h
  rename_i nv0 hfirst
  split at h
  · cases h
  rename_i nv' hadd
  cases h
  obtain ⟨hs1, hs2⟩ := fswOpen_ok hsrc
  obtain ⟨g, h1, h2, h3, h4, h5, h6, h7⟩ := ground_first (by rintro rfl; exact ho.id hid) ho.specVersion ho.algorithm
    ⟨ho.contentDirectory.2.2.2, ho.contentDirectory.2.1, ho.contentDirectory.2.2.1⟩ (by
      cases hf : o.fixity with
      | none => simp
      | some l => exact ho.fixity l hf) hmeta hfirst
  obtain ⟨srcs, k1, k2⟩ := addFromSrcdir_ok hw hs2 g.building ⟨_, g.manifest⟩ g.queue hadd
  exact ⟨nv0, srcs, hs1, hs2, g, h1, h2, h3, h4, h5, by rw [h6, hid], h7, k1, k2⟩

/-- The inventory of a new object is in order. -/
theorem FirstFrom.parsed {E : Env} (hhash : HashLib E.raw) {o : Obj} {srcdir : Str} {metadata : Option VBlock} {s : FS} {src : Path}
    {nv0 nv : NV} {srcs : List Str} (ho : GoodSettings o) (h : FirstFrom E o srcdir metadata s src nv0 nv srcs)
    (hne : srcs ≠ []) (hnl : o.norm = none → ∀ p ∈ srcs, '\n' ∉ p) :
    Parsed nv.inv o.digestAlgorithm nv.inv.manifestD
      [(styleName none 1, { metadata.getD {} with state := some (nv.inv.stateOf (styleName none 1)) })] none 1 ∧
      nv.inv.type = some (typeUri o.specVersion) := by
  refine ⟨?_, by rw [h.added.keeps.2.1, h.type]⟩
  exact h.ground.good h.added h.source.names (hexNames_srcEnv hhash _ _) (goodDigests_src hhash ho.algorithm _ _)
    (by rw [h.contentDirectory]; exact ho.contentDirectory.1) (by rw [h.norm]; exact hnl) (Or.inl hne)

theorem create_inv {E : Env} {o : Obj} {srcdir : Str} {metadata : Option VBlock} {objdir : Option Str} {s s' : FS} {inv : Inv}
    (hr : run (create E o srcdir metadata objdir) s = (s', .ok inv)) :
    ∃ src nv, prepareFirst E o srcdir metadata s = .ok (src, nv) ∧ inv = nv.inv ∧
      (objdir = none → s' = s) ∧ ∀ d, objdir = some d → run (writeFirst E o src nv d) s = (s', .ok ()) := by
  unfold create at hr
  obtain ⟨s1, ⟨src, nv⟩, h1, h2⟩ := run_bind_inv hr
  rw [run_look] at h1
  obtain ⟨e1, h1'⟩ := Prod.mk.inj h1
  subst e1
  refine ⟨src, nv, h1', ?_⟩
  cases objdir with
  | none =>
    dsimp only at h2
    rw [run_ret] at h2
    cases h2
    exact ⟨rfl, fun _ => rfl, by simp⟩
  | some d =>
    dsimp only at h2
    obtain ⟨s2, _, h3, h4⟩ := run_bind_inv h2
    rw [run_ret] at h4
    cases h4
    refine ⟨rfl, by simp, ?_⟩
    rintro d' rfl'
    cases rfl'
    exact h3

/-- Asking for the specification version that an inventory has. -/
theorem Spec.RulesWith.force {lax : Bool} {inv alg : Json} {cd : Str} {m : List (Str × List Str)} {vs : List (Str × Json)}
    {states : Str → List (Str × List Str)} {style : Option Nat} {n : Nat} {v : Str}
    (h : RulesWith lax none inv alg cd m vs states style n) (ht : Member inv c!"type" (.str (typeUri v))) (hv : v ∈ supported) :
    RulesWith lax (some v) inv alg cd m vs states style n := by
  exact ⟨h.id, ⟨_, ht, ⟨fun f hf _ => by cases hf; rfl, (typeRule_uri hv).2⟩⟩, h.digestAlgorithm, h.contentDirectory, h.manifest,
    h.manifestRules, h.versions, h.names, h.head, h.versionRules, h.used, h.fixity⟩

end Ocfl
