import Verif.Proofs.ContentNames
import Verif.Spec.History
import Verif.Proofs.ExtractTop
import Verif.Proofs.Namaste
import Verif.Props.Fsw

/-!
# `add_from_srcdir` as a whole
-/

namespace Ocfl

open Spec FS Ocfl.Inv

theorem digestAt_ok {E : Env} {s : FS} {p : Path} {alg d : Str} :
    digestAt E s p alg = .ok d ↔ ∃ b, look s p = some (.file b) ∧ fileDigest E.raw alg b = some d := by
  unfold digestAt
  have hind : ∀ b, (fileDigest E.raw alg b).isSome = (fileDigest E.raw alg []).isSome := by
    intro b
    unfold fileDigest
    split
    · rfl
    · split
      · rfl
      · split <;> rfl
  split
  · rename_i h
    constructor
    · intro h'; cases h'
    · rintro ⟨b, _, hd⟩
      have := hind b
      rw [hd, h] at this
      cases this
  · split
    · rename_i e he
      constructor
      · intro h'; cases h'
      · rintro ⟨b, hb, _⟩
        rw [read_ok.mpr hb] at he
        cases he
    · rename_i b hb
      rw [read_ok] at hb
      split
      · rename_i hn
        constructor
        · intro h'; cases h'
        · rintro ⟨b', hb', hd⟩
          rw [hb] at hb'
          cases hb'
          rw [hn] at hd; cases hd
      · rename_i d' hd'
        constructor
        · intro h'; cases h'; exact ⟨b, hb, hd'⟩
        · rintro ⟨b', hb', hd⟩
          rw [hb] at hb'
          cases hb'
          rw [hd'] at hd; cases hd; rfl

theorem hexNames_srcEnv {E : Env} (h : HashLib E.raw) (s : FS) (src : Path) : HexNames (srcEnv E s src).md5hex := by
  intro p
  obtain ⟨h1, h2⟩ := h c!"md5" 32 (by decide) (utf8 p)
  refine ⟨?_, h2⟩
  intro h3
  have h3 : E.raw c!"md5" (utf8 p) = [] := h3
  rw [h3] at h1
  simp at h1

/-- What a source directory contributes: the list of its files, each once. -/
structure SourceOf (s : FS) (src : Path) (srcs : List Str) : Prop where
  names : NV.SourceNames srcs
  nodup : srcs.Nodup
  files : ∀ p, p ∈ srcs ↔ ∃ r b, FileBelow s src r b ∧ p = joinWith '/' r

theorem sourceOf_walk {s : FS} (hw : s.WF) {src : Path} (hd : look s src = some .dir) :
    ∃ files, fswWalkFiles s src c!"/" = .ok files ∧ SourceOf s src (sortStr files) := by
  obtain ⟨rs, h1, h2, h3⟩ := walkFiles_names hw (base := src) (ws := []) (by simp) (by simpa using hd) (dir := c!"/") (Or.inr rfl)
  have h3 : ∀ r, r ∈ rs ↔ r ≠ [] ∧ ∃ b, look s (src ++ r) = some (.file b) := by simpa using h3
  have hsafe : ∀ r ∈ rs, ∀ w ∈ r, SafeName w := by
    intro r hr w hm
    obtain ⟨_, b, hb⟩ := (h3 r).mp hr
    exact look_names hw hb w (by simp [hm])
  have hmem : ∀ p, p ∈ sortStr (rs.map (joinWith '/')) ↔ ∃ r ∈ rs, p = joinWith '/' r := by
    intro p
    rw [(sortStr_perm _).mem_iff, List.mem_map]
    constructor
    · rintro ⟨r, hr, rfl⟩; exact ⟨r, hr, rfl⟩
    · rintro ⟨r, hr, rfl⟩; exact ⟨r, hr, rfl⟩
  have hinj : ∀ r ∈ rs, ∀ r', r' ≠ [] → (∀ w ∈ r', SafeName w) → joinWith '/' r = joinWith '/' r' → r = r' := by
    intro r hr r' hne' hs' he
    have hne := ((h3 r).mp hr).1
    have e1 := splitOn_joinWith hne (fun w hw' => (hsafe r hr w hw').2.2.2)
    have e2 := splitOn_joinWith hne' (fun w hw' => (hs' w hw').2.2.2)
    rw [← e1, ← e2, he]
  refine ⟨_, h1, ⟨?_, ?_⟩, ?_, ?_⟩
  · intro p hp
    obtain ⟨r, hr, rfl⟩ := (hmem p).mp hp
    exact ⟨r, ((h3 r).mp hr).1, hsafe r hr, rfl⟩
  · intro r r' hne hs' hr hr' hpre
    obtain ⟨q', hq', e'⟩ := (hmem _).mp hr'
    have hne' : r' ≠ [] := by
      rintro rfl
      exact hne (List.prefix_nil.mp hpre)
    have := hinj q' hq' r' hne' hs' e'.symm
    subst this
    obtain ⟨q, hq, e⟩ := (hmem _).mp hr
    have hsr : ∀ w ∈ r, SafeName w := fun w hm => hs' w (hpre.subset hm)
    have := hinj q hq r hne hsr e.symm
    subst this
    by_contra hcon
    obtain ⟨_, b, hb⟩ := (h3 q).mp hq
    obtain ⟨_, b', hb'⟩ := (h3 q').mp hq'
    have hp' : src ++ q <+: src ++ q' := (List.prefix_append_right_inj _).mpr hpre
    have := look_prefix hw hp' (by simpa using hcon) hb'
    rw [hb] at this
    cases this
  · rw [(sortStr_perm _).nodup_iff]
    refine List.Nodup.map_on ?_ h2
    intro r hr r' hr' he
    exact hinj r hr r' ((h3 r').mp hr').1 (hsafe r' hr') he
  · intro p
    rw [hmem]
    constructor
    · rintro ⟨r, hr, rfl⟩
      obtain ⟨hne, b, hb⟩ := (h3 r).mp hr
      exact ⟨r, b, ⟨hne, hb⟩, rfl⟩
    · rintro ⟨r, b, ⟨hne, hb⟩, rfl⟩
      exact ⟨r, (h3 r).mpr ⟨hne, b, hb⟩, rfl⟩

/-- The digest of a source file. -/
theorem srcDigest_iff {E : Env} {s : FS} {src : Path} {alg d : Str} {r : Path} (hs : ∀ w ∈ r, SafeName w) :
    (srcEnv E s src).srcDigest alg (joinWith '/' r) = .ok d ↔
      ∃ b, look s (src ++ r) = some (.file b) ∧ fileDigest E.raw alg b = some d := by
  show digestAt E s (FS.resolve src (joinWith '/' r)) alg = .ok d ↔ _
  rw [resolve_join src hs, digestAt_ok]

/-- What adding a source directory does. -/
theorem addFromSrcdir_ok {E : Env} {s : FS} (hw : s.WF) {src : Path} (hd : look s src = some .dir) {nv0 nv : NV} {head : Str}
    (hb : Building nv0 head) (hm : ∃ m, nv0.inv.manifest = some m) (hq : nv0.filesToCopy = [])
    (h : addFromSrcdir E s src nv0 = .ok nv) :
    ∃ srcs, SourceOf s src srcs ∧ NV.Added (srcEnv E s src) nv0 head srcs nv := by
  obtain ⟨files, hf, hso⟩ := sourceOf_walk hw hd
  unfold addFromSrcdir at h
  rw [hf] at h
  dsimp only at h
  split at h
  · cases h
  · rename_i nv' hadd
    cases h
    exact ⟨_, hso, NV.addAll_ok hb hm hq hadd⟩

/-- Adding a source directory succeeds. -/
theorem addFromSrcdir_succeeds {E : Env} {s : FS} (hw : s.WF) {src : Path} (hd : look s src = some .dir) {nv0 : NV} {head : Str}
    (hb : Building nv0 head) (hm : ∃ m, nv0.inv.manifest = some m) (hq : nv0.filesToCopy = [])
    (hst : nv0.inv.stateOf head = []) (hnorm : nv0.norm = none ∨ nv0.norm = some c!"md5" ∨ nv0.norm = some c!"uri")
    (halg : ∀ b, ∃ d, fileDigest E.raw (nv0.inv.digestAlgorithm.getD []) b = some d) :
    ∃ nv, addFromSrcdir E s src nv0 = .ok nv := by
  obtain ⟨files, hf, hso⟩ := sourceOf_walk hw hd
  obtain ⟨nv, hnv⟩ := NV.addAll_succeeds (E := srcEnv E s src) hb.head_eq (srcs := sortStr files) (NV.Added.base hb hm hq) hb.block
    (by simpa using hso.nodup) (by rw [hst]; simp [listed])
    (by
      intro p hp
      obtain ⟨r, b, ⟨hne, hbf⟩, rfl⟩ := (hso.files p).mp hp
      obtain ⟨d, hdg⟩ := halg b
      exact ⟨d, (srcDigest_iff (fun w hm => look_names hw hbf w (by simp [hm]))).mpr ⟨b, hbf, hdg⟩⟩)
    (by
      intro p hp
      obtain ⟨r, b, ⟨hne, hbf⟩, rfl⟩ := (hso.files p).mp hp
      exact ⟨_, NV.mapped_segs hne (fun w hm => look_names hw hbf w (by simp [hm])) hnorm⟩)
  refine ⟨nv, ?_⟩
  unfold addFromSrcdir
  rw [hf]
  dsimp only
  rw [hnv]

/-! ## The new version depends on the files only -/

/-- The same file in two places. -/
def SameFile (s : FS) (p : Path) (s' : FS) (p' : Path) : Prop := ∃ b, look s p = some (.file b) ∧ look s' p' = some (.file b)

theorem digestAt_congr {E : Env} {s s' : FS} {p p' : Path} {alg : Str} (h : SameFile s p s' p') :
    digestAt E s p alg = digestAt E s' p' alg := by
  obtain ⟨b, h1, h2⟩ := h
  unfold digestAt FS.read
  rw [h1, h2]

theorem add_congr {N N' : NVEnv} (hm : N.md5hex = N'.md5hex) {p : Str} (hd : ∀ alg, N.srcDigest alg p = N'.srcDigest alg p) (nv : NV) :
    nv.add N p p none = nv.add N' p p none := by
  unfold NV.add NV.chooseContentPath NV.mapFilepath
  simp only [hm, hd]

theorem addAll_congr {N N' : NVEnv} (hm : N.md5hex = N'.md5hex) : ∀ {ps : List Str} {nv : NV},
    (∀ p ∈ ps, ∀ alg, N.srcDigest alg p = N'.srcDigest alg p) → nv.addAll N ps = nv.addAll N' ps
  | [], nv, _ => rfl
  | p :: ps, nv, h => by
    unfold NV.addAll
    rw [add_congr hm (h p (by simp)) nv]
    split
    · rfl
    · exact addAll_congr hm (fun q hq => h q (by simp [hq]))

/-- Two source directories with the same files give the same new version. -/
theorem addFromSrcdir_congr {E : Env} {s s' : FS} (hw : s.WF) (hw' : s'.WF) {src src' : Path} (hd : look s src = some .dir)
    (hd' : look s' src' = some .dir) (hsame : ∀ r b, FileBelow s src r b ↔ FileBelow s' src' r b) (nv : NV) :
    addFromSrcdir E s src nv = addFromSrcdir E s' src' nv := by
  obtain ⟨fs, h1, h2⟩ := sourceOf_walk hw hd
  obtain ⟨fs', h1', h2'⟩ := sourceOf_walk hw' hd'
  have hsort : sortStr fs = sortStr fs' := by
    refine sorted_unique ?_ (sortStr_sorted _) (sortStr_sorted _)
    rw [List.perm_ext_iff_of_nodup h2.nodup h2'.nodup]
    intro p
    rw [h2.files, h2'.files]
    simp only [hsame]
  unfold addFromSrcdir
  rw [h1, h1']
  dsimp only
  rw [← hsort, addAll_congr (N := srcEnv E s src) (N' := srcEnv E s' src') rfl]
  intro p hp alg
  obtain ⟨r, b, hf, rfl⟩ := (h2.files p).mp hp
  show digestAt E s (FS.resolve src _) alg = digestAt E s' (FS.resolve src' _) alg
  have hs : ∀ w ∈ r, SafeName w := fun w hm => look_names hw hf.2 w (by simp [hm])
  rw [resolve_join src hs, resolve_join src' hs]
  exact digestAt_congr ⟨b, hf.2, ((hsame r b).mp hf).2⟩

end Ocfl
