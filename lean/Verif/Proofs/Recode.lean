import Verif.Proofs.NextGround
import Verif.Spec.PriorVersion

/-!
# What stays the same when digests are replaced
-/

namespace Ocfl

open Spec FS Ocfl.Inv

theorem of_mem_joinWith {c : Char} (hc : c ≠ '/') {r : List Str} (h : c ∈ joinWith '/' r) : ∃ w ∈ r, c ∈ w := by
  induction r with
  | nil => simp [joinWith] at h
  | cons w ws ih =>
    by_cases hw : ws = []
    · subst hw
      exact ⟨w, by simp, h⟩
    · rw [joinWith_cons _ _ hw] at h
      rcases List.mem_append.mp h with h | h
      · exact ⟨w, by simp, h⟩
      · rcases List.mem_cons.mp h with h | h
        · exact absurd h hc
        · obtain ⟨x, hx, hxc⟩ := ih h
          exact ⟨x, by simp [hx], hxc⟩

/-- A source directory with a file gives a non-empty list. -/
theorem SourceOf.ne_nil {s : FS} {src : Path} {srcs : List Str} (h : SourceOf s src srcs) (hf : ∃ r b, FileBelow s src r b) : srcs ≠ [] := by
  obtain ⟨r, b, hr⟩ := hf
  exact List.ne_nil_of_mem ((h.files _).mpr ⟨r, b, hr, rfl⟩)

theorem SourceOf.newlines {s : FS} {src : Path} {srcs : List Str} (h : SourceOf s src srcs) {o : Obj}
    (hn : NamesAllowed o (FileBelow s src)) : o.norm = none → ∀ p ∈ srcs, '\n' ∉ p := by
  intro ho p hp hc
  obtain ⟨r, b, hr, rfl⟩ := (h.files p).mp hp
  obtain ⟨w, hw, hwc⟩ := of_mem_joinWith (by decide) hc
  exact hn ho r b hr w hw hwc

theorem stateOf_versionsD (inv : Inv) (v : Str) : inv.stateOf v = ((Dict.get? inv.versionsD v).bind (·.state)).getD [] := by
  unfold Inv.stateOf Inv.versionData
  cases Dict.get? inv.versionsD v <;> rfl

theorem lists_recode {f : Str → Str} {m : DigestMap} {d' c : Str} :
    Lists (m.map (fun e => (f e.1, e.2))) d' c ↔ ∃ d, d' = f d ∧ Lists m d c := by
  constructor
  · rintro ⟨ps, hm, hc⟩
    obtain ⟨e, he, heq⟩ := List.mem_map.mp hm
    obtain ⟨h1, h2⟩ := Prod.mk.inj heq
    exact ⟨e.1, h1.symm, e.2, he, by rw [h2]; exact hc⟩
  · rintro ⟨d, rfl, ps, hm, hc⟩
    exact ⟨ps, List.mem_map.mpr ⟨_, hm, rfl⟩, hc⟩

theorem Lists_mem_keys {m : DigestMap} {d p : Str} (h : Lists m d p) : d ∈ Dict.keys m := by
  obtain ⟨ps, h1, _⟩ := h
  exact Dict.mem_keys_of_mem h1

/-- A version block with its digests replaced. -/
def recodeBlock (f : Str → Str) (b : VBlock) : VBlock := { b with state := b.state.map (fun st => st.map (fun x => (f x.1, x.2))) }

/-- The state of a version after the digests were replaced. -/
theorem Recoded.state {f : Str → Str} {m m' : DigestMap} {vs vs' : Dict Str VBlock} (h : Recoded f m m' vs vs') (v : Str) :
    ((Dict.get? vs' v).bind (·.state)).getD [] = (((Dict.get? vs v).bind (·.state)).getD []).map (fun x => (f x.1, x.2)) := by
  have e : Dict.get? vs' v = (Dict.get? vs v).map (recodeBlock f) := by
    rw [h.versions]
    exact Dict.get?_map_val vs (recodeBlock f) v
  rw [e]
  cases hv : Dict.get? vs v with
  | none => rfl
  | some b =>
    cases hb : b.state with
    | none => simp [hb, recodeBlock]
    | some st => simp [hb, recodeBlock]

/-- The digests of a state are in the manifest. -/
theorem Good.stateKeys {inv : Inv} {alg : Str} {m : DigestMap} {vs : Dict Str VBlock} {style : Option Nat} {n : Nat}
    (h : Good inv alg m vs style n) {v d p : Str} (hl : Lists (((Dict.get? vs v).bind (·.state)).getD []) d p) : d ∈ Dict.keys m := by
  cases hv : Dict.get? vs v with
  | none => rw [hv] at hl; obtain ⟨ps, h1, _⟩ := hl; cases h1
  | some b =>
    rw [hv] at hl
    obtain ⟨st, hg⟩ := h.blocks v b (Dict.mem_of_get? hv)
    have hl : Lists (b.state.getD []) d p := hl
    rw [hg.state] at hl
    obtain ⟨ps, h1, _⟩ := hl
    obtain ⟨ps', _, h2⟩ := hg.digests _ h1
    exact Dict.mem_keys_of_mem h2

/-- What the logical paths of a version lead to is the same after the digests were replaced. -/
theorem Recoded.resolves {inv : Inv} {alg : Str} {f : Str → Str} {m m' : DigestMap} {vs vs' : Dict Str VBlock} {style : Option Nat}
    {n : Nat} (hg : Good inv alg m vs style n) (h : Recoded f m m' vs vs') (v p c : Str) :
    Resolves m (((Dict.get? vs v).bind (·.state)).getD []) p c ↔ Resolves m' (((Dict.get? vs' v).bind (·.state)).getD []) p c := by
  rw [h.state, h.manifest]
  constructor
  · rintro ⟨d, h1, h2⟩
    exact ⟨f d, lists_recode.mpr ⟨d, rfl, h1⟩, lists_recode.mpr ⟨d, rfl, h2⟩⟩
  · rintro ⟨d', h1, h2⟩
    obtain ⟨d1, e1, l1⟩ := lists_recode.mp h1
    obtain ⟨d2, e2, l2⟩ := lists_recode.mp h2
    have := h.inj d1 (hg.stateKeys l1) d2 (Lists_mem_keys l2) (by rw [← e1, ← e2])
    subst this
    exact ⟨d1, l1, l2⟩

/-- What `next_version` keeps. -/
theorem Started.kept {E : Env} {o : Obj} {objdir srcdir : Str} {newAlg : Option Str} {fixity : Option (List Str)}
    {metadata : Option VBlock} {carry : Bool} {s : FS} {base src : Path} {nv : NV} {inv0 : Inv} {alg : Str} {m : DigestMap}
    {vs : Dict Str VBlock} {style : Option Nat} {n : Nat} {inv1 : Inv}
    (h : Started E o objdir srcdir newAlg fixity metadata carry s base src nv inv0 alg m vs style n inv1) :
    nv.inv.manifestD = inv1.manifestD ∧ nv.inv.digestAlgorithm = inv1.digestAlgorithm ∧
      ∀ v ∈ Dict.keys inv1.versionsD, nv.inv.stateOf v = inv1.stateOf v := by
  obtain ⟨_, type, _, rfl⟩ := nextVersion_ok h.numbered h.next
  refine ⟨rfl, rfl, ?_⟩
  intro v hv
  rw [stateOf_versionsD, stateOf_versionsD]
  have hne : styleName style (n + 1) ≠ v := by
    rintro rfl
    obtain ⟨i, h1, h2, e⟩ := (h.numbered.names _).mp hv
    have := styleName_inj e
    omega
  show ((Dict.get? (Dict.set inv1.versionsD _ _) v).bind _).getD [] = _
  rw [Dict.get?_set, if_neg hne]

theorem Started.algorithm {E : Env} {o : Obj} {objdir srcdir : Str} {newAlg : Option Str} {fixity : Option (List Str)}
    {metadata : Option VBlock} {carry : Bool} {s : FS} {base src : Path} {nv : NV} {inv0 : Inv} {alg : Str} {m : DigestMap}
    {vs : Dict Str VBlock} {style : Option Nat} {n : Nat} {inv1 : Inv}
    (h : Started E o objdir srcdir newAlg fixity metadata carry s base src nv inv0 alg m vs style n inv1) :
    nv.inv.digestAlgorithm = some (newAlg.getD alg) := by
  rw [h.kept.2.1]
  have h1 := (changeDigest_ok h.change).1
  rw [h1, changeFixity_eq]

end Ocfl
