import Verif.Proofs.WriteVersion

/-!
# `start_new_version`: what a new version starts from
-/

namespace Ocfl

open Spec FS Prog Ocfl.Inv

theorem vform_safe {v : Str} (h : VForm v) : SafeName v ∧ v.head? = some 'v' := by
  obtain ⟨ds, rfl, hne, hd⟩ := h
  refine ⟨⟨by simp, ?_, ?_, ?_⟩, rfl⟩
  · intro e; cases e
  · intro e; cases e
  · intro hm
    rcases List.mem_cons.mp hm with hm | hm
    · cases hm
    · have := hd _ hm
      revert this; decide

theorem styleName_safe (style : Option Nat) (n : Nat) : SafeName (styleName style n) := (vform_safe (vform_styleName style n)).1

theorem styleName_head (style : Option Nat) (n : Nat) : (styleName style n).head? = some 'v' :=
  (vform_safe (vform_styleName style n)).2

theorem versionDirectories_names {inv : Inv} {style : Option Nat} {n : Nat} (hs : StyleOK style) (hl : n ≤ styleLimit style)
    (hnk : Dict.NK inv.versionsD) (hn : ∀ v, v ∈ Dict.keys inv.versionsD ↔ ∃ i, 1 ≤ i ∧ i ≤ n ∧ v = styleName style i) :
    inv.versionDirectories = .ok ((upTo n).map (styleName style)) := by
  have hparse : ∀ i, 1 ≤ i → i ≤ n → parseVersionDirectory (styleName style i) = .ok i :=
    fun i h1 h2 => parse_styleName hs h1 (le_trans h2 hl)
  cases hv : inv.versionDirectories with
  | error e =>
    obtain ⟨_, k, hk, he⟩ := versionDirectories_error hv
    obtain ⟨i, h1, h2, rfl⟩ := (hn k).mp hk
    rw [hparse i h1 h2] at he
    cases he
  | ok vs =>
    obtain ⟨hperm, f, hf, hpw⟩ := versionDirectories_ok hv
    rw [Except.ok.injEq]
    have hmem : ∀ v, v ∈ vs ↔ ∃ i, 1 ≤ i ∧ i ≤ n ∧ v = styleName style i := fun v => by rw [hperm.mem_iff, hn]
    have hfv : ∀ i, 1 ≤ i → i ≤ n → f (styleName style i) = i := by
      intro i h1 h2
      have h3 := hf _ ((hmem _).mpr ⟨i, h1, h2, rfl⟩)
      rw [hparse i h1 h2] at h3
      exact (Except.ok.inj h3).symm
    have hnd : vs.Nodup := hperm.nodup_iff.mpr hnk
    have hp : vs.Perm ((upTo n).map (styleName style)) := by
      rw [List.perm_ext_iff_of_nodup hnd]
      · intro v
        rw [hmem, List.mem_map]
        constructor
        · rintro ⟨i, h1, h2, rfl⟩; exact ⟨i, mem_upTo.mpr ⟨h1, h2⟩, rfl⟩
        · rintro ⟨i, h1, rfl⟩
          obtain ⟨h1, h2⟩ := mem_upTo.mp h1
          exact ⟨i, h1, h2, rfl⟩
      · refine List.Nodup.map (fun a b h => styleName_inj h) ?_
        exact (upTo_pairwise n).imp (fun h => Nat.ne_of_lt h)
    refine hp.eq_of_pairwise (le := fun a b => f a ≤ f b) ?_ hpw ?_
    · intro a b ha hb h1 h2
      obtain ⟨i, hi1, hi2, rfl⟩ := (hmem a).mp ha
      obtain ⟨k, hk1, hk2, rfl⟩ := (hmem b).mp (hp.mem_iff.mpr hb)
      rw [hfv i hi1 hi2, hfv k hk1 hk2] at h1 h2
      rw [le_antisymm h1 h2]
    · rw [List.pairwise_map]
      refine (upTo_pairwise n).imp_of_mem ?_
      intro a b ha hb hab
      obtain ⟨a1, a2⟩ := mem_upTo.mp ha
      obtain ⟨b1, b2⟩ := mem_upTo.mp hb
      rw [hfv a a1 a2, hfv b b1 b2]
      exact Nat.le_of_lt hab

theorem nextVersionDir_names {inv : Inv} {style : Option Nat} {n : Nat} (hs : StyleOK style) (h0 : 1 ≤ n) (hl : n ≤ styleLimit style)
    (hnk : Dict.NK inv.versionsD) (hn : ∀ v, v ∈ Dict.keys inv.versionsD ↔ ∃ i, 1 ≤ i ∧ i ≤ n ∧ v = styleName style i)
    (w : Option Nat) :
    inv.nextVersionDir w =
      if n + 1 ≤ styleLimit style ∨ style = none then .ok (styleName style (n + 1)) else .error .objectException := by
  unfold nextVersionDir
  rw [versionDirectories_names hs hl hnk hn]
  simp only
  rw [highestLoop_style hs hl]
  simp only
  rw [if_neg (by omega : ¬ n = 0), if_neg (by omega : ¬ n = 0), Option.getD_some, next_styleName hs (by omega) hl]
  cases style with
  | none => simp
  | some w => simp

/-- The names of the versions in an inventory. -/
structure Numbered (inv : Inv) (style : Option Nat) (n : Nat) : Prop where
  styleOK : StyleOK style
  limit : n ≤ styleLimit style
  pos : 1 ≤ n
  keys : Dict.NK inv.versionsD
  names : ∀ v, v ∈ Dict.keys inv.versionsD ↔ ∃ i, 1 ≤ i ∧ i ≤ n ∧ v = styleName style i

theorem Parsed.numbered {inv : Inv} {alg : Str} {m : DigestMap} {vs : Dict Str VBlock} {style : Option Nat} {n : Nat}
    (h : Parsed inv alg m vs style n) : Numbered inv style n := by
  refine ⟨h.styleOK, h.limit, h.good.names.2.1, ?_, ?_⟩
  · rw [h.good.versionsD]; exact h.good.versionKeys
  · rw [h.good.versionsD]; exact h.good.names.2.2.2

/-- The state a new version starts with. -/
def carriedState (carry : Bool) (inv : Inv) : DigestMap := if carry then inv.head.elim [] inv.stateOf else []

/-- The inventory with an additional version. -/
def withVersion (inv : Inv) (type : Option Str) (head : Str) (metadata : Option VBlock) (st : DigestMap) : Inv :=
  { inv with type := type, versions := some (Dict.set inv.versionsD head { metadata.getD {} with state := some st }), head := some head }

/-- `next_version` gives the inventory one more version. -/
theorem nextVersion_ok {inv : Inv} {style : Option Nat} {n : Nat} (hn : Numbered inv style n) {sv : Str} {metadata : Option VBlock}
    {norm : Option Str} {fd dd carry : Bool} {old : Option Str} {nv : NV}
    (h : NV.nextVersion inv sv metadata norm fd dd carry old = .ok nv) :
    (n + 1 ≤ styleLimit style ∨ style = none) ∧ ∃ type, ((some sv = inv.specVersion ∧ type = inv.type) ∨
        ∃ cur, inv.specVersion = some cur ∧ NV.strLt sv cur = false ∧ some sv ≠ some cur ∧
          type = some (c!"https://ocfl.io/" ++ sv ++ c!"/spec/#inventory")) ∧
      nv = { inv := withVersion inv type (styleName style (n + 1)) metadata (carriedState carry inv), norm := norm,
             forwardDelta := some fd, dedupe := dd, oldDigestAlgorithm := old } := by
  have main : ∀ (inv' : Inv), inv'.versions = inv.versions → inv'.head = inv.head → inv' = { inv with type := inv'.type } →
      (match inv'.addVersion none metadata (some (if carry then
        match inv'.head with
        | none => []
        | some h => inv'.stateOf h
      else [])) none with
    | .error e => (.error e : Py NV)
    | .ok inv => .ok { inv := inv, norm := norm, forwardDelta := some fd, dedupe := dd,
                       oldDigestAlgorithm := old }) = .ok nv →
      (n + 1 ≤ styleLimit style ∨ style = none) ∧
      nv = { inv := withVersion inv inv'.type (styleName style (n + 1)) metadata (carriedState carry inv), norm := norm,
             forwardDelta := some fd, dedupe := dd, oldDigestAlgorithm := old } := by
    intro inv' e1 e2 e3 h
    have hvd : inv'.versionsD = inv.versionsD := by unfold Inv.versionsD; rw [e1]
    have hstof : ∀ v, inv'.stateOf v = inv.stateOf v := by
      intro v; simp [Inv.stateOf, Inv.versionData, Inv.versionsD, e1]
    have hst : (if carry then
        match inv'.head with
        | none => []
        | some h => inv'.stateOf h
      else []) = carriedState carry inv := by
      unfold carriedState
      rw [e2]
      split
      · cases inv.head <;> simp [hstof]
      · rfl
    rw [hst] at h
    unfold Inv.addVersion at h
    simp only at h
    rw [nextVersionDir_names hn.styleOK hn.pos hn.limit (by rw [hvd]; exact hn.keys) (by rw [hvd]; exact hn.names)] at h
    by_cases hlim : n + 1 ≤ styleLimit style ∨ style = none
    · refine ⟨hlim, ?_⟩
      rw [if_pos hlim] at h
      simp only [Except.ok.injEq] at h
      subst h
      unfold withVersion
      rw [hvd]
      congr 1
      rw [e3]
    · rw [if_neg hlim] at h
      cases h
  unfold NV.nextVersion at h
  simp only at h
  split at h
  · rename_i hne
    split at h
    · cases h
    · rename_i cur hcur
      split at h
      · cases h
      · rename_i hlt
        obtain ⟨h1, h2⟩ := main (inv.setSpecVersion sv) rfl rfl rfl h
        refine ⟨h1, _, Or.inr ⟨cur, hcur, by simpa using hlt, ?_, rfl⟩, h2⟩
        rw [hcur] at hne
        exact hne
  · rename_i heq
    have heq : some sv = inv.specVersion := by simpa using heq
    obtain ⟨h1, h2⟩ := main inv rfl rfl rfl h
    exact ⟨h1, _, Or.inl ⟨heq, rfl⟩, h2⟩

/-! ## The inventory a new version starts from -/

theorem changeFixity_eq (inv : Inv) (a b : Str) (fx : Option (List Str)) :
    changeFixity inv a b fx = { inv with fixity := (changeFixity inv a b fx).fixity } := by
  unfold changeFixity
  split
  · split
    · rfl
    · rfl
  · rfl

theorem rehashVersions_keys {o2n : Dict Str Str} : ∀ {vs vs' : Dict Str VBlock}, rehashVersions o2n vs = .ok vs' →
    Dict.keys vs' = Dict.keys vs
  | [], vs', h => by cases h; rfl
  | (v, b) :: rest, vs', h => by
    unfold rehashVersions at h
    split at h
    · cases h
    · split at h
      · cases h
      · rename_i rest' hr
        cases h
        have := rehashVersions_keys hr
        simp only [Dict.keys, List.map_cons] at this ⊢
        rw [this]

/-- The change of the digest algorithm keeps everything but manifest and versions, and the names of
the versions. -/
theorem changeDigest_ok {E : Env} {s : FS} {base : Path} {old new : Str} {inv inv' : Inv}
    (h : changeDigest E s base old new inv = .ok inv') :
    inv' = { inv with manifest := inv'.manifest, versions := inv'.versions } ∧ (∃ m, inv'.manifest = some m) ∧
      Dict.keys inv'.versionsD = Dict.keys inv.versionsD ∧
      (new = old → inv'.manifestD = inv.manifestD ∧ inv'.versions = inv.versions) ∧
      (new ≠ old → ∃ o2n, rehash E s base new inv.manifestD [] [] = .ok (o2n, inv'.manifestD) ∧
        rehashVersions o2n inv.versionsD = .ok inv'.versionsD) := by
  unfold changeDigest at h
  split at h
  · rename_i he
    cases h
    exact ⟨rfl, ⟨_, rfl⟩, rfl, fun _ => ⟨rfl, rfl⟩, fun hne => absurd he hne⟩
  · rename_i hne
    split at h
    · cases h
    · rename_i o2n m hr
      split at h
      · cases h
      · split at h
        · cases h
        · rename_i vs hvs
          cases h
          exact ⟨rfl, ⟨_, rfl⟩, rehashVersions_keys hvs, fun he => absurd he hne, fun _ => ⟨o2n, hr, hvs⟩⟩

theorem fswOpen_ok {cwd : Path} {p : Str} {s : FS} {b : Path} (h : fswOpen cwd p s = .ok b) :
    b = absComps cwd p ∧ look s b = some .dir := by
  unfold fswOpen at h
  dsimp only at h
  split at h
  · rename_i hd
    cases h
    exact ⟨rfl, by simpa [isdir] using hd⟩
  · cases h

/-- What `start_new_version` gives: the inventory that was read, the one after a change of the
algorithm, and the new version. -/
structure Started (E : Env) (o : Obj) (objdir srcdir : Str) (newAlg : Option Str) (fixity : Option (List Str))
    (metadata : Option VBlock) (carry : Bool) (s : FS) (base src : Path) (nv : NV)
    (inv0 : Inv) (alg : Str) (m : DigestMap) (vs : Dict Str VBlock) (style : Option Nat) (n : Nat) (inv1 : Inv) : Prop where
  base_eq : base = absComps E.cwd objdir
  base_dir : look s base = some .dir
  src_eq : src = absComps E.cwd srcdir
  src_dir : look s src = some .dir
  valid : ∃ l, Validator.validateObject E { checkDigests := false, lax := o.lax } 0 s objdir = .ok (true, l)
  parse : parseInventory E base s = .ok inv0
  parsed : Parsed inv0 alg m vs style n
  change : changeDigest E s base alg (newAlg.getD alg)
    (changeFixity { inv0 with digestAlgorithm := some (newAlg.getD alg) } alg (newAlg.getD alg) fixity) = .ok inv1
  numbered : Numbered inv1 style n
  next : NV.nextVersion inv1 c!"1.1" metadata o.norm o.forwardDelta o.dedupe carry (some alg) = .ok nv

theorem startNewVersion_ok {E : Env} (hlib : E.lib.Lawful) {o : Obj} {objdir : Str} {srcdir newAlg : Option Str}
    {fixity : Option (List Str)} {metadata : Option VBlock} {carry : Bool} {s : FS} {base src : Path} {nv : NV}
    (h : startNewVersion E o objdir srcdir newAlg fixity metadata carry s = .ok (base, src, nv)) :
    ∃ sd, srcdir = some sd ∧ ∃ inv0 alg m vs style n inv1,
      Started E o objdir sd newAlg fixity metadata carry s base src nv inv0 alg m vs style n inv1 := by
  unfold startNewVersion at h
  split at h
  · cases h
  · rename_i base' oldAlg inv1 hsi
    split at h
    · cases h
    · rename_i d
      split at h
      · cases h
      · rename_i src' hsrc
        split at h
        · cases h
        · rename_i nv' hnext
          cases h
          obtain ⟨hs1, hs2⟩ := fswOpen_ok hsrc
          unfold startInventory at hsi
          split at hsi
          · cases hsi
          · rename_i base'' hb
            obtain ⟨hb1, hb2⟩ := openObj_ok hb
            split at hsi
            · cases hsi
            · cases hsi
            · rename_i l hval
              split at hsi
              · cases hsi
              · rename_i inv0 hparse
                dsimp only at hsi
                split at hsi
                · cases hsi
                · rename_i inv' hch
                  cases hsi
                  obtain ⟨alg, m, vs, style, n, hp⟩ := parse_parsed hlib hparse
                  have ha : inv0.digestAlgorithm.getD [] = alg := by rw [hp.good.algorithm]; rfl
                  rw [ha] at hch hnext
                  refine ⟨d, rfl, inv0, alg, m, vs, style, n, inv1, hb1, hb2, hs1, hs2, ⟨l, hval⟩, hparse, hp, hch, ?_, hnext⟩
                  obtain ⟨_, _, hk, _⟩ := changeDigest_ok hch
                  have hk' : Dict.keys inv1.versionsD = Dict.keys inv0.versionsD := by
                    rw [hk, changeFixity_eq]; rfl
                  have hn := hp.numbered
                  refine ⟨hn.styleOK, hn.limit, hn.pos, ?_, ?_⟩
                  · have := hn.keys
                    unfold Dict.NK at this ⊢
                    have e : ∀ d : Dict Str VBlock, d.map Prod.fst = Dict.keys d := fun _ => rfl
                    rw [e] at this ⊢
                    rw [hk']; exact this
                  · rw [hk']; exact hn.names

end Ocfl
