import Verif.Proofs.DigestMap
import Verif.Proofs.VersionDir
import Verif.Model.NewVersion
import Verif.Spec.NewVersion

/-! # What each `NewVersion` operation does -/

namespace Ocfl

open Spec

namespace Inv

theorem contentPaths_eq (inv : Inv) : inv.contentPaths = listed inv.manifestD := flatMap_eq_listed _

theorem logicalPaths_eq (inv : Inv) (v : Str) : inv.logicalPaths v = listed (inv.stateOf v) := flatMap_eq_listed _

theorem setState_of_none {inv : Inv} {v : Str} (h : inv.versionData v = none) (st : DigestMap) :
    inv.setState v st = inv := by simp [setState, h]

theorem setState_of_some {inv : Inv} {v : Str} {b : VBlock} (h : inv.versionData v = some b) (st : DigestMap) :
    inv.setState v st = { inv with versions := some (Dict.set inv.versionsD v { b with state := some st }) } := by
  simp [setState, h]

@[simp] theorem setState_manifest (inv : Inv) (v : Str) (st : DigestMap) :
    (inv.setState v st).manifest = inv.manifest := by
  unfold setState; split <;> rfl

@[simp] theorem setState_head (inv : Inv) (v : Str) (st : DigestMap) :
    (inv.setState v st).head = inv.head := by
  unfold setState; split <;> rfl

@[simp] theorem setState_id (inv : Inv) (v : Str) (st : DigestMap) :
    (inv.setState v st).id = inv.id := by
  unfold setState; split <;> rfl

@[simp] theorem setState_type (inv : Inv) (v : Str) (st : DigestMap) :
    (inv.setState v st).type = inv.type := by
  unfold setState; split <;> rfl

@[simp] theorem setState_digestAlgorithm (inv : Inv) (v : Str) (st : DigestMap) :
    (inv.setState v st).digestAlgorithm = inv.digestAlgorithm := by
  unfold setState; split <;> rfl

@[simp] theorem setState_contentDirectory (inv : Inv) (v : Str) (st : DigestMap) :
    (inv.setState v st).contentDirectory = inv.contentDirectory := by
  unfold setState; split <;> rfl

@[simp] theorem setState_fixity (inv : Inv) (v : Str) (st : DigestMap) :
    (inv.setState v st).fixity = inv.fixity := by
  unfold setState; split <;> rfl

theorem setState_manifestD (inv : Inv) (v : Str) (st : DigestMap) :
    (inv.setState v st).manifestD = inv.manifestD := by simp [manifestD]

theorem setState_contentPaths (inv : Inv) (v : Str) (st : DigestMap) :
    (inv.setState v st).contentPaths = inv.contentPaths := by simp [contentPaths, manifestD]

theorem versionData_setState (inv : Inv) (v v' : Str) (st : DigestMap) :
    (inv.setState v st).versionData v' =
      if v' = v then (inv.versionData v).map (fun b => { b with state := some st }) else inv.versionData v' := by
  cases h : inv.versionData v with
  | none =>
    rw [setState_of_none h]
    by_cases hv : v' = v
    · subst hv; simp [h]
    · simp [hv]
  | some b =>
    rw [setState_of_some h]
    simp only [versionData, versionsD, Option.getD_some, Dict.get?_set]
    by_cases hv : v' = v
    · subst hv; simp
    · simp [hv, Ne.symm hv]

theorem stateOf_setState_self {inv : Inv} {v : Str} {b : VBlock} (h : inv.versionData v = some b) (st : DigestMap) :
    (inv.setState v st).stateOf v = st := by
  simp [stateOf, versionData_setState, h]

theorem stateOf_setState_ne {inv : Inv} {v v' : Str} (h : v' ≠ v) (st : DigestMap) :
    (inv.setState v st).stateOf v' = inv.stateOf v' := by
  simp [stateOf, versionData_setState, h]

theorem setState_setState (inv : Inv) (v : Str) (st st' : DigestMap) :
    (inv.setState v st).setState v st' = inv.setState v st' := by
  cases h : inv.versionData v with
  | none => rw [setState_of_none h, setState_of_none h]
  | some b =>
    have h1 : (inv.setState v st).versionData v = some { b with state := some st } := by
      rw [versionData_setState]; simp [h]
    rw [setState_of_some h1, setState_of_some h, setState_of_some h]
    simp only [versionsD, Option.getD_some, Inv.mk.injEq, true_and, and_true, Option.some.injEq]
    generalize inv.versions.getD [] = d
    induction d with
    | nil => simp [Dict.set]
    | cons x d ih =>
      obtain ⟨a, c⟩ := x
      by_cases ha : a = v
      · simp [Dict.set, ha]
      · simp [Dict.set, ha, ih]

/-- Version keys are distinct and so are the keys of manifest and states (as in every Python
dict). -/
structure DictOK (inv : Inv) : Prop where
  versions : Dict.NK inv.versionsD
  manifest : Dict.NK inv.manifestD
  states : ∀ v, Dict.NK (inv.stateOf v)

theorem addFileToManifest_ok {inv : Inv} {d cp : Str} (h : cp ∉ inv.contentPaths) :
    inv.addFileToManifest d cp =
      ({ inv with manifest := some (stateAppend inv.manifestD d cp) }, .ok ()) := by
  unfold addFileToManifest stateAppend
  rw [if_neg h]
  cases Dict.get? inv.manifestD d <;> rfl

end Inv

namespace NV

open Ocfl.Inv

/-- The content path chosen by `add` is not in the manifest yet. -/
theorem chooseContentPath_fresh {E : NVEnv} {nv : NV} {head s : Str} {c : Option Str} {cp : Str}
    (h : nv.chooseContentPath E head s c = .ok cp) : cp ∉ nv.inv.contentPaths := by
  unfold chooseContentPath at h
  simp only at h
  split at h
  · unfold mapFilepath at h
    simp only at h
    split at h
    · cases h
    · split at h
      · split at h
        · cases h
        · rename_i hp
          simp at h
          subst h
          unfold makeUnusedFilepath at hp
          obtain ⟨k, hk⟩ := unusedLoop_some _ 1 _ (by decide) hp
          exact hk.2.2.1
      · rename_i hu
        simp at h; subst h; exact hu
  · split at h
    · cases h
    · split at h
      · cases h
      · rename_i hu
        simp at h; subst h; exact hu

/-- The state after a successful `add`. -/
def afterAdd (nv : NV) (head src l digest cp : Str) : NV :=
  let inv1 := nv.inv.setState head (stateAppend (nv.inv.stateOf head) digest l)
  if nv.wantCopy head (nv.inv.contentPathsForDigest digest) then
    { nv with
      inv := { inv1 with manifest := some (stateAppend nv.inv.manifestD digest cp) }
      filesToCopy := Dict.set nv.filesToCopy src cp }
  else { nv with inv := inv1 }

/-- Complete description of `add`. -/
theorem add_eq (E : NVEnv) (nv : NV) (src l : Str) (c : Option Str) :
    nv.add E src l c =
      match nv.inv.head with
      | none => (nv, .error .typeError)
      | some head =>
        match nv.chooseContentPath E head src c with
        | .error e => (nv, .error e)
        | .ok cp =>
          if l ∈ nv.inv.logicalPaths head then (nv, .error .newVersionException)
          else
            match E.srcDigest (nv.inv.digestAlgorithm.getD []) src with
            | .error e => (nv, .error e)
            | .ok digest =>
              match nv.inv.versionData head with
              | none => (nv, .error .keyError)
              | some _ => (nv.afterAdd head src l digest cp, .ok ()) := by
  unfold add
  cases hh : nv.inv.head with
  | none => rfl
  | some head =>
    simp only
    cases hc : nv.chooseContentPath E head src c with
    | error e => rfl
    | ok cp =>
      simp only
      by_cases hl : l ∈ nv.inv.logicalPaths head
      · simp [hl]
      · simp only [hl, if_false]
        cases hd : E.srcDigest (nv.inv.digestAlgorithm.getD []) src with
        | error e => rfl
        | ok digest =>
          simp only
          have hfresh := chooseContentPath_fresh hc
          unfold stateAddIfNotPresent
          cases hv : nv.inv.versionData head with
          | none => rfl
          | some b =>
            simp only
            cases hs : b.state with
            | some st =>
              have hst : nv.inv.stateOf head = st := by simp [stateOf, hv, hs]
              simp only [contentPathsForDigest, setState_manifestD, afterAdd, hst, wantCopy]
              split
              · rw [addFileToManifest_ok (by rw [setState_contentPaths]; exact hfresh)]
                simp [setState_manifestD]
              · rfl
            | none =>
              have hst : nv.inv.stateOf head = [] := by simp [stateOf, hv, hs]
              simp only [contentPathsForDigest, setState_manifestD, afterAdd, hst, wantCopy, setState_setState]
              split
              · rw [addFileToManifest_ok (by rw [setState_contentPaths]; exact hfresh)]
                simp [setState_manifestD]
              · rfl

/-- The state after a successful `delete_logical_path`. -/
def afterDelete (inv : Inv) (head : Str) (st : DigestMap) (digest : Str) (last : Bool) : Inv :=
  let inv1 := inv.setState head st
  if last then
    { inv1 with manifest := inv.manifest.map (fun m => dropVersionPaths m head digest) }
  else inv1

theorem deleteLogicalPath_eq (inv : Inv) (head p : Str) :
    inv.deleteLogicalPath head p =
      match deleteFromState (inv.stateOf head) p with
      | none => (inv, .error .inventoryException)
      | some (st, digest, last) => (afterDelete inv head st digest last, .ok digest) := by
  unfold deleteLogicalPath
  cases h : deleteFromState (inv.stateOf head) p with
  | none => rfl
  | some r =>
    obtain ⟨st, digest, last⟩ := r
    simp only [afterDelete]
    cases last with
    | false => simp
    | true =>
      simp only [if_true, setState_manifest]
      cases hm : inv.manifest with
      | none =>
        simp
        cases hv : inv.versionData head with
        | none => rw [setState_of_none hv]; cases inv; simp at hm; simp [hm]
        | some b => rw [setState_of_some hv]; simp [hm]
      | some m => simp

theorem delete_eq (nv : NV) (p : Str) :
    nv.delete p =
      match nv.inv.head with
      | none => (nv, .error .newVersionException)
      | some head =>
        match deleteFromState (nv.inv.stateOf head) p with
        | none => (nv, .error .newVersionException)
        | some (st, digest, last) => ({ nv with inv := afterDelete nv.inv head st digest last }, .ok ()) := by
  unfold delete
  cases hh : nv.inv.head with
  | none => rfl
  | some head =>
    simp only [deleteLogicalPath_eq]
    cases h : deleteFromState (nv.inv.stateOf head) p with
    | none => simp
    | some r => simp

/-- A version with a non-empty state exists. -/
theorem versionData_of_delete {inv : Inv} {head p : Str} {r} (h : deleteFromState (inv.stateOf head) p = some r) :
    ∃ b, inv.versionData head = some b := by
  cases hv : inv.versionData head with
  | none => simp [stateOf, hv, deleteFromState] at h
  | some b => exact ⟨b, rfl⟩

theorem afterDelete_manifestD (inv : Inv) (head : Str) (st : DigestMap) (digest : Str) (last : Bool) :
    (afterDelete inv head st digest last).manifestD =
      if last then dropVersionPaths inv.manifestD head digest else inv.manifestD := by
  unfold afterDelete
  cases last with
  | false => simp [setState_manifestD]
  | true =>
    simp only [if_true, manifestD]
    cases inv.manifest with
    | none => rfl
    | some m => rfl

theorem afterDelete_versionData (inv : Inv) (head : Str) (st : DigestMap) (digest : Str) (last : Bool) (v : Str) :
    (afterDelete inv head st digest last).versionData v = (inv.setState head st).versionData v := by
  unfold afterDelete
  cases last <;> rfl

theorem afterDelete_stateOf (inv : Inv) (head : Str) (st : DigestMap) (digest : Str) (last : Bool) (v : Str) :
    (afterDelete inv head st digest last).stateOf v = (inv.setState head st).stateOf v := by
  unfold stateOf; rw [afterDelete_versionData]

/-- The state after a successful `rename`. -/
def afterRename (inv : Inv) (head : Str) (st : DigestMap) (digest new : Str) (last : Bool) : Inv :=
  { inv.setState head (stateAppend st digest new) with
    manifest := if last then inv.manifest.map (fun m => dropVersionPaths m head digest) else inv.manifest }

theorem rename_eq (nv : NV) (old new : Str) :
    nv.rename old new =
      match nv.inv.head with
      | none => (nv, .error .newVersionException)
      | some head =>
        if new ∈ nv.inv.logicalPaths head then (nv, .error .newVersionException)
        else
          match deleteFromState (nv.inv.stateOf head) old with
          | none => (nv, .error .newVersionException)
          | some (st, digest, last) =>
            ({ nv with inv := afterRename nv.inv head st digest new last }, .ok ()) := by
  unfold rename
  cases hh : nv.inv.head with
  | none => rfl
  | some head =>
    simp only [deleteLogicalPath_eq]
    split
    · rfl
    · cases h : deleteFromState (nv.inv.stateOf head) old with
      | none => simp
      | some r =>
        obtain ⟨st, digest, last⟩ := r
        obtain ⟨b, hb⟩ := versionData_of_delete h
        have hst : (afterDelete nv.inv head st digest last).stateOf head = st := by
          rw [afterDelete_stateOf, stateOf_setState_self hb]
        simp only [hst]
        congr 2
        unfold afterDelete afterRename
        have h2 : (nv.inv.setState head st).versionData head = some { b with state := some st } := by
          rw [versionData_setState]; simp [hb]
        cases last with
        | false =>
          simp only [Bool.false_eq_true, if_false, setState_setState]
          rw [setState_of_some hb]
        | true =>
          simp only [if_true]
          have h3 : ({ nv.inv.setState head st with manifest := nv.inv.manifest.map (fun m => dropVersionPaths m head digest) } : Inv).versionData head
              = some { b with state := some st } := h2
          rw [setState_of_some h3]
          rw [setState_of_some hb, setState_of_some hb]
          have := congrArg Inv.versions (setState_setState nv.inv head st (stateAppend st digest new))
          rw [setState_of_some h2, setState_of_some hb, setState_of_some hb] at this
          simpa [versionsD] using this

theorem afterRename_manifestD (inv : Inv) (head : Str) (st : DigestMap) (digest new : Str) (last : Bool) :
    (afterRename inv head st digest new last).manifestD =
      if last then dropVersionPaths inv.manifestD head digest else inv.manifestD := by
  unfold afterRename
  cases last with
  | false => simp [manifestD]
  | true =>
    simp only [if_true, manifestD]
    cases inv.manifest with
    | none => rfl
    | some m => rfl

theorem afterRename_versionData (inv : Inv) (head : Str) (st : DigestMap) (digest new : Str) (last : Bool) (v : Str) :
    (afterRename inv head st digest new last).versionData v =
      (inv.setState head (stateAppend st digest new)).versionData v := rfl

theorem afterRename_stateOf (inv : Inv) (head : Str) (st : DigestMap) (digest new : Str) (last : Bool) (v : Str) :
    (afterRename inv head st digest new last).stateOf v =
      (inv.setState head (stateAppend st digest new)).stateOf v := rfl

theorem afterAdd_manifestD (nv : NV) (head src l digest cp : Str) :
    (nv.afterAdd head src l digest cp).inv.manifestD =
      if nv.wantCopy head (nv.inv.contentPathsForDigest digest) then stateAppend nv.inv.manifestD digest cp
      else nv.inv.manifestD := by
  unfold afterAdd
  simp only
  split
  · rfl
  · simp [setState_manifestD]

theorem afterAdd_versionData (nv : NV) (head src l digest cp v : Str) :
    (nv.afterAdd head src l digest cp).inv.versionData v =
      (nv.inv.setState head (stateAppend (nv.inv.stateOf head) digest l)).versionData v := by
  unfold afterAdd
  simp only
  split <;> rfl

theorem afterAdd_stateOf (nv : NV) (head src l digest cp v : Str) :
    (nv.afterAdd head src l digest cp).inv.stateOf v =
      (nv.inv.setState head (stateAppend (nv.inv.stateOf head) digest l)).stateOf v := by
  have h := afterAdd_versionData nv head src l digest cp v
  generalize nv.inv.setState head (stateAppend (nv.inv.stateOf head) digest l) = i at h ⊢
  unfold stateOf; rw [h]

end NV
end Ocfl

namespace Ocfl
open Spec

theorem inDir_iff {dir p : Str} : startsWith p (dir ++ c!"/") = true ↔ InDir dir p := by
  rw [startsWith_iff]; rfl

theorem not_inDir_iff {dir p : Str} : startsWith p (dir ++ c!"/") = false ↔ ¬ InDir dir p := by
  rw [← inDir_iff]; simp

theorem osPathJoin_abs (a rest : Str) : osPathJoin a ('/' :: rest) = '/' :: rest := rfl

theorem osPathJoin_rel {a b : Str} (ha : a ≠ []) (he : endsWith a c!"/" = false) (hb : ¬ IsAbs b) :
    osPathJoin a b = a ++ c!"/" ++ b := by
  unfold osPathJoin
  split
  · exact absurd ⟨_, rfl⟩ hb
  · rw [if_neg]; simp [ha, he]

theorem endsWith_plain {a : Str} (h : '/' ∉ a) : endsWith a c!"/" = false := by
  cases he : endsWith a c!"/" with
  | false => rfl
  | true =>
    obtain ⟨t, rfl⟩ := endsWith_iff.mp he
    simp at h

theorem endsWith_append_plain {a b : Str} (h : PlainName b) : endsWith (a ++ b) c!"/" = false := by
  cases he : endsWith (a ++ b) c!"/" with
  | false => rfl
  | true =>
    obtain ⟨t, ht⟩ := endsWith_iff.mp he
    exfalso
    obtain ⟨c, hc⟩ : ∃ c, b.getLast? = some c := by
      cases hb : b.getLast? with
      | none => simp at hb; exact absurd hb h.1
      | some c => exact ⟨c, rfl⟩
    have h1 : (a ++ b).getLast? = some c := by simp [List.getLast?_append, hc]
    have h2 : (t ++ c!"/").getLast? = some '/' := by simp
    rw [ht, h2] at h1
    have := List.mem_of_getLast? hc
    simp at h1; subst h1
    exact h.2 this

/-- Joining to a plain directory stays inside or is absolute. -/
theorem osPathJoin_inDir {a b : Str} (ha : PlainName a) : InDir a (osPathJoin a b) ∨ IsAbs (osPathJoin a b) := by
  by_cases hb : IsAbs b
  · obtain ⟨r, rfl⟩ := hb; exact Or.inr ⟨r, rfl⟩
  · rw [osPathJoin_rel ha.1 (endsWith_plain ha.2) hb]
    exact Or.inl ⟨b, rfl⟩

theorem osPathJoin_prefix {a b : Str} : (∃ t, osPathJoin a b = a ++ t) ∨ IsAbs (osPathJoin a b) := by
  unfold osPathJoin
  split
  · exact Or.inr ⟨_, rfl⟩
  · split
    · exact Or.inl ⟨_, rfl⟩
    · exact Or.inl ⟨_, List.append_assoc _ _ _⟩

theorem InDir_append {dir p t : Str} (h : InDir dir p) : InDir dir (p ++ t) := by
  obtain ⟨r, rfl⟩ := h; exact ⟨r ++ t, by simp⟩

theorem IsAbs_append {p t : Str} (h : IsAbs p) : IsAbs (p ++ t) := by
  obtain ⟨r, rfl⟩ := h; exact ⟨r ++ t, by simp⟩

theorem makeUnused_append {f r : Str} {used : List Str} (h : makeUnusedFilepath f used = some r) :
    ∃ t, r = f ++ t := by
  unfold makeUnusedFilepath at h
  obtain ⟨k, hk, hr, _⟩ := unusedLoop_some _ 1 _ (by decide) h
  unfold cand at hr
  split at hr
  · exact ⟨[], by simp [hr]⟩
  · exact ⟨_, by rw [hr, List.append_assoc]⟩

namespace NV

/-- The path that `_map_filepath` starts from. -/
def mapped (E : NVEnv) (nv : NV) (filepath : Str) : Py Str :=
  if nv.norm = some c!"uri" then
    match urlquote filepath with
    | [] => .error .indexError
    | '.' :: rest => .ok (c!"%2E" ++ rest)
    | q => .ok q
  else if nv.norm = some c!"md5" then .ok ((E.md5hex filepath).take 16)
  else if nv.norm ≠ none then .error .newVersionException
  else .ok filepath

theorem mapFilepath_eq (E : NVEnv) (nv : NV) (head filepath : Str) :
    nv.mapFilepath E head filepath =
      match nv.mapped E filepath with
      | .error e => .error e
      | .ok fp =>
        let v := osPathJoin (osPathJoin head nv.inv.contentDirectoryToUse) fp
        match makeUnusedFilepath v nv.inv.contentPaths with
        | none => .error .valueError
        | some p => .ok p := by
  have h0 : nv.mapFilepath E head filepath =
      match nv.mapped E filepath with
      | .error e => .error e
      | .ok fp =>
        if osPathJoin (osPathJoin head nv.inv.contentDirectoryToUse) fp ∈ nv.inv.contentPaths then
          match makeUnusedFilepath (osPathJoin (osPathJoin head nv.inv.contentDirectoryToUse) fp)
              nv.inv.contentPaths with
          | none => .error .valueError
          | some p => .ok p
        else .ok (osPathJoin (osPathJoin head nv.inv.contentDirectoryToUse) fp) := rfl
  rw [h0]
  cases nv.mapped E filepath with
  | error e => rfl
  | ok fp =>
    simp only
    by_cases h : osPathJoin (osPathJoin head nv.inv.contentDirectoryToUse) fp ∈ nv.inv.contentPaths
    · simp only [h, if_true]
    · simp only [h, if_false]
      have : makeUnusedFilepath (osPathJoin (osPathJoin head nv.inv.contentDirectoryToUse) fp) nv.inv.contentPaths
          = some (osPathJoin (osPathJoin head nv.inv.contentDirectoryToUse) fp) := by
        simp [makeUnusedFilepath, unusedLoop, h]
      rw [this]

theorem mapFilepath_ok {E : NVEnv} {nv : NV} {head filepath cp : Str}
    (h : nv.mapFilepath E head filepath = .ok cp) :
    ∃ fp t, nv.mapped E filepath = .ok fp ∧
      cp = osPathJoin (osPathJoin head nv.inv.contentDirectoryToUse) fp ++ t := by
  rw [mapFilepath_eq] at h
  split at h
  · cases h
  · rename_i fp hfp
    simp only at h
    split at h
    · cases h
    · rename_i p hp
      simp at h; subst h
      obtain ⟨t, ht⟩ := makeUnused_append hp
      exact ⟨fp, t, hfp, ht⟩

theorem mapFilepath_isOk {E : NVEnv} {nv : NV} {head filepath : Str} :
    (∃ cp, nv.mapFilepath E head filepath = .ok cp) ↔ ∃ fp, nv.mapped E filepath = .ok fp := by
  rw [mapFilepath_eq]
  split
  · rename_i e he; simp [he]
  · rename_i fp hfp
    simp only [hfp]
    obtain ⟨r, hr⟩ := Option.isSome_iff_exists.mp (makeUnused_isSome
      (osPathJoin (osPathJoin head nv.inv.contentDirectoryToUse) fp) c!"__" nv.inv.contentPaths)
    rw [hr]; simp

theorem urlquote_nil_iff (s : Str) : urlquote s = [] ↔ s = [] := by
  cases s with
  | nil => simp [urlquote, quoteWith]
  | cons c cs =>
    simp only [urlquote, quoteWith, List.flatMap_cons, List.append_eq_nil_iff, reduceCtorEq, iff_false]
    intro h
    have h1 := h.1
    split at h1
    · cases h1
    · have : (String.utf8EncodeChar c) = [] := by
        cases he : String.utf8EncodeChar c with
        | nil => rfl
        | cons b bs => rw [he] at h1; simp [pctUpper] at h1
      have hl := String.length_utf8EncodeChar c
      rw [this] at hl
      have := Char.utf8Size_pos c
      simp at hl; omega

theorem mapped_isOk {E : NVEnv} {nv : NV} {s : Str} :
    (∃ fp, nv.mapped E s = .ok fp) ↔
      nv.norm = none ∨ nv.norm = some c!"md5" ∨ (nv.norm = some c!"uri" ∧ s ≠ []) := by
  unfold mapped
  by_cases h1 : nv.norm = some c!"uri"
  · rw [if_pos h1]
    have h3 : ¬ (some c!"uri" = some c!"md5") := by decide
    rw [h1, ← not_iff_not]
    simp only [reduceCtorEq, h3, false_or, true_and]
    rw [ne_eq, not_not, ← urlquote_nil_iff]
    constructor
    · intro h
      split at h
      · assumption
      · exact absurd ⟨_, rfl⟩ h
      · exact absurd ⟨_, rfl⟩ h
    · intro h; rw [h]; simp
  · rw [if_neg h1]
    by_cases h2 : nv.norm = some c!"md5"
    · rw [if_pos h2]; simp [h2]
    · rw [if_neg h2]
      by_cases h3 : nv.norm = none
      · simp [h3]
      · simp [h1, h2, h3]

theorem chooseContentPath_isOk {E : NVEnv} {nv : NV} {head s : Str} {c : Option Str} :
    (∃ cp, nv.chooseContentPath E head s c = .ok cp) ↔
      AddArgsOK nv.norm head nv.inv.contentDirectoryToUse nv.inv.contentPaths s c := by
  unfold chooseContentPath
  cases c with
  | none => simp only [AddArgsOK]; rw [mapFilepath_isOk, mapped_isOk]
  | some cp =>
    simp only [AddArgsOK]
    rw [← startsWith_iff]
    cases startsWith cp (head ++ c!"/" ++ nv.inv.contentDirectoryToUse ++ c!"/") with
    | false => simp
    | true =>
      by_cases h : cp ∈ nv.inv.contentPaths <;> simp [h]

/-- A chosen content path lies in the new version's directory, or is absolute. -/
theorem chooseContentPath_inDir {E : NVEnv} {nv : NV} {head s cp : Str} {c : Option Str}
    (hh : PlainName head) (h : nv.chooseContentPath E head s c = .ok cp) : InDir head cp ∨ IsAbs cp := by
  unfold chooseContentPath at h
  cases c with
  | none =>
    obtain ⟨fp, t, _, rfl⟩ := mapFilepath_ok h
    rcases osPathJoin_prefix (a := osPathJoin head nv.inv.contentDirectoryToUse) (b := fp) with ⟨t', h'⟩ | h'
    · rcases osPathJoin_inDir (b := nv.inv.contentDirectoryToUse) hh with h1 | h1
      · rw [h']; exact Or.inl (InDir_append (InDir_append h1))
      · rw [h']; exact Or.inr (IsAbs_append (IsAbs_append h1))
    · exact Or.inr (IsAbs_append h')
  | some c =>
    simp only at h
    split at h
    · cases h
    · split at h
      · cases h
      · rename_i h1 _
        simp at h; subst h
        simp at h1
        obtain ⟨t, rfl⟩ := startsWith_iff.mp h1
        exact Or.inl ⟨nv.inv.contentDirectoryToUse ++ c!"/" ++ t, by simp⟩

theorem not_abs_plain {s : Str} (h : PlainName s) : ¬ IsAbs s := by
  rintro ⟨r, rfl⟩; exact h.2 (by simp)

/-- A chosen content path lies in the content directory if the source path is relative. -/
theorem chooseContentPath_inContent {E : NVEnv} {nv : NV} {head s cp : Str} {c : Option Str}
    (hh : PlainName head) (hcd : PlainName nv.inv.contentDirectoryToUse)
    (hm : ∀ fp, c = none → nv.mapped E s = .ok fp → ¬ IsAbs fp)
    (h : nv.chooseContentPath E head s c = .ok cp) :
    InDir (head ++ c!"/" ++ nv.inv.contentDirectoryToUse) cp := by
  unfold chooseContentPath at h
  cases c with
  | none =>
    obtain ⟨fp, t, hfp, rfl⟩ := mapFilepath_ok h
    have h1 := osPathJoin_rel hh.1 (endsWith_plain hh.2) (not_abs_plain hcd)
    rw [h1, osPathJoin_rel (by simp) (by rw [List.append_assoc, ← List.append_assoc]; exact endsWith_append_plain hcd) (hm _ rfl hfp)]
    exact ⟨fp ++ t, by simp⟩
  | some c =>
    simp only at h
    split at h
    · cases h
    · split at h
      · cases h
      · rename_i h1 _
        simp at h; subst h
        simp at h1
        obtain ⟨t, rfl⟩ := startsWith_iff.mp h1
        exact ⟨t, by simp⟩

end NV
end Ocfl

namespace Ocfl
namespace NV
open Spec Ocfl.Inv

theorem step_error {E : NVEnv} {op : Op} {nv : NV} {e : PyErr} (h : (step E op nv).2 = .error e) :
    (step E op nv).1 = nv := by
  cases op with
  | add s l c =>
    simp only [step, add_eq] at h ⊢
    cases hh : nv.inv.head with
    | none => simp
    | some head =>
      simp only [hh] at h ⊢
      cases hc : nv.chooseContentPath E head s c with
      | error e => simp
      | ok cp =>
        simp only [hc] at h ⊢
        split at h
        · rename_i hl; simp [hl]
        · rename_i hl
          simp only [hl, if_false]
          cases hd : E.srcDigest (nv.inv.digestAlgorithm.getD []) s with
          | error e => simp
          | ok d =>
            simp only [hd] at h ⊢
            cases hv : nv.inv.versionData head with
            | none => simp
            | some b => simp [hv] at h
  | delete l =>
    simp only [step, delete_eq] at h ⊢
    cases hh : nv.inv.head with
    | none => simp
    | some head =>
      simp only [hh] at h ⊢
      cases hd : deleteFromState (nv.inv.stateOf head) l with
      | none => simp
      | some r => simp [hd] at h
  | rename o n =>
    simp only [step, rename_eq] at h ⊢
    cases hh : nv.inv.head with
    | none => simp
    | some head =>
      simp only [hh] at h ⊢
      split at h
      · rename_i hl; simp [hl]
      · rename_i hl
        simp only [hl, if_false]
        cases hd : deleteFromState (nv.inv.stateOf head) o with
        | none => simp
        | some r => simp [hd] at h

/-- The three ways a call can be accepted. -/
inductive Effect (E : NVEnv) (nv : NV) (head : Str) : Op → NV → Prop
  | add {s l c cp d b} (hc : nv.chooseContentPath E head s c = .ok cp)
      (hl : l ∉ listed (nv.inv.stateOf head))
      (hd : E.srcDigest (nv.inv.digestAlgorithm.getD []) s = .ok d)
      (hv : nv.inv.versionData head = some b) :
      Effect E nv head (.add s l c) (nv.afterAdd head s l d cp)
  | delete {l st d last b} (hd : deleteFromState (nv.inv.stateOf head) l = some (st, d, last))
      (hv : nv.inv.versionData head = some b) :
      Effect E nv head (.delete l) { nv with inv := afterDelete nv.inv head st d last }
  | rename {o n st d last b} (hn : n ∉ listed (nv.inv.stateOf head))
      (hd : deleteFromState (nv.inv.stateOf head) o = some (st, d, last))
      (hv : nv.inv.versionData head = some b) :
      Effect E nv head (.rename o n) { nv with inv := afterRename nv.inv head st d n last }

theorem step_ok {E : NVEnv} {op : Op} {nv : NV} (h : (step E op nv).2 = .ok ()) :
    ∃ head, nv.inv.head = some head ∧ Effect E nv head op (step E op nv).1 := by
  cases op with
  | add s l c =>
    simp only [step, add_eq] at h ⊢
    cases hh : nv.inv.head with
    | none => simp [hh] at h
    | some head =>
      refine ⟨head, rfl, ?_⟩
      simp only [hh] at h ⊢
      cases hc : nv.chooseContentPath E head s c with
      | error e => simp [hc] at h
      | ok cp =>
        simp only [hc] at h ⊢
        split at h
        · cases h
        · rename_i hl
          simp only [hl, if_false]
          cases hd : E.srcDigest (nv.inv.digestAlgorithm.getD []) s with
          | error e => simp [hd] at h
          | ok d =>
            simp only [hd] at h ⊢
            cases hv : nv.inv.versionData head with
            | none => simp [hv] at h
            | some b =>
              rw [logicalPaths_eq] at hl
              exact .add hc hl hd hv
  | delete l =>
    simp only [step, delete_eq] at h ⊢
    cases hh : nv.inv.head with
    | none => simp [hh] at h
    | some head =>
      refine ⟨head, rfl, ?_⟩
      simp only [hh] at h ⊢
      cases hd : deleteFromState (nv.inv.stateOf head) l with
      | none => simp [hd] at h
      | some r =>
        obtain ⟨st, d, last⟩ := r
        obtain ⟨b, hb⟩ := versionData_of_delete hd
        exact .delete hd hb
  | rename o n =>
    simp only [step, rename_eq] at h ⊢
    cases hh : nv.inv.head with
    | none => simp [hh] at h
    | some head =>
      refine ⟨head, rfl, ?_⟩
      simp only [hh] at h ⊢
      split at h
      · cases h
      · rename_i hl
        simp only [hl, if_false]
        cases hd : deleteFromState (nv.inv.stateOf head) o with
        | none => simp [hd] at h
        | some r =>
          obtain ⟨st, d, last⟩ := r
          obtain ⟨b, hb⟩ := versionData_of_delete hd
          rw [logicalPaths_eq] at hl
          exact .rename hl hd hb

/-- Every call either is refused and changes nothing, or has one of the three effects. -/
theorem step_cases (E : NVEnv) (op : Op) (nv : NV) :
    ((∃ e, (step E op nv).2 = .error e) ∧ (step E op nv).1 = nv) ∨
    ((step E op nv).2 = .ok () ∧ ∃ head, nv.inv.head = some head ∧ Effect E nv head op (step E op nv).1) := by
  cases h : (step E op nv).2 with
  | error e => exact Or.inl ⟨⟨e, rfl⟩, step_error h⟩
  | ok u => exact Or.inr ⟨rfl, step_ok h⟩

/-! ### fields that no call changes -/

theorem Effect.head {E nv head op nv'} (h : Effect E nv head op nv') : nv'.inv.head = nv.inv.head := by
  cases h with
  | add => unfold afterAdd; simp only; split <;> simp
  | delete => simp only [afterDelete]; split <;> simp
  | rename => simp [afterRename]

theorem Effect.id {E nv head op nv'} (h : Effect E nv head op nv') : nv'.inv.id = nv.inv.id := by
  cases h with
  | add => unfold afterAdd; simp only; split <;> simp
  | delete => simp only [afterDelete]; split <;> simp
  | rename => simp [afterRename]

theorem Effect.type {E nv head op nv'} (h : Effect E nv head op nv') : nv'.inv.type = nv.inv.type := by
  cases h with
  | add => unfold afterAdd; simp only; split <;> simp
  | delete => simp only [afterDelete]; split <;> simp
  | rename => simp [afterRename]

theorem Effect.digestAlgorithm {E nv head op nv'} (h : Effect E nv head op nv') :
    nv'.inv.digestAlgorithm = nv.inv.digestAlgorithm := by
  cases h with
  | add => unfold afterAdd; simp only; split <;> simp
  | delete => simp only [afterDelete]; split <;> simp
  | rename => simp [afterRename]

theorem Effect.contentDirectory {E nv head op nv'} (h : Effect E nv head op nv') :
    nv'.inv.contentDirectory = nv.inv.contentDirectory := by
  cases h with
  | add => unfold afterAdd; simp only; split <;> simp
  | delete => simp only [afterDelete]; split <;> simp
  | rename => simp [afterRename]

theorem Effect.fixity {E nv head op nv'} (h : Effect E nv head op nv') :
    nv'.inv.fixity = nv.inv.fixity := by
  cases h with
  | add => unfold afterAdd; simp only; split <;> simp
  | delete => simp only [afterDelete]; split <;> simp
  | rename => simp [afterRename]

theorem Effect.settings {E nv head op nv'} (h : Effect E nv head op nv') :
    nv'.norm = nv.norm ∧ nv'.forwardDelta = nv.forwardDelta ∧ nv'.dedupe = nv.dedupe ∧
    nv'.oldDigestAlgorithm = nv.oldDigestAlgorithm := by
  cases h with
  | add => unfold afterAdd; simp only; split <;> simp
  | delete => simp
  | rename => simp

theorem Effect.versionData {E nv head op nv'} (h : Effect E nv head op nv') {v : Str} (hv : v ≠ head) :
    nv'.inv.versionData v = nv.inv.versionData v := by
  cases h with
  | add => rw [afterAdd_versionData, versionData_setState, if_neg hv]
  | delete => simp only; rw [afterDelete_versionData, versionData_setState, if_neg hv]
  | rename => simp only; rw [afterRename_versionData, versionData_setState, if_neg hv]

/-- The block of the new version exists after the call and differs in its state only. -/
theorem Effect.headBlock {E nv head op nv'} (h : Effect E nv head op nv') :
    ∃ b, nv.inv.versionData head = some b ∧
      nv'.inv.versionData head = some { b with state := some (nv'.inv.stateOf head) } := by
  cases h with
  | add hc hl hd hv =>
    refine ⟨_, hv, ?_⟩
    rw [afterAdd_versionData, afterAdd_stateOf, stateOf_setState_self hv, versionData_setState]
    simp [hv]
  | delete hd hv =>
    refine ⟨_, hv, ?_⟩
    simp only
    rw [afterDelete_versionData, afterDelete_stateOf, stateOf_setState_self hv, versionData_setState]
    simp [hv]
  | rename hn hd hv =>
    refine ⟨_, hv, ?_⟩
    simp only
    rw [afterRename_versionData, afterRename_stateOf, stateOf_setState_self hv, versionData_setState]
    simp [hv]

theorem Effect.building {E nv head op nv'} (h : Effect E nv head op nv') (hb : Building nv head) :
    Building nv' head := by
  have hhd := h.head
  obtain ⟨b, hv, hv'⟩ := h.headBlock
  refine ⟨by rw [hhd, hb.head_eq], by simp [hv'], ?_, ?_, ?_⟩
  · cases h with
    | add hc hl hd hv => rw [afterAdd_stateOf, stateOf_setState_self hv]; exact NK_stateAppend hb.stateKeys _ _
    | delete hd hv =>
      simp only
      rw [afterDelete_stateOf, stateOf_setState_self hv]
      exact (deleteFromState_get hb.stateKeys hd).1
    | rename hn hd hv =>
      simp only
      rw [afterRename_stateOf, stateOf_setState_self hv]
      exact NK_stateAppend (deleteFromState_get hb.stateKeys hd).1 _ _
  · cases h with
    | add hc hl hd hv =>
      rw [afterAdd_stateOf, stateOf_setState_self hv]
      unfold PathsUnique
      rw [(stateAppend_perm _ _ _).nodup_iff, List.nodup_cons]
      exact ⟨hl, hb.statePaths⟩
    | delete hd hv =>
      simp only
      rw [afterDelete_stateOf, stateOf_setState_self hv]
      exact (PathsUnique_of_delete hd hb.statePaths).1
    | rename hn hd hv =>
      simp only
      rw [afterRename_stateOf, stateOf_setState_self hv]
      unfold PathsUnique
      rw [(stateAppend_perm _ _ _).nodup_iff, List.nodup_cons]
      refine ⟨?_, (PathsUnique_of_delete hd hb.statePaths).1⟩
      intro hmem
      apply hn
      exact (deleteFromState_perm hd).mem_iff.mpr (List.mem_cons_of_mem _ hmem)
  · cases h with
    | add =>
      rw [afterAdd_manifestD]
      split
      · exact NK_stateAppend hb.manifestKeys _ _
      · exact hb.manifestKeys
    | delete =>
      simp only [afterDelete_manifestD]
      split
      · exact NK_dropVersionPaths hb.manifestKeys _ _
      · exact hb.manifestKeys
    | rename =>
      simp only [afterRename_manifestD]
      split
      · exact NK_dropVersionPaths hb.manifestKeys _ _
      · exact hb.manifestKeys

theorem step_building {E op nv head} (hb : Building nv head) : Building (step E op nv).1 head := by
  rcases step_cases E op nv with ⟨_, h⟩ | ⟨_, h', hh, he⟩
  · rw [h]; exact hb
  · rw [hb.head_eq] at hh; simp at hh; subst hh; exact he.building hb

/-- Induction over a sequence of calls. -/
theorem run_induct {E : NVEnv} {P : NV → Prop} (hstep : ∀ op nv, P nv → P (step E op nv).1) (ops : List Op) :
    ∀ nv, P nv → P (run E ops nv) := by
  induction ops with
  | nil => intro nv h; exact h
  | cons op ops ih => intro nv h; exact ih _ (hstep op nv h)

theorem run_building {E ops nv head} (hb : Building nv head) : Building (run E ops nv) head :=
  run_induct (P := fun nv => Building nv head) (fun _ _ h => step_building h) ops nv hb

/-- Induction over a sequence of accepted calls while building. -/
theorem run_induct_building {E : NVEnv} {head : Str} {P : NV → Prop}
    (hstep : ∀ op nv nv', Building nv head → Effect E nv head op nv' → P nv → P nv') (ops : List Op) (nv : NV)
    (hb : Building nv head) (hp : P nv) : P (run E ops nv) := by
  have := run_induct (E := E) (P := fun nv => Building nv head ∧ P nv) (fun op nv h => ?_) ops nv ⟨hb, hp⟩
  · exact this.2
  · refine ⟨step_building h.1, ?_⟩
    rcases step_cases E op nv with ⟨_, h'⟩ | ⟨_, head', hh, he⟩
    · rw [h']; exact h.2
    · have := h.1.head_eq; rw [hh] at this; simp at this; subst this
      exact hstep op nv _ h.1 he h.2

/-- The same with a condition on every call. -/
theorem run_induct_always {E : NVEnv} {head : Str} {P : NV → Prop} {C : NV → Op → Prop}
    (hstep : ∀ op nv nv', Building nv head → Effect E nv head op nv' → C nv op → P nv → P nv') :
    ∀ (ops : List Op) (nv : NV), Building nv head → Always E C ops nv → P nv → P (run E ops nv) := by
  intro ops
  induction ops with
  | nil => intro nv _ _ h; exact h
  | cons op ops ih =>
    intro nv hb ha hp
    refine ih _ (step_building hb) ha.2 ?_
    rcases step_cases E op nv with ⟨_, h'⟩ | ⟨_, head', hh, he⟩
    · rw [h']; exact hp
    · have := hb.head_eq; rw [hh] at this; simp at this; subst this
      exact hstep op nv _ hb he ha.1 hp

/-! ### content paths -/

theorem step_contentPaths_nodup {E op nv} (h : nv.inv.contentPaths.Nodup) :
    (step E op nv).1.inv.contentPaths.Nodup := by
  rcases step_cases E op nv with ⟨_, h'⟩ | ⟨_, head, hh, he⟩
  · rw [h']; exact h
  · generalize (step E op nv).1 = nv' at he ⊢
    rw [contentPaths_eq] at h ⊢
    cases he with
    | add hc hl hd hv =>
      rw [afterAdd_manifestD]
      split
      · rw [(stateAppend_perm _ _ _).nodup_iff, List.nodup_cons]
        refine ⟨?_, h⟩
        have := chooseContentPath_fresh hc
        rwa [contentPaths_eq] at this
      · exact h
    | delete hd hv =>
      simp only [afterDelete_manifestD]
      split
      · exact (dropVersionPaths_sublist _ _ _).nodup h
      · exact h
    | rename hn hd hv =>
      simp only [afterRename_manifestD]
      split
      · exact (dropVersionPaths_sublist _ _ _).nodup h
      · exact h

end NV
end Ocfl

namespace Ocfl
namespace NV
open Spec

theorem urlquote_abs {s : Str} (h : ¬ IsAbs s) : ¬ IsAbs (urlquote s) := by
  rintro ⟨r, hr⟩
  cases s with
  | nil => simp [urlquote, quoteWith] at hr
  | cons c cs =>
    have hc : c ≠ '/' := by rintro rfl; exact h ⟨cs, rfl⟩
    simp only [urlquote, quoteWith, List.flatMap_cons] at hr
    split at hr
    · simp at hr; exact hc hr.1
    · cases he : String.utf8EncodeChar c with
      | nil =>
        have hl := String.length_utf8EncodeChar c
        have := Char.utf8Size_pos c
        rw [he] at hl; simp at hl; omega
      | cons b bs => rw [he] at hr; simp [pctUpper] at hr

theorem mapped_not_abs {E : NVEnv} {nv : NV} {s fp : Str} (hs : ¬ IsAbs s) (hm : ¬ IsAbs (E.md5hex s))
    (h : nv.mapped E s = .ok fp) : ¬ IsAbs fp := by
  unfold mapped at h
  split at h
  · split at h
    · cases h
    · simp at h; subst h; rintro ⟨r, hr⟩; cases hr
    · simp at h; subst h; exact urlquote_abs hs
  · split at h
    · simp at h; subst h
      rintro ⟨r, hr⟩
      apply hm
      cases hx : E.md5hex s with
      | nil => rw [hx] at hr; simp at hr
      | cons c cs => rw [hx] at hr; simp at hr; exact ⟨cs, by rw [hr.1]⟩
    · split at h
      · cases h
      · simp at h; subst h; exact hs

end NV
end Ocfl
