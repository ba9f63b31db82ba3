import Verif.Model.Paths
import Verif.Model.VersionMetadata
import Verif.Model.StorageRoot
import Verif.Model.Fsw
import Verif.Model.Digest
import Verif.Py.DictLemmas
import Verif.Proofs.Paths
import Mathlib.Tactic.ByContra

/-!
# C56, C58, C60, C68
-/

namespace Ocfl
open Spec

/-! ## C56: specification version of a storage root -/

/-- **C56_partial** One call: a version that is given is accepted exactly when it is supported and then
becomes the version of the storage root; without a version and with none set the default is used; a
refused call changes nothing. -/
theorem C56_partial (cur : Option Str) :
    (∀ v d, (checkSpecVersion (some v) d cur).2 = .ok () ↔ v ∈ [c!"1.0", c!"1.1"]) ∧
    (∀ v d, (checkSpecVersion (some v) d cur).2 = .ok () → (checkSpecVersion (some v) d cur).1 = some v) ∧
    (∀ d, d ∈ [c!"1.0", c!"1.1"] → checkSpecVersion none d none = (some d, .ok ())) ∧
    (∀ v d e, (checkSpecVersion v d cur).2 = .error e →
      (checkSpecVersion v d cur).1 = cur ∧ e = .storageRootException) := by
  refine ⟨?_, ?_, ?_, ?_⟩
  · intro v d
    unfold checkSpecVersion
    by_cases h : v ∈ specVersionsSupported
    · simp only [reduceCtorEq, false_and, if_false, h, if_true, true_iff]; exact h
    · simp only [reduceCtorEq, false_and, if_false, h, false_iff]; exact h
  · intro v d
    unfold checkSpecVersion
    by_cases h : v ∈ specVersionsSupported <;> simp [h]
  · intro d hd
    unfold checkSpecVersion
    have : d ∈ specVersionsSupported := hd
    simp [this]
  · intro v d e
    unfold checkSpecVersion
    dsimp only
    split
    · intro h; cases h; exact ⟨rfl, rfl⟩
    · split
      · intro h; cases h
      · intro h; cases h; exact ⟨rfl, rfl⟩

/-- **C56**, sequences: whatever calls are made, the version of the storage root stays unset or
supported. -/
theorem C56_sequence (calls : List (Option Str)) (cur : Option Str) (h : ∀ v, cur = some v → v ∈ [c!"1.0", c!"1.1"]) :
    ∀ v, checkSpecVersions cur calls = some v → v ∈ [c!"1.0", c!"1.1"] := by
  induction calls generalizing cur with
  | nil => exact h
  | cons c calls ih =>
    apply ih (checkSpecVersion c c!"1.1" cur).1
    intro v hv
    unfold checkSpecVersion at hv
    dsimp only at hv
    split at hv
    · exact h v hv
    · split at hv
      · simp only [Option.some.injEq] at hv
        subst hv; assumption
      · exact h v hv

/-- **C56**, what is missing: a second, different version replaces the first one, and a call without
a version fails when one is set. -/
theorem C56_violated :
    checkSpecVersions none [some c!"1.0", some c!"1.1"] = some c!"1.1" ∧
    (checkSpecVersion none c!"1.1" (some c!"1.0")).2 = .error .storageRootException := by decide

example : checkSpecVersions none [none, some c!"2.0", some c!"1.0"] = some c!"1.0" := by decide

/-! ## C58: reading in chunks -/

theorem compareLoop_iff {n : Nat} (hn : 0 < n) (fuel : Nat) (a b : Bytes) (hf : a.length < fuel) :
    compareLoop n fuel a b = true ↔ a = b := by
  induction fuel generalizing a b with
  | zero => omega
  | succ fuel ih =>
    unfold compareLoop
    dsimp only
    split
    · rename_i h
      simp only [Bool.false_eq_true, false_iff]
      intro e; subst e; exact h rfl
    · rename_i h
      simp only [ne_eq, not_not] at h
      split
      · rename_i h0
        simp only [true_iff]
        have ha : a = [] := by
          have := List.length_take (i := n) (l := a)
          rw [h0] at this
          apply List.length_eq_zero_iff.mp; omega
        have hb : b = [] := by
          have := List.length_take (i := n) (l := b)
          rw [← h, h0] at this
          apply List.length_eq_zero_iff.mp; omega
        rw [ha, hb]
      · rename_i h0
        have hlen : 0 < a.length := by
          rw [List.length_take] at h0
          omega
        rw [ih _ _ (by rw [List.length_drop]; omega)]
        constructor
        · intro hd
          rw [← List.take_append_drop n a, h, hd, List.take_append_drop]
        · intro e; rw [e]

/-- **C58** The comparison says "identical" exactly for equal contents, whatever the chunk size. -/
theorem C58 {buflen : Nat} (hn : 0 < buflen) (name1 name2 : Str) (a b : Bytes) (hsame : name1 = name2 → a = b) :
    filesIdentical buflen name1 name2 a b = true ↔ a = b := by
  unfold filesIdentical
  split
  · rename_i h
    simp only [Bool.false_eq_true, false_iff]
    intro e; subst e; exact h rfl
  · split
    · rename_i h; simp [hsame h]
    · exact compareLoop_iff hn _ _ _ (Nat.lt_succ_self _)

/-- **C58**, digests: feeding any digester chunk by chunk is the same as feeding the whole content, if
the digester itself does not depend on how its input is cut. -/
theorem C58_digest {σ : Type} (update : σ → Bytes → σ) (h0 : ∀ s, update s [] = s)
    (happ : ∀ s a b, update s (a ++ b) = update (update s a) b) {bufsize : Nat} (hn : 0 < bufsize)
    (fuel : Nat) (st : σ) (content : Bytes) (hf : content.length < fuel) :
    fileDigestChunks update bufsize fuel st content = update st content := by
  induction fuel generalizing st content with
  | zero => omega
  | succ fuel ih =>
    unfold fileDigestChunks
    dsimp only
    split
    · rename_i h
      have : content = [] := by
        have := congrArg List.length h
        rw [List.length_take] at this
        apply List.length_eq_zero_iff.mp
        simp only [List.length_nil] at this; omega
      rw [this, h0]
    · rename_i h
      have : 0 < content.length := by
        apply List.length_pos_iff.mpr
        rintro rfl; simp at h
      have hl : (content.drop bufsize).length < fuel := by rw [List.length_drop]; omega
      rw [ih _ _ hl, ← happ, List.take_append_drop]

example : filesIdentical 2 c!"a" c!"b" [1, 2, 3] [1, 2, 3] = true ∧ filesIdentical 2 c!"a" c!"b" [1, 2, 3] [1, 2, 4] = false := by
  decide

/-! ## C60: version metadata -/

/-- **C60** What is written into a new version of an inventory is read back: the same creation time
(the current time if none was given), message, name and address; also if further versions are added
under other names before reading. -/
theorem C60 (inv inv' : Inv) (m fresh : VMeta) (now v : Str) (st : Option DigestMap) (w : Option Nat)
    (hfresh : fresh = {}) (h : inv.addVersion (some v) (some (m.asDict now)) st w = .ok inv')
    (more : List (Str × VBlock)) (hmore : ∀ x ∈ more, x.1 ≠ v) :
    let later := more.foldl (fun i x => { i with versions := some (Dict.set i.versionsD x.1 x.2), head := some x.1 }) inv'
    VMeta.fromInventory later (some v) fresh =
      ({ id := inv.id, created := some (if m.created.getD [] = [] then now else m.created.getD []),
         message := m.message, name := m.name, address := m.address, version := some v }, .ok ()) := by
  subst hfresh
  intro later
  have key : ∀ (more : List (Str × VBlock)) (i : Inv) (b : VBlock), (∀ x ∈ more, x.1 ≠ v) →
      Dict.get? i.versionsD v = some b → i.versions.isSome = true →
      let l := more.foldl (fun i x => { i with versions := some (Dict.set i.versionsD x.1 x.2), head := some x.1 }) i
      l.id = i.id ∧ l.versions.isSome = true ∧ Dict.get? l.versionsD v = some b := by
    intro more
    induction more with
    | nil => intro i b _ hb hs; exact ⟨rfl, hs, hb⟩
    | cons x more ih =>
      intro i b hx hb hs
      have := ih { i with versions := some (Dict.set i.versionsD x.1 x.2), head := some x.1 } b
        (fun y hy => hx y (List.mem_cons_of_mem _ hy))
        (by
          show Dict.get? (Dict.set i.versionsD x.1 x.2) v = some b
          rw [Dict.get?_set_ne _ _ (hx x (List.mem_cons_self ..)), hb]) rfl
      exact this
  unfold Inv.addVersion at h
  simp only [Except.ok.injEq, Option.getD_some] at h
  obtain ⟨blk, hblk, hc, hm, hu⟩ : ∃ blk : VBlock, Dict.get? inv'.versionsD v = some blk ∧
      blk.created = (m.asDict now).created ∧ blk.message = (m.asDict now).message ∧ blk.user = (m.asDict now).user := by
    cases st with
    | none =>
      refine ⟨m.asDict now, ?_, rfl, rfl, rfl⟩
      rw [← h]; exact Dict.get?_set_self ..
    | some s =>
      refine ⟨{ m.asDict now with state := some s }, ?_, rfl, rfl, rfl⟩
      rw [← h]; exact Dict.get?_set_self ..
  have hid : inv'.id = inv.id := by rw [← h]
  obtain ⟨k1, k2, k3⟩ := key more inv' blk hmore hblk (by rw [← h]; rfl)
  change later.id = _ at k1
  change later.versions.isSome = true at k2
  change Dict.get? later.versionsD v = some blk at k3
  obtain ⟨vs, hvs⟩ := Option.isSome_iff_exists.mp k2
  unfold Inv.versionsD at k3
  rw [hvs] at k3
  simp only [Option.getD_some] at k3
  unfold VMeta.fromInventory
  rw [hvs]
  simp only [Option.orElse_some, k3, k1, hid]
  rw [hc, hm, hu]
  unfold VMeta.asDict VMeta.readUser
  cases hcr : m.created with
  | none => cases hms : m.message <;> cases hn : m.name <;> cases ha : m.address <;> simp
  | some c =>
    cases c with
    | nil => cases hms : m.message <;> cases hn : m.name <;> cases ha : m.address <;> simp
    | cons c cs => cases hms : m.message <;> cases hn : m.name <;> cases ha : m.address <;> simp

/-- **C60**, errors: reading a version that is not there is refused. -/
theorem C60_missing (inv : Inv) (m : VMeta) (v : Str) (h : Dict.get? inv.versionsD v = none) :
    (VMeta.fromInventory inv (some v) m).2 = .error .inventoryException := by
  unfold VMeta.fromInventory
  cases hv : inv.versions with
  | none => rfl
  | some vs =>
    unfold Inv.versionsD at h
    rw [hv] at h
    simp only [Option.getD_some] at h
    simp [h]

example : ∃ inv', ({ id := some c!"x" } : Inv).addVersion (some c!"v1")
    (some (({ message := some c!"hello", address := some c!"mailto:a@b" } : VMeta).asDict c!"2020-01-01T00:00:00Z")) none none = .ok inv' ∧
    (VMeta.fromInventory inv' none {}).1.created = some c!"2020-01-01T00:00:00Z" := ⟨_, rfl, by decide⟩

/-! ## C68: trimming paths -/

/-- **C68**, `remove_first_directory`, for every path: the names of a relative path without the first
one, or all names of an absolute path (whose first directory is the root), joined by single
separators. -/
theorem C68_remove_first (path : Str) :
    removeFirstDirectory path =
      joinWith '/' (if path.head? = some '/' then namesOf path else (namesOf path).tail) := by
  have h := removeFirstLoop_eq (path.length + 1) path [] (by simp) (Nat.lt_succ_self _)
  simp only [joinWith, List.append_nil] at h
  unfold removeFirstDirectory
  rw [h]
  congr 1
  unfold keptNames
  have : startsWith path c!"/" = true ↔ path.head? = some '/' := by
    rw [startsWith_iff]
    constructor
    · rintro ⟨t, rfl⟩; rfl
    · intro e
      cases path with
      | nil => simp at e
      | cons c p => simp at e; subst e; exact ⟨p, rfl⟩
  by_cases hs : path.head? = some '/'
  · rw [if_pos hs, if_pos (this.mpr hs)]
  · rw [if_neg hs, if_neg (fun e => hs (this.mp e))]

/-- **C68**, joining back: a first directory and a separator in front of the result give the path. -/
theorem C68_rejoin {first : Str} {rest : List Str} (hf : IsComp first) (hr : ∀ w ∈ rest, IsComp w) (hne : rest ≠ []) :
    removeFirstDirectory (first ++ '/' :: joinWith '/' rest) = joinWith '/' rest := by
  rw [C68_remove_first, if_neg]
  · have : namesOf (first ++ '/' :: joinWith '/' rest) = first :: rest := by
      unfold namesOf
      rw [splitOn_append_sep hf.2, splitOn_joinWith hne (fun w hw => (hr w hw).2), List.filter_eq_self.mpr]
      intro w hw
      rcases List.mem_cons.mp hw with rfl | hw
      · simpa using hf.1
      · simpa using (hr w hw).1
    rw [this]; rfl
  · match first, hf with
    | c :: f, hf =>
      intro e
      simp at e
      exact hf.2 (by simp [e])

/-- **C68_partial**, `strip_root` for absolute paths without `.` and `..`: the part below the root is
returned for a path below the root, `.` for the root itself, and a path that does not begin with the
characters of the root is refused. Trailing separators of the root do not matter. -/
theorem C68_partial (cwd : List Str) {rs : List Str} (hrs : ∀ w ∈ rs, SafeName w) (hne : rs ≠ []) (n : Nat) :
    (∀ ws, (∀ w ∈ ws, SafeName w) → ws ≠ [] →
      stripRoot cwd ('/' :: joinWith '/' (rs ++ ws)) ('/' :: joinWith '/' rs ++ List.replicate n '/') =
        .ok (joinWith '/' ws)) ∧
    stripRoot cwd ('/' :: joinWith '/' rs) ('/' :: joinWith '/' rs ++ List.replicate n '/') = .ok c!"." ∧
    (∀ path, stripRoot cwd path ('/' :: joinWith '/' rs ++ List.replicate n '/') = .error .layoutException ↔
      ¬ ∃ r, path = '/' :: joinWith '/' rs ++ r) := by
  have hcomp : ∀ w ∈ rs, IsComp w := fun w hw => SafeName.isComp (hrs w hw)
  have hroot : rstripSlash ('/' :: joinWith '/' rs ++ List.replicate n '/') = '/' :: joinWith '/' rs := by
    unfold rstripSlash
    rw [List.reverse_append, List.reverse_replicate, List.dropWhile_append_of_pos (by simp)]
    have h1 : endsWith ('/' :: joinWith '/' rs) c!"/" = false := by
      have := endsWith_slash_append (a := ['/']) (joinWith_ne_nil hne hcomp)
      rw [List.singleton_append] at this
      rw [this]; exact joinWith_not_slash hne hcomp
    have := rstripSlash_of h1
    exact this
  have ok : ∀ ws : List Str, (∀ w ∈ ws, SafeName w) →
      stripRoot cwd ('/' :: joinWith '/' (rs ++ ws)) ('/' :: joinWith '/' rs ++ List.replicate n '/') =
        .ok (if ws = [] then c!"." else joinWith '/' ws) := by
    intro ws hws
    unfold stripRoot
    rw [hroot]
    dsimp only
    rw [if_pos]
    · unfold relpath
      rw [if_neg (by simp), absComps_abs _ hrs, absComps_abs _ (by
        intro w hw
        rcases List.mem_append.mp hw with hw | hw
        · exact hrs w hw
        · exact hws w hw)]
      simp only [sharedLength_append, Nat.sub_self, List.replicate_zero, List.nil_append, List.drop_left]
      by_cases h0 : ws = [] <;> simp [h0]
    · rw [commonPrefix_eq_iff]
      by_cases h0 : ws = []
      · subst h0; exact ⟨[], by simp⟩
      · rw [joinWith_append hne h0]
        exact ⟨'/' :: joinWith '/' ws, by simp⟩
  refine ⟨?_, ?_, ?_⟩
  · intro ws hws h0
    rw [ok ws hws, if_neg h0]
  · have := ok [] (by simp)
    simpa using this
  · intro path
    unfold stripRoot
    rw [hroot]
    dsimp only
    by_cases h : ∃ r, path = '/' :: joinWith '/' rs ++ r
    · rw [if_pos ((commonPrefix_eq_iff _ _).mpr h)]
      simp only [h, not_true_eq_false, iff_false]
      unfold relpath
      split
      · simp
      · dsimp only
        split <;> simp
    · rw [if_neg (fun e => h ((commonPrefix_eq_iff _ _).mp e))]
      simp only [h, not_false_eq_true]

/-- **C68**, what is missing: a path beside the root whose name begins with that of the root is not
refused, and below the root `/` the result depends on the current directory. -/
theorem C68_violated :
    stripRoot [] c!"/data/rootbeer/x" c!"/data/root" = .ok c!"../rootbeer/x" ∧
    stripRoot [c!"home"] c!"/data/x" c!"/" = .ok c!"../data/x" := by decide +kernel

example : removeFirstDirectory c!"v1//content/a/" = c!"content/a" := by decide +kernel
example : stripRoot [] c!"/data/root/a/b" c!"/data/root/" = .ok c!"a/b" := by decide +kernel

end Ocfl
