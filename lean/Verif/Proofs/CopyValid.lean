import Verif.Proofs.StoreAdd
import Verif.Spec.ValidObject
import Verif.Proofs.Sound

/-!
# An object that is copied stays valid

Rules for the object in `p` of the tree of files `s` hold for that in `p'` of `s'` if the same files are
there, if there are no further directories, if those of the versions are there, and if no directory is
empty that was not.
-/

namespace Ocfl

open Spec FS Store

namespace Spec.SameFiles

variable {E : Env} {s s' : FS} {p p' : Path}

theorem storedJson (h : SameFiles s p s' p') {lib : JsonLib} {q : Path} {j : Json} :
    StoredJson lib s' (p' ++ q) j ↔ StoredJson lib s (p ++ q) j := by
  unfold StoredJson
  simp only [h.files]

theorem digestIs (h : SameFiles s p s' p') {q : Path} {a d : Str} : DigestIs E s' (p' ++ q) a d ↔ DigestIs E s (p ++ q) a d := by
  unfold DigestIs
  simp only [h.files]

theorem sidecarGood (h : SameFiles s p s' p') {q : Path} {a : Str} :
    SidecarGood E s' (p' ++ q) a ↔ SidecarGood E s (p ++ q) a := by
  unfold SidecarGood
  simp only [List.append_assoc, h.files]

theorem sidecar (h : SameFiles s p s' p') {check : Bool}
    (hc : check = false → ∀ q, look s (p ++ q) ≠ none → look s' (p' ++ q) ≠ none) {q : Path} {a : Str}
    (hs : Sidecar E check s (p ++ q) a) : Sidecar E check s' (p' ++ q) a := by
  refine ⟨?_, fun e => h.sidecarGood.mpr (hs.2 e)⟩
  cases hck : check with
  | false =>
    rw [List.append_assoc]
    exact hc hck _ (by rw [← List.append_assoc]; exact hs.1)
  | true =>
    obtain ⟨b, _, _, _, hb, _⟩ := hs.2 hck
    rw [List.append_assoc] at hb ⊢
    rw [(h.files _ b).mpr hb]
    simp

theorem prior (h : SameFiles s p s' p') {check : Bool}
    (hc : check = false → ∀ q, look s (p ++ q) ≠ none → look s' (p' ++ q) ≠ none) {q : Path} {j j' : Json} {cd : Str}
    (hs : PriorRules E check s (p ++ q) j cd j') : PriorRules E check s' (p' ++ q) j cd j' := by
  obtain ⟨alg, m, vs, states, style, n, h1, h2⟩ := hs.rules
  exact ⟨⟨alg, m, vs, states, style, n, h1, h.sidecar hc h2⟩, hs.id, hs.contentDirectory, hs.history⟩

theorem rules (h : SameFiles s p s' p') {check : Bool}
    (hc : check = false → ∀ q, look s (p ++ q) ≠ none → look s' (p' ++ q) ≠ none) {spec : Str} {j : Json} {alg cd : Str}
    {m : List (Str × List Str)} {vs : List (Str × Json)} {states : Str → List (Str × List Str)} {style : Option Nat} {n : Nat}
    (hv : ObjectRules E check s p spec j alg cd m vs states style n)
    (hvd : ∀ v ∈ vs.map Prod.fst, look s' (p' ++ [v]) = some .dir)
    (hne : ∀ q, q ≠ [] → look s' (p' ++ q) = some .dir → (∃ w, look s (p ++ q ++ [w]) ≠ none) →
      ∃ w, look s' (p' ++ q ++ [w]) ≠ none) :
    ObjectRules E check s' p' spec j alg cd m vs states style n where
  supported := hv.supported
  declaration := by
    obtain ⟨b, t, hb, ht⟩ := hv.declaration
    exact ⟨b, t, (h.files _ b).mpr hb, ht⟩
  oneDeclaration t hl := hv.oneDeclaration t (h.ne_none hl)
  inventory := h.storedJson.mpr hv.inventory
  rules := hv.rules
  sidecar := by
    have := h.sidecar hc (q := []) (a := alg) (E := E) (check := check)
    simp only [List.append_nil] at this
    exact this hv.sidecar
  files w b hl := hv.files w b ((h.files _ b).mp hl)
  dirs w hl := hv.dirs w (h.dirs _ hl)
  extensions w b hl := hv.extensions w b ((h.files _ b).mp hl)
  versionDirs := hvd
  headInventory hl := by
    obtain ⟨h1, h2⟩ := hv.headInventory (h.ne_none hl)
    refine ⟨?_, h.sidecar hc h2⟩
    obtain ⟨b, _, hb, _⟩ := hv.inventory
    rw [hb] at h1
    rw [(h.files _ b).mpr h1, (h.files _ b).mpr hb]
  priorInventory i h1 h2 hl := by
    obtain ⟨j', hj, hp⟩ := hv.priorInventory i h1 h2 (h.ne_none hl)
    exact ⟨j', h.storedJson.mpr hj, h.prior hc hp⟩
  priorManifests i k h1 h2 h3 j1 j2 m1 m2 hj1 hj2 :=
    hv.priorManifests i k h1 h2 h3 j1 j2 m1 m2 (h.storedJson.mp hj1) (h.storedJson.mp hj2)
  priorSpecs i k h1 h2 h3 j1 j2 v1 v2 hj1 hj2 :=
    hv.priorSpecs i k h1 h2 h3 j1 j2 v1 v2 (h.storedJson.mp hj1) (h.storedJson.mp hj2)
  headSpec hl i h1 h2 j1 v1 hj1 := hv.headSpec (h.ne_none hl) i h1 h2 j1 v1 (h.storedJson.mp hj1)
  versionFiles v hvm w b hl := by
    rcases hv.versionFiles v hvm w b ((h.files _ b).mp hl) with e | e | ⟨j', a, hj, ha, e⟩
    · exact .inl e
    · exact .inr (.inl e)
    · exact .inr (.inr ⟨j', a, h.storedJson.mpr hj, ha, e⟩)
  content x := by
    rw [hv.content x]
    simp only [h.storedJson, h.files]
  noEmpty v hvm ws hws hl hn := by
    obtain ⟨w, hw⟩ := hv.noEmpty v hvm ws hws (h.dirs _ hl) (fun j' a hj => hn j' a (h.storedJson.mpr hj))
    exact hne _ (by simp) hl ⟨w, hw⟩
  digests hck d ws hl hs := h.digestIs.mpr (hv.digests hck d ws hl hs)
  fixity hck a d ws hl hs := h.digestIs.mpr (hv.fixity hck a d ws hl hs)
  priorDigests hck i h1 h2 j' a m' d ws hj ha hm hl hs hin :=
    h.digestIs.mpr (hv.priorDigests hck i h1 h2 j' a m' d ws (h.storedJson.mp hj) ha hm hl hs hin)
  priorFixity hck i h1 h2 j' a d ws hj hl hs hin :=
    h.digestIs.mpr (hv.priorFixity hck i h1 h2 j' a d ws (h.storedJson.mp hj) hl hs hin)

end Spec.SameFiles

/-- The same object in another tree of files. -/
theorem ValidObject.same {E : Env} {check : Bool} {s s' : FS} {p p' : Path} (h : ∀ q, look s' (p' ++ q) = look s (p ++ q))
    (hv : ValidObject E check s p) : ValidObject E check s' p' := by
  obtain ⟨spec, j, alg, cd, m, vs, states, style, n, hr⟩ := hv
  have hsf : SameFiles s p s' p' := ⟨fun q b => by rw [h], fun q hq => by rw [← h]; exact hq⟩
  refine ⟨spec, j, alg, cd, m, vs, states, style, n, hsf.rules (fun _ q hq => by rw [h]; exact hq) hr ?_ ?_⟩
  · intro v hm
    rw [h]
    exact hr.versionDirs v hm
  · rintro q _ _ ⟨w, hw⟩
    refine ⟨w, ?_⟩
    rw [List.append_assoc, h, ← List.append_assoc]
    exact hw

namespace Store.CopiedTo

theorem sameFiles {s s' : FS} {src target : Path} (hw : s.WF) (hsrc : look s src = some .dir) (hc : CopiedTo s s' src target) :
    SameFiles s src s' target := by
  refine ⟨hc.files, fun q hq => ?_⟩
  rcases (hc.dirs q).mp hq with rfl | ⟨r', b, ⟨t, rfl⟩, hne, hb⟩
  · simpa using hsrc
  · exact look_prefix hw (q := src ++ (q ++ t)) ⟨t, by simp⟩ (by simpa using hne) hb

/-- A valid object is valid where it has been copied to, if there is a file in the directory of each version. -/
theorem valid {E : Env} {s s' : FS} {src target : Path} (hw : s.WF) (hsrc : look s src = some .dir) (hc : CopiedTo s s' src target)
    {spec : Str} {j : Json} {alg cd : Str} {m : List (Str × List Str)} {vs : List (Str × Json)}
    {states : Str → List (Str × List Str)} {style : Option Nat} {n : Nat}
    (hv : ObjectRules E true s src spec j alg cd m vs states style n)
    (hfull : ∀ v ∈ vs.map Prod.fst, ∃ r b, look s (src ++ v :: r) = some (.file b)) :
    ObjectRules E true s' target spec j alg cd m vs states style n := by
  refine (hc.sameFiles hw hsrc).rules (check := true) (fun e => by cases e) hv ?_ ?_
  · intro v hm
    obtain ⟨r, b, hb⟩ := hfull v hm
    have hr : r ≠ [] := by
      rintro rfl
      rw [hv.versionDirs v hm] at hb
      cases hb
    exact (hc.dirs [v]).mpr (.inr ⟨v :: r, b, ⟨r, rfl⟩, by simpa using hr.symm, hb⟩)
  · intro q hq hl _
    rcases (hc.dirs q).mp hl with rfl | ⟨r', b, ⟨t, rfl⟩, hne, hb⟩
    · exact absurd rfl hq
    · cases t with
      | nil => simp at hne
      | cons w t =>
        refine ⟨w, ?_⟩
        cases t with
        | nil =>
          rw [List.append_assoc, (hc.files _ b).mpr hb]
          simp
        | cons x t =>
          rw [List.append_assoc, (hc.dirs (q ++ [w])).mpr (.inr ⟨_, b, ⟨x :: t, by simp⟩, by simp, hb⟩)]
          simp

end Store.CopiedTo

end Ocfl
