import Verif.Proofs.KeepStep
import Verif.Props.Sidecar
import Verif.Props.ObjectValidation

/-!
# Objects made by the library obey the rules for objects
-/

namespace Ocfl

open Spec FS Prog Ocfl.Inv

/-- A written sidecar is a good one. -/
theorem stored_sidecar {E : Env} (hE : Libraries E) {s : FS} {dir : Path} {r : Rec} (h : Stored E s dir r)
    (halg : r.alg = c!"sha512" ∨ r.alg = c!"sha256") (check : Bool) : Sidecar E check s dir r.alg := by
  obtain ⟨hi, d, hd, hs⟩ := h
  have hs' : look s (dir ++ [c!"inventory.json." ++ r.alg]) = some (.file (sidecarLine d)) := hs
  refine ⟨by rw [hs']; simp, fun _ => ⟨_, _, d, _, hs', utf8Decode_utf8 _, ?_, hi, hd⟩⟩
  obtain ⟨n, hn⟩ : ∃ n, hexLength r.alg = some n := by
    rcases halg with h | h <;> rw [h]
    · exact ⟨128, rfl⟩
    · exact ⟨64, rfl⟩
  rw [fileDigest_hexLength hn] at hd
  have hd' := Option.some.inj hd
  obtain ⟨h1, h2⟩ := hE.hash r.alg n hn (utf8 (inventoryText E r.inv))
  rw [hd'] at h1 h2
  have hcr : '\r' ∉ d ++ c!" " ++ inventoryFilename ++ c!"\n" := by
    intro hc
    simp only [List.mem_append] at hc
    rcases hc with ((hc | hc) | hc) | hc
    · exact (hex_small (h2 _ hc)).2.2.2 rfl
    · revert hc; decide
    · revert hc; decide
    · revert hc; decide
  rw [univNewlines_of_noCR hcr]
  refine ⟨c!" ", [], c!"\n", by simp; rfl, ?_, fun c hc => hex_word hE.word (h2 c hc), by decide, ?_, by simp, Or.inr ⟨[], rfl⟩⟩
  · intro h
    rw [h] at h1
    have := (hexLength_cases hn).1
    simp at h1
    omega
  · intro c hc
    have : c = ' ' := by simpa using hc
    subst this
    exact ⟨show _ ∈ _ by decide, by decide⟩

/-- The text of a declaration. -/
theorem declaration_text {isWord : Char → Bool} (hword : WordClass isWord) {v : Str} (hv : v ∈ supported) :
    IsTvalue isWord (univNewlines (c!"ocfl_object_" ++ v ++ c!"\n")) (c!"ocfl_object_" ++ v) := by
  have hv' : v = c!"1.0" ∨ v = c!"1.1" := by simpa [supported] using hv
  have hcr : '\r' ∉ c!"ocfl_object_" ++ v ++ c!"\n" := by rcases hv' with rfl | rfl <;> decide
  rw [univNewlines_of_noCR hcr]
  have ht := isTvalue_iff.mpr (tvalue_declaration hword hv)
  obtain ⟨core, ⟨pre, post, h1, h2, h3, h4, h5⟩, h6⟩ := ht
  refine ⟨core, ⟨pre, post ++ c!"\n", by rw [h1]; simp, h2, ?_, h4, h5⟩, h6⟩
  intro c hc
  rcases List.mem_append.mp hc with hc | hc
  · exact h3 c hc
  · have : c = '\n' := by simpa using hc
    subst this
    exact show _ ∈ _ by decide

/-! ## What is in a written inventory -/

section Written

variable {inv : Inv} {alg : Str} {m : DigestMap} {vs : Dict Str VBlock} {style : Option Nat} {n : Nat}

theorem Good.writtenWF (h : Good inv alg m vs style n) : inv.toJson.sortKeys.WF := (Inv.writable_toJson h.keys).sortKeys.wf

theorem Good.writtenRules (h : Good inv alg m vs style n) : ∃ m' vs' states, m.Perm m' ∧ (∀ v, v ∈ vs'.map Prod.fst ↔ v ∈ Dict.keys vs) ∧
    RulesWith false none inv.toJson.sortKeys (.str alg) inv.contentDirectoryToUse m' vs' states style n := by
  have hw := Inv.writable_toJson h.keys
  obtain ⟨m', vs', states, h1, h2, h3⟩ := rulesWith_reorder hw.wf (Json.reorder_sortKeys hw.wf) h.rules
  refine ⟨m', vs', states, h1, ?_, h3⟩
  intro v
  rw [← h2.mem_iff]
  have : (vs.map (fun e => (e.1, e.2.toJson))).map Prod.fst = Dict.keys vs := Dict.keys_map_val vs _
  rw [this]

theorem Good.writtenManifest (h : Good inv alg m vs style n) {m' : List (Str × List Str)}
    (hm : Member inv.toJson.sortKeys c!"manifest" (ofDigestMap m')) : m' = Dict.sorted m :=
  ofDigestMap_inj (member_unique h.writtenWF hm h.writtenView.1)

theorem Good.written_str (h : Good inv alg m vs style n) {k a : Str} {o : Option Str} (hf : (k, o.map Json.str) ∈ inv.fields)
    : Member inv.toJson.sortKeys k (.str a) ↔ o = some a := by
  have hwf := (Inv.writable_toJson h.keys).wf
  have key : ∀ x, Member inv.toJson k x ↔ o.map Json.str = some x := by
    intro x
    constructor
    · intro hx
      cases o with
      | none =>
        rw [member_toJson] at hx
        have := Dict.get?_of_mem (inv.fields_NK) hx
        have h2 := Dict.get?_of_mem (inv.fields_NK) hf
        rw [this] at h2
        cases h2
      | some b =>
        have hb : Member inv.toJson k (.str b) := by rw [member_toJson]; exact hf
        rw [member_unique hwf hx hb]
        rfl
    · intro hx
      rw [member_toJson, ← hx]
      exact hf
  constructor
  · intro hm
    obtain ⟨x, hx, hr⟩ := member_reorder (Json.reorder_sortKeys hwf).symm hm
    have := reorder_str hr
    subst this
    rw [key] at hx
    cases o with
    | none => cases hx
    | some b => cases hx; rfl
  · rintro rfl
    have := member_sortKeys ((key (.str a)).mpr rfl)
    rwa [Json.sortKeys_str] at this

theorem Good.writtenFixity (h : Good inv alg m vs style n) {a d p : Str} (hf : FixityLists inv.toJson.sortKeys a d p) :
    ∃ fx fm, inv.fixity = some fx ∧ (a, fm) ∈ fx ∧ Lists fm d p := by
  have hwf := (Inv.writable_toJson h.keys).wf
  obtain ⟨fx, fm, h1, h2, h3⟩ := hf
  obtain ⟨fx', h4, h5⟩ := member_reorder (Json.reorder_sortKeys hwf).symm h1
  obtain ⟨fm', h6, h7⟩ := member_reorder_map h5 h2
  rw [member_toJson] at h4
  have h4 : ∃ f, inv.fixity = some f ∧ blocksJson DigestMap.toJson f = fx' := by
    simpa [Inv.fields] using h4
  obtain ⟨f, hf, rfl⟩ := h4
  obtain ⟨dd, hd, hab⟩ := h6
  unfold blocksJson at hd
  rw [Json.obj.injEq] at hd
  subst hd
  obtain ⟨⟨a', fm2⟩, he, hb⟩ := List.mem_map.mp hab
  simp only [Prod.mk.injEq] at hb
  obtain ⟨rfl, hb⟩ := hb
  have : fm2 = fm' := ofDigestMap_inj hb
  subst this
  refine ⟨f, fm2, hf, he, ?_⟩
  obtain ⟨ps, k1, k2⟩ := h3
  exact ⟨ps, h7.mem_iff.mp k1, k2⟩

theorem Good.writtenContentDirectory (h : Good inv alg m vs style n) (hx : ∃ x, Member inv.toJson.sortKeys c!"contentDirectory" x) :
    ∃ a, inv.contentDirectory = some a := by
  have hwf := (Inv.writable_toJson h.keys).wf
  obtain ⟨x, hx⟩ := hx
  obtain ⟨y, hy, _⟩ := member_reorder (Json.reorder_sortKeys hwf).symm hx
  rw [member_toJson] at hy
  have hy : ∃ f, inv.contentDirectory = some f ∧ Json.str f = y := by
    simpa [Inv.fields] using hy
  exact ⟨_, hy.choose_spec.1⟩

theorem Good.writtenSpec (h : Good inv alg m vs style n) {sv v : Str} (ht : inv.type = some (typeUri sv)) (hs : sv ∈ supported) :
    InventorySpec inv.toJson.sortKeys v ↔ v = sv := by
  have hsv : InventorySpec inv.toJson.sortKeys sv := by
    refine ⟨hs, '.', [], by decide, ?_⟩
    rw [h.written_str (o := inv.type) (by simp [Inv.fields])]
    rw [ht]
    unfold typeUri
    simp
  exact ⟨fun hv => Validator.inventorySpec_unique h.writtenWF hv hsv, fun he => he ▸ hsv⟩

end Written

/-! ## The versions -/

section Versions

variable {E : Env} {s : FS} {base : Path} {dv : Str} {trees : List Tree} {recs : List Rec}

theorem Sound.at (h : Sound E s base dv trees recs) {i : Nat} (h1 : 1 ≤ i) (h2 : i ≤ trees.length) :
    ∃ r, recs[i - 1]? = some r ∧ r ∈ recs ∧ VersionSound E s base dv (trees.take i) (styleName none i) r := by
  obtain ⟨r, hr⟩ : ∃ r, recs[i - 1]? = some r := ⟨_, List.getElem?_eq_getElem (by rw [h.length]; omega)⟩
  have := h.versions _ _ hr
  rw [Nat.sub_add_cancel h1] at this
  exact ⟨r, hr, List.mem_of_getElem? hr, this⟩

theorem VersionSound.json {v : Str} {r : Rec} (hlib : E.lib.Lawful) (h : VersionSound E s base dv trees v r) :
    StoredJson E.lib s (base ++ [v, c!"inventory.json"]) r.inv.toJson.sortKeys := by
  have := stored_written hlib h.describes.parsed.good h.stored.1
  rwa [List.append_assoc] at this

/-- What lies in the directory of a version. -/
theorem VersionSound.inside {v : Str} {r : Rec} (hw : s.WF) (h : VersionSound E s base dv trees v r) {q : Path} (hq : q ≠ [])
    (hl : look s (base ++ v :: q) ≠ none) : q = [inventoryFilename] ∨ q = [sidecarName r.alg] ∨
      ∃ ws b, q <+: r.inv.contentDirectoryToUse :: ws ∧ ws ≠ [] ∧ look s (base ++ v :: r.inv.contentDirectoryToUse :: ws) = some (.file b) ∧
        pathOf (v :: r.inv.contentDirectoryToUse :: ws) ∈ listed r.m := by
  rcases h.only q hq hl with h1 | h1 | ⟨ws, h1, h2, h3, h4⟩
  · exact Or.inl h1
  · exact Or.inr (Or.inl h1)
  · right; right
    obtain ⟨d, hd⟩ := mem_listed.mp h4
    obtain ⟨v', ws', b, k1, k2, k3, k4, k5, k6, _⟩ := h.describes.segs hd
    have he := pathOf_inj' ⟨by simp, h3⟩ ⟨by simp, k3⟩ k4
    obtain ⟨rfl, rfl⟩ := List.cons.inj he
    rw [k5] at k6
    exact ⟨ws', b, h1, k2, k6, h4⟩

theorem digestIs_of {p : Path} {alg d : Str} {b : Bytes} (hl : look s p = some (.file b)) (hd : fileDigest E.raw alg b = some d) :
    DigestIs E s p alg d := ⟨b, d, hl, hd, sameDigest_iff.mpr rfl⟩

theorem Describes.digestIs {inv : Inv} {alg : Str} {m : DigestMap} {vs : Dict Str VBlock} (h : Describes E s base trees inv alg m vs)
    {d : Str} {ws : List Str} (hl : Lists m d (pathOf ws)) (hs : ∀ w ∈ ws, Safe w) : DigestIs E s (base ++ ws) alg d := by
  obtain ⟨_, _, b, _, _, _, _, _, k6, k7, _⟩ := h.segs hl
  rw [resolve_pathOf base hs] at k6
  exact digestIs_of k6 k7

theorem Describes.fixityIs {inv : Inv} {alg : Str} {m : DigestMap} {vs : Dict Str VBlock} (h : Describes E s base trees inv alg m vs)
    {a d : Str} {ws : List Str} (hl : FixityLists inv.toJson.sortKeys a d (pathOf ws)) (hs : ∀ w ∈ ws, Safe w) :
    DigestIs E s (base ++ ws) a d := by
  obtain ⟨fx, fm, h1, h2, h3⟩ := h.parsed.good.writtenFixity hl
  obtain ⟨segs, b, k1, k2, k3, k4, k5⟩ := h.fixity fx a fm h1 h2 d _ h3
  have := congrArg (FS.resolve base) k3
  rw [resolve_pathOf base hs, resolve_pathOf base k2] at this
  rw [this]
  exact digestIs_of k4 k5

theorem Sound.mono_le (h : Sound E s base dv trees recs) {i k : Nat} {a b : Rec} (hik : i ≤ k) (ha : recs[i]? = some a)
    (hb : recs[k]? = some b) : ∀ c ∈ listed a.m, c ∈ listed b.m := by
  rcases Nat.lt_or_eq_of_le hik with hlt | rfl
  · obtain ⟨h1, e1⟩ := List.getElem?_eq_some_iff.mp ha
    obtain ⟨h2, e2⟩ := List.getElem?_eq_some_iff.mp hb
    have := List.pairwise_iff_getElem.mp h.mono i k h1 h2 hlt
    rwa [e1, e2] at this
  · rw [ha] at hb
    cases hb
    exact fun c hc => hc

theorem Sound.version_type (h : Sound E s base dv trees recs) {i : Nat} {r : Rec} (h1 : 1 ≤ i) (h2 : i ≤ trees.length)
    (hr : VersionSound E s base dv (trees.take i) (styleName none i) r) {v : Str} :
    InventorySpec r.inv.toJson.sortKeys v ↔ v = if i = 1 then dv else c!"1.1" := by
  have ht := hr.type
  rw [List.length_take, Nat.min_eq_left h2] at ht
  refine hr.describes.parsed.good.writtenSpec ht ?_
  split
  · exact h.spec
  · decide

/-- The object is valid, if the declaration is for the version that updates use, or there was at most
one update. -/
theorem Sound.valid (hE : Libraries E) (h : Sound E s base dv trees recs) (hno : NoCollision E.raw (InTrees trees))
    (hspec : dv = c!"1.1" ∨ trees.length ≤ 2) (check : Bool) : ValidObject E check s base := by
  have hlib := hE.json
  have hw := h.wf
  obtain ⟨rl, hlast, hd, hst, hvl, hpos⟩ := h.last
  have hidx : recs[trees.length - 1]? = some rl := by
    rw [← h.length, ← List.getLast?_eq_getElem?]; exact hlast
  have hg := hd.parsed.good
  obtain ⟨m', vs', states, hperm, hkeys, hrules⟩ := hg.writtenRules
  have hmem : rl ∈ recs := List.mem_of_getElem? hidx
  have hcd : ∀ r ∈ recs, r.inv.contentDirectoryToUse = rl.inv.contentDirectoryToUse := by
    intro r hr
    unfold Inv.contentDirectoryToUse
    rw [(h.same r hr rl hmem).2]
  have hlisted : ∀ c, c ∈ listed m' ↔ c ∈ listed rl.m := fun c => (listed_perm hperm).mem_iff.symm
  have hlists : ∀ d c, Lists m' d c → Lists rl.m d c := by
    rintro d c ⟨ps, h1, h2⟩
    exact ⟨ps, hperm.mem_iff.mpr h1, h2⟩
  have hname : ∀ v, v ∈ vs'.map Prod.fst ↔ ∃ i, 1 ≤ i ∧ i ≤ trees.length ∧ v = styleName none i := by
    intro v
    rw [hkeys]
    exact hg.names.2.2.2 v
  have hstored : ∀ i, 1 ≤ i → i ≤ trees.length → ∀ j', StoredJson E.lib s (base ++ [styleName none i, c!"inventory.json"]) j' →
      ∃ r, recs[i - 1]? = some r ∧ r ∈ recs ∧ VersionSound E s base dv (trees.take i) (styleName none i) r ∧ j' = r.inv.toJson.sortKeys := by
    intro i h1 h2 j' hj
    obtain ⟨r, hr, hrm, hv⟩ := h.at h1 h2
    exact ⟨r, hr, hrm, hv, storedJson_unique hj (hv.json hlib)⟩
  -- the content directory is not the sidecar
  have hnot : ∀ i, 1 ≤ i → i ≤ trees.length → ∀ ws b, ws ≠ [] →
      look s (base ++ styleName none i :: rl.inv.contentDirectoryToUse :: ws) = some b →
      ∀ j' a, StoredJson E.lib s (base ++ [styleName none i, c!"inventory.json"]) j' → InventoryAlg j' a →
        rl.inv.contentDirectoryToUse ≠ c!"inventory.json." ++ a := by
    intro i h1 h2 ws b hne hl j' a hj ha he
    obtain ⟨r, _, _, hv, rfl⟩ := hstored i h1 h2 j' hj
    have hra : a = r.alg := member_str_unique hv.describes.parsed.good.writtenWF ha hv.describes.parsed.good.writtenAlg
    subst hra
    obtain ⟨_, d, _, hs⟩ := hv.stored
    have hdir : look s (base ++ [styleName none i, rl.inv.contentDirectoryToUse]) = some .dir := by
      refine look_prefix hw (q := base ++ styleName none i :: rl.inv.contentDirectoryToUse :: ws) (n := b) ?_ ?_ hl
      · exact (List.prefix_append_right_inj _).mpr ⟨ws, by simp⟩
      · intro he
        rw [List.append_cancel_left_eq] at he
        simp at he
        exact hne he
    rw [he] at hdir
    rw [List.append_assoc] at hs
    rw [show base ++ ([styleName none i] ++ [sidecarName r.alg]) = base ++ [styleName none i, c!"inventory.json." ++ r.alg] from rfl, hdir] at hs
    cases hs
  refine ⟨dv, rl.inv.toJson.sortKeys, rl.alg, rl.inv.contentDirectoryToUse, m', vs', states, none, trees.length,
    ⟨h.spec, ⟨_, _, h.declaration, utf8Decode_utf8 _, declaration_text hE.word h.spec⟩, ?_, stored_written hlib hg hst.1,
    hrules, stored_sidecar hE hst hg.algName check, ?_, ?_, ?_, ?_, ?_, ?_, ?_, ?_, ?_, ?_, ?_, ?_, ?_, ?_, ?_, ?_⟩⟩
  · -- one declaration
    intro t ht
    rcases h.only _ _ ht with ⟨k, _, he⟩ | ⟨_, he | he | ⟨r, _, he⟩⟩
    · have := congrArg List.head? he
      rw [styleName_head] at this
      cases this
    · have := congrArg List.head? he
      cases this
    · unfold declarationName at he
      have : c!"0=" ++ t = c!"0=" ++ (c!"ocfl_object_" ++ dv) := he
      exact List.append_cancel_left this
    · have := congrArg List.head? he
      cases this
  · -- files
    intro w b hl
    rcases h.only w [] (by rw [hl]; simp) with ⟨k, hk, rfl⟩ | ⟨_, he | he | ⟨r, hr, he⟩⟩
    · obtain ⟨r, _, _, hv⟩ := h.at (i := k + 1) (by omega) (by omega)
      rw [hv.isDir] at hl
      cases hl
    · exact Or.inr (Or.inl he)
    · exact Or.inl he
    · rw [hlast] at hr
      cases hr
      exact Or.inr (Or.inr he)
  · -- directories
    intro w hl
    rcases h.only w [] (by rw [hl]; simp) with ⟨k, hk, rfl⟩ | ⟨_, he | he | ⟨r, hr, he⟩⟩
    · exact Or.inl ((hname _).mpr ⟨k + 1, by omega, by omega, rfl⟩)
    · rw [he, hst.1] at hl
      cases hl
    · rw [he, h.declaration] at hl
      cases hl
    · rw [hlast] at hr
      cases hr
      obtain ⟨_, d, _, hs⟩ := hst
      rw [he, hs] at hl
      cases hl
  · -- extensions
    intro w b hl
    rcases h.only c!"extensions" [w] (by rw [hl]; simp) with ⟨k, hk, he⟩ | ⟨he, _⟩
    · have := congrArg List.head? he
      rw [styleName_head] at this
      cases this
    · cases he
  · -- version directories
    intro v hv
    obtain ⟨i, h1, h2, rfl⟩ := (hname v).mp hv
    obtain ⟨r, _, _, hv⟩ := h.at h1 h2
    exact hv.isDir
  · -- the inventory of the last version
    intro _
    refine ⟨?_, stored_sidecar hE hvl.stored hg.algName check⟩
    have h1 := hvl.stored.1
    rw [List.append_assoc] at h1
    exact h1.trans hst.1.symm
  · -- earlier inventories
    intro i h1 h2 _
    obtain ⟨r, hr, hrm, hv⟩ := h.at h1 (by omega)
    have hgr := hv.describes.parsed.good
    refine ⟨_, hv.json hlib, ?_, ?_, ?_, ?_⟩
    · obtain ⟨m2, vs2, st2, _, _, hr2⟩ := hgr.writtenRules
      rw [hcd r hrm] at hr2
      exact ⟨_, _, _, _, _, _, hr2, stored_sidecar hE hv.stored hgr.algName check⟩
    · intro x hx
      rw [hg.written_str (o := rl.inv.id) (by simp [Inv.fields])] at hx
      rw [hgr.written_str (o := r.inv.id) (by simp [Inv.fields]), (h.same r hrm rl hmem).1]
      exact hx
    · intro hx
      obtain ⟨a, ha⟩ := hg.writtenContentDirectory hx
      refine ⟨.str a, ?_⟩
      rw [hgr.written_str (o := r.inv.contentDirectory) (by simp [Inv.fields]), (h.same r hrm rl hmem).2]
      exact ha
    · exact h.continues hno (by omega) hr hidx
  · -- their manifests
    intro i k h1 h2 h3 j1 j2 m1 m2 hj1 hj2 hm1 hm2 p hp
    obtain ⟨r1, hr1, _, hv1, rfl⟩ := hstored i h1 (by omega) j1 hj1
    obtain ⟨r2, hr2, _, hv2, rfl⟩ := hstored k (by omega) (by omega) j2 hj2
    rw [hv1.describes.parsed.good.writtenManifest hm1] at hp
    rw [hv2.describes.parsed.good.writtenManifest hm2]
    rw [(listed_perm (Dict.sorted_perm _)).mem_iff] at hp ⊢
    exact h.mono_le (by omega) hr1 hr2 p hp
  · -- their versions of the specification
    intro i k h1 h2 h3 j1 j2 v1 v2 hj1 hj2 hv1 hv2
    obtain ⟨r2, hr2, _, hr2v, rfl⟩ := hstored k (by omega) (by omega) j2 hj2
    rw [h.version_type (by omega) (by omega) hr2v, if_neg (by omega)] at hv2
    exact Or.inr hv2
  · intro _ i h1 h2 j1 v1 hj1 hv1
    obtain ⟨r1, hr1, _, hr1v, rfl⟩ := hstored i h1 (by omega) j1 hj1
    rw [h.version_type (by omega) (by omega) hr1v] at hv1
    have hdv : dv = c!"1.0" ∨ dv = c!"1.1" := by simpa [supported] using h.spec
    rcases hdv with hdv | hdv
    · left
      rw [hv1, if_pos, hdv]
      rcases hspec with h | h
      · rw [hdv] at h
        exact absurd h (by decide)
      · omega
    · exact Or.inr hdv
  · -- files in the version directories
    intro v hv w b hl
    obtain ⟨i, h1, h2, rfl⟩ := (hname v).mp hv
    obtain ⟨r, hr, hrm, hrv⟩ := h.at h1 h2
    rcases hrv.inside hw (q := [w]) (by simp) (by rw [hl]; simp) with he | he | ⟨ws, b', k1, k2, k3, k4⟩
    · exact Or.inl (List.cons.inj he).1
    · exact Or.inr (Or.inr ⟨_, r.alg, hrv.json hlib, hrv.describes.parsed.good.writtenAlg, (List.cons.inj he).1⟩)
    · rw [hcd r hrm] at k1
      exact Or.inr (Or.inl (List.cons_prefix_cons.mp k1).1)
  · -- content
    intro p
    rw [hlisted]
    constructor
    · intro hp
      obtain ⟨d, hdp⟩ := mem_listed.mp hp
      obtain ⟨v, ws, b, k1, k2, k3, k4, k5, k6, _⟩ := hd.segs hdp
      obtain ⟨i, h1, h2, rfl⟩ := (hg.names.2.2.2 v).mp k1
      rw [k5] at k6
      exact ⟨_, ws, b, (hname _).mpr ⟨i, h1, h2, rfl⟩, k2, k4, k6, hnot i h1 h2 ws _ k2 k6⟩
    · rintro ⟨v, ws, b, hv, hne, rfl, hl, _⟩
      obtain ⟨i, h1, h2, rfl⟩ := (hname v).mp hv
      obtain ⟨r, hr, hrm, hrv⟩ := h.at h1 h2
      rcases hrv.inside hw (q := rl.inv.contentDirectoryToUse :: ws) (by simp) (by rw [hl]; simp) with he | he | ⟨ws', b', k1, k2, k3, k4⟩
      · exact absurd (List.cons.inj he).2 hne
      · exact absurd (List.cons.inj he).2 hne
      · rw [hcd r hrm] at k1 k3 k4
        have : ws = ws' := by
          by_contra hc
          have := look_prefix hw (p := base ++ styleName none i :: rl.inv.contentDirectoryToUse :: ws)
            ((List.prefix_append_right_inj _).mpr (List.cons_prefix_cons.mpr ⟨rfl, k1⟩)) (by
              intro he
              rw [List.append_cancel_left_eq] at he
              exact hc (List.cons.inj (List.cons.inj he).2).2) k3
          rw [hl] at this
          cases this
        subst this
        exact h.mono_le (by omega) hr hidx _ k4
  · -- no empty directory
    intro v hv ws hne hl _
    obtain ⟨i, h1, h2, rfl⟩ := (hname v).mp hv
    obtain ⟨r, hr, hrm, hrv⟩ := h.at h1 h2
    rcases hrv.inside hw (q := rl.inv.contentDirectoryToUse :: ws) (by simp) (by rw [hl]; simp) with he | he | ⟨ws', b', k1, k2, k3, k4⟩
    · exact absurd (List.cons.inj he).2 hne
    · exact absurd (List.cons.inj he).2 hne
    · rw [hcd r hrm] at k1 k3
      obtain ⟨t, ht⟩ := (List.cons_prefix_cons.mp k1).2
      cases t with
      | nil =>
        rw [List.append_nil] at ht
        subst ht
        rw [hl] at k3
        cases k3
      | cons w t =>
        refine ⟨w, ?_⟩
        subst ht
        by_cases ht : t = []
        · subst ht
          have e : base ++ styleName none i :: rl.inv.contentDirectoryToUse :: ws ++ [w] =
            base ++ styleName none i :: rl.inv.contentDirectoryToUse :: (ws ++ [w]) := by simp
          rw [e, k3]
          simp
        · rw [look_prefix hw (p := base ++ styleName none i :: rl.inv.contentDirectoryToUse :: ws ++ [w]) ?_ ?_ k3]
          · simp
          · exact ⟨t, by simp⟩
          · simp [ht]
  · -- digests
    intro _ d ws hl hs
    exact hd.digestIs (hlists _ _ hl) hs
  · intro _ a d ws hl hs
    exact hd.fixityIs hl hs
  · intro _ i h1 h2 j' a m2 d ws hj ha hm hl hs _
    obtain ⟨r, _, _, hv, rfl⟩ := hstored i h1 (by omega) j' hj
    have hra : a = r.alg := member_str_unique hv.describes.parsed.good.writtenWF ha hv.describes.parsed.good.writtenAlg
    subst hra
    rw [hv.describes.parsed.good.writtenManifest hm] at hl
    exact hv.describes.digestIs (lists_sorted.mp hl) hs
  · intro _ i h1 h2 j' a d ws hj hl hs _
    obtain ⟨r, _, _, hv, rfl⟩ := hstored i h1 (by omega) j' hj
    exact hv.describes.fixityIs hl hs

/-- The unpadded style is the only one for names with `v1`. -/
theorem style_none {names : List Str} {style : Option Nat} {n : Nat} (h : VersionNames names style n) (h1 : c!"v1" ∈ names) : style = none := by
  obtain ⟨k1, k2, k3, k4⟩ := h
  obtain ⟨i, i1, i2, he⟩ := (k4 _).mp h1
  cases style with
  | none => rfl
  | some w =>
    have hw := k1 w rfl
    have hi : i < 10 ^ w := by
      have h1 : i ≤ 10 ^ (w - 1) - 1 := Nat.le_trans i2 k3
      have h2 : 10 ^ (w - 1) ≤ 10 ^ w := Nat.pow_le_pow_right (by decide) (by omega)
      have h3 : 0 < 10 ^ (w - 1) := Nat.pow_pos (by decide)
      omega
    have := congrArg List.length he
    rw [styleName_length (by omega) hi] at this
    simp at this
    omega

/-- After two updates, an object with a declaration of version 1.0 is not valid. -/
theorem Sound.invalid (hE : Libraries E) (h : Sound E s base dv trees recs) (hdv : dv ≠ c!"1.1") (hlen : 3 ≤ trees.length)
    (check : Bool) : ¬ ValidObject E check s base := by
  have hlib := hE.json
  rintro ⟨spec, j, alg, cd, m, vs, states, style, n, hr⟩
  obtain ⟨rl, hlast, hd, hst, hvl, hpos⟩ := h.last
  have hg := hd.parsed.good
  have hj := storedJson_unique hr.inventory (stored_written hlib hg hst.1)
  subst hj
  have hspec : spec = dv := by
    have hne : look s (base ++ [c!"0=" ++ (c!"ocfl_object_" ++ dv)]) ≠ none := by
      have := h.declaration
      unfold declarationName at this
      rw [show c!"0=" ++ (c!"ocfl_object_" ++ dv) = c!"0=ocfl_object_" ++ dv from rfl, this]
      simp
    exact (List.append_cancel_left (hr.oneDeclaration _ hne)).symm
  subst hspec
  obtain ⟨m', vs', states', hperm, hkeys, hrules⟩ := hg.writtenRules
  have hvs : vs = vs' := by
    have := member_unique hg.writtenWF hr.rules.versions hrules.versions
    exact Json.obj.inj this
  subst hvs
  have hstyle : style = none := by
    refine style_none hr.rules.names ?_
    rw [hkeys]
    exact (hg.names.2.2.2 _).mpr ⟨1, by omega, by omega, by decide⟩
  subst hstyle
  have hn : n = trees.length := by
    have := member_str_unique hg.writtenWF hr.rules.head hrules.head
    exact styleName_inj this
  subst hn
  obtain ⟨r, _, _, hv⟩ := h.at (i := 2) (by omega) (by omega)
  have hsp := (h.version_type (by omega) (by omega) hv (v := c!"1.1")).mpr (by rw [if_neg (by decide)])
  have hhead : look s (base ++ [styleName none trees.length, c!"inventory.json"]) ≠ none := by
    obtain ⟨b, _, h1, _⟩ := hvl.json hlib
    rw [h1]
    simp
  rcases hr.headSpec hhead 2 (by omega) (by omega) _ _ (hv.json hlib) hsp with h1 | h1
  · exact absurd h1 (by decide)
  · exact hdv h1

end Versions

end Ocfl
