import Verif.Spec.Sharing
import Verif.Props.Setters

/-!
# C104: inventories do not share data
-/

namespace Ocfl
open Spec Ocfl.Inv Sharing

section
variable {w : World} {a : Nat}

theorem block_set {k j : Nat} (hk : k < w.blocks.length) (b : VBlock) :
    ({ w with blocks := w.blocks.set k b } : World).block j = if j = k then b else w.block j := by
  unfold World.block
  by_cases e : j = k
  · subst e
    simp [List.getD, hk]
  · simp [List.getD, List.getElem?_set_ne (Ne.symm e), e]

theorem block_append (w : World) (bs : List VBlock) {j : Nat} (hj : j < w.blocks.length) :
    ({ w with blocks := w.blocks ++ bs } : World).block j = w.block j := by
  unfold World.block
  simp [List.getD, List.getElem?_append_left hj]

theorem used_of_data {k : Nat} (h : k ∈ ((w.data a).versions.getD []).map Prod.snd) : k ∈ World.used w := by
  unfold World.data at h
  unfold World.used
  rw [List.mem_flatMap]
  by_cases ha : a < w.datas.length
  · refine ⟨w.datas[a], List.getElem_mem ha, ?_⟩
    simpa [List.getD, ha] using h
  · simp [List.getD, ha] at h

theorem data_nodup (hs : World.Separate w) (a : Nat) : (((w.data a).versions.getD []).map Prod.snd).Nodup := by
  unfold World.data
  by_cases ha : a < w.datas.length
  · have := hs.once
    unfold World.used at this
    have := (List.nodup_flatMap.mp this).1 w.datas[a] (List.getElem_mem ha)
    simpa [List.getD, ha] using this
  · simp [List.getD, ha]

theorem data_disjoint (hs : World.Separate w) {a' : Nat} (hne : a' ≠ a) {k : Nat}
    (h : k ∈ ((w.data a).versions.getD []).map Prod.snd) : k ∉ ((w.data a').versions.getD []).map Prod.snd := by
  intro h'
  unfold World.data at h h'
  by_cases ha : a < w.datas.length
  · by_cases ha' : a' < w.datas.length
    · have hp := (List.nodup_flatMap.mp hs.once).2
      rw [List.pairwise_iff_getElem] at hp
      simp only [List.getD, ha, ha', List.getElem?_eq_getElem, Option.getD_some] at h h'
      rcases Nat.lt_or_gt_of_ne hne with hlt | hlt
      · exact hp a' a ha' ha hlt h' h
      · exact hp a a' ha ha' hlt h h'
    · simp [List.getD, ha'] at h'
  · simp [List.getD, ha] at h

/-- Reading the blocks of versions. -/
def readBlocks (f : Nat → VBlock) (d : Dict Str Nat) : Dict Str VBlock := d.map (fun p => (p.1, f p.2))

theorem read_same {f g : Nat → VBlock} {d : Dict Str Nat} (h : ∀ k ∈ d.map Prod.snd, f k = g k) : readBlocks f d = readBlocks g d := by
  unfold readBlocks
  apply List.map_congr_left
  intro p hp
  rw [h p.2 (List.mem_map.mpr ⟨p, hp, rfl⟩)]

theorem read_get (f : Nat → VBlock) (d : Dict Str Nat) (v : Str) : Dict.get? (readBlocks f d) v = (Dict.get? d v).map f := by
  induction d with
  | nil => rfl
  | cons p d ih =>
    obtain ⟨x, k⟩ := p
    show Dict.get? ((x, f k) :: readBlocks f d) v = _
    rw [Dict.get?_cons, Dict.get?_cons, ih]
    split <;> rfl

theorem read_set (f : Nat → VBlock) (d : Dict Str Nat) (v : Str) (k : Nat) : readBlocks f (Dict.set d v k) = Dict.set (readBlocks f d) v (f k) := by
  induction d with
  | nil => rfl
  | cons p d ih =>
    obtain ⟨x, j⟩ := p
    show readBlocks f (Dict.set ((x, j) :: d) v k) = Dict.set ((x, f j) :: readBlocks f d) v (f k)
    simp only [Dict.set]
    split
    · rfl
    · rw [← ih]; rfl

/-- One block changes: so does one version. -/
theorem read_change {f g : Nat → VBlock} {d : Dict Str Nat} (hd : (d.map Prod.snd).Nodup) {v : Str} {k : Nat} (hk : Dict.get? d v = some k)
    (h : ∀ j, j ≠ k → g j = f j) : readBlocks g d = Dict.set (readBlocks f d) v (g k) := by
  induction d with
  | nil => cases hk
  | cons p d ih =>
    obtain ⟨x, j⟩ := p
    rw [List.map_cons, List.nodup_cons] at hd
    rw [Dict.get?_cons] at hk
    show (x, g j) :: readBlocks g d = Dict.set ((x, f j) :: readBlocks f d) v (g k)
    simp only [Dict.set]
    by_cases e : x = v
    · rw [if_pos e] at hk ⊢
      cases hk
      rw [read_same (f := g) (g := f) (fun i hi => h i (fun e => hd.1 (e ▸ hi)))]
    · rw [if_neg e] at hk ⊢
      rw [ih hd.2 hk, h j]
      rintro rfl
      exact hd.1 (List.mem_map.mpr ⟨(v, j), Dict.mem_of_get? hk, rfl⟩)

theorem view_eq (w : World) (a : Nat) : w.view a = { (w.data a).rest with versions := (w.data a).versions.map (readBlocks w.block) } := rfl

theorem view_data (w : World) (a : Nat) (v : Str) : (w.view a).versionData v = (Dict.get? ((w.data a).versions.getD []) v).map w.block := by
  rw [view_eq]
  unfold versionData versionsD
  cases (w.data a).versions with
  | none => rfl
  | some vs => exact read_get _ _ _

/-- The addresses of the versions of one inventory. -/
def addresses (w : World) (a : Nat) : List Nat := ((w.data a).versions.getD []).map Prod.snd

theorem mem_used {k : Nat} : k ∈ World.used w ↔ ∃ a, k ∈ addresses w a := by
  constructor
  · intro h
    obtain ⟨d, hd, hk⟩ := List.mem_flatMap.mp h
    obtain ⟨a, ha, rfl⟩ := List.getElem_of_mem hd
    refine ⟨a, ?_⟩
    unfold addresses World.data
    simpa [List.getD, ha] using hk
  · rintro ⟨a, h⟩
    exact used_of_data h

/-- Separation, one inventory at a time. -/
theorem separate_iff : World.Separate w ↔ (∀ a, (addresses w a).Nodup) ∧ (∀ a a', a' ≠ a → ∀ k ∈ addresses w a, k ∉ addresses w a') ∧
    ∀ a, ∀ k ∈ addresses w a, k < w.blocks.length := by
  constructor
  · intro hs
    exact ⟨fun a => data_nodup hs a, fun a a' hne k hk => data_disjoint hs hne hk, fun a k hk => hs.there k (used_of_data hk)⟩
  · rintro ⟨h1, h2, h3⟩
    have e : ∀ i (hi : i < w.datas.length), addresses w i = ((w.datas[i]).versions.getD []).map Prod.snd := by
      intro i hi
      unfold addresses World.data
      simp [List.getD, hi]
    refine ⟨?_, ?_⟩
    · unfold World.used
      rw [List.nodup_flatMap]
      refine ⟨?_, ?_⟩
      · intro d hd
        obtain ⟨i, hi, rfl⟩ := List.getElem_of_mem hd
        rw [← e i hi]; exact h1 i
      · rw [List.pairwise_iff_getElem]
        intro i j hi hj hlt k hk hk'
        dsimp only at hk hk'
        rw [← e i hi] at hk
        rw [← e j hj] at hk'
        exact h2 i j (by omega) k hk hk'
    · intro k hk
      obtain ⟨a, hk⟩ := mem_used.mp hk
      exact h3 a k hk

/-- A block changes in place. -/
theorem changeBlock_step (hs : World.Separate w) (v : Str) (f : VBlock → VBlock) :
    (changeBlock a v f w).view a = (w.view a).setBlock v f ∧ (∀ a', a' ≠ a → (changeBlock a v f w).view a' = w.view a') ∧
      World.Separate (changeBlock a v f w) ∧ (changeBlock a v f w).datas = w.datas := by
  unfold changeBlock
  cases hk : Dict.get? ((w.data a).versions.getD []) v with
  | none =>
    refine ⟨?_, fun _ _ => rfl, hs, rfl⟩
    dsimp only
    unfold setBlock
    rw [view_data, hk]
    rfl
  | some k =>
    have hmem : k ∈ addresses w a := List.mem_map.mpr ⟨(v, k), Dict.mem_of_get? hk, rfl⟩
    have hlen := (separate_iff.mp hs).2.2 a k hmem
    have hblk : ∀ j, j ≠ k → World.block { w with blocks := w.blocks.set k (f (w.block k)) } j = w.block j := fun j hj => by
      rw [block_set hlen, if_neg hj]
    have hself : World.block { w with blocks := w.blocks.set k (f (w.block k)) } k = f (w.block k) := by
      rw [block_set hlen, if_pos rfl]
    refine ⟨?_, ?_, ?_, rfl⟩
    · rw [setBlock_some (b := w.block k) (by rw [view_data, hk]; rfl), view_eq, view_eq]
      have hd : World.data { w with blocks := w.blocks.set k (f (w.block k)) } a = w.data a := rfl
      dsimp only
      rw [hd]
      cases hv : (w.data a).versions with
      | none => rw [hv] at hk; cases hk
      | some vs =>
        rw [hv] at hk
        have hnd : (vs.map Prod.snd).Nodup := by
          have := (separate_iff.mp hs).1 a
          unfold addresses at this
          rw [hv] at this
          exact this
        simp only [Option.map_some, versionsD, Option.getD_some] at hk ⊢
        rw [read_change hnd hk hblk, hself]
    · intro a' hne
      rw [view_eq, view_eq]
      have hd : World.data { w with blocks := w.blocks.set k (f (w.block k)) } a' = w.data a' := rfl
      dsimp only
      rw [hd]
      cases hv : (w.data a').versions with
      | none => rfl
      | some vs =>
        simp only [Option.map_some]
        rw [read_same]
        intro j hj
        apply hblk
        rintro rfl
        refine (separate_iff.mp hs).2.1 a a' hne j hmem ?_
        unfold addresses
        rw [hv]
        exact hj
    · rw [separate_iff] at hs ⊢
      refine ⟨hs.1, hs.2.1, fun a k hk => ?_⟩
      simp only [List.length_set]
      exact hs.2.2 a k hk

theorem data_set (ha : a < w.datas.length) (d : HData) (a' : Nat) :
    World.data { w with datas := w.datas.set a d } a' = if a' = a then d else w.data a' := by
  unfold World.data
  by_cases e : a' = a
  · subst e; simp [List.getD, ha]
  · simp [List.getD, List.getElem?_set_ne (Ne.symm e), e]

theorem addresses_set {d : Dict Str Nat} {v : Str} {k : Nat} (h : (d.map Prod.snd).Nodup) (hk : k ∉ d.map Prod.snd) :
    ((Dict.set d v k).map Prod.snd).Nodup ∧ ∀ j ∈ (Dict.set d v k).map Prod.snd, j = k ∨ j ∈ d.map Prod.snd := by
  induction d with
  | nil => simp [Dict.set]
  | cons p d ih =>
    obtain ⟨x, j⟩ := p
    rw [List.map_cons, List.nodup_cons] at h
    rw [List.map_cons, List.mem_cons, not_or] at hk
    obtain ⟨h1, h2⟩ := ih h.2 hk.2
    simp only [Dict.set]
    by_cases e : x = v
    · rw [if_pos e]
      refine ⟨?_, ?_⟩
      · rw [List.map_cons, List.nodup_cons]; exact ⟨hk.2, h.2⟩
      · intro i hi
        rw [List.map_cons, List.mem_cons] at hi ⊢
        exact hi.imp id .inr
    · rw [if_neg e]
      refine ⟨?_, ?_⟩
      · rw [List.map_cons, List.nodup_cons]
        refine ⟨fun hm => ?_, h1⟩
        rcases h2 _ hm with e | e
        · exact hk.1 e.symm
        · exact h.1 e
      · intro i hi
        rw [List.map_cons, List.mem_cons] at hi ⊢
        rcases hi with rfl | hi
        · exact .inr (.inl rfl)
        · exact (h2 _ hi).imp id .inr

/-- A block that belongs to no version is made the block of a version. -/
theorem store_step (hs : World.Separate w) (ha : a < w.datas.length) {w' : World} {k : Nat} {B : VBlock} (hk : k ∉ World.used w)
    (hk' : k < w'.blocks.length) (hl : w.blocks.length ≤ w'.blocks.length) (hd : w'.datas = w.datas) (hB : w'.block k = B)
    (hsame : ∀ j < w.blocks.length, j ≠ k → w'.block j = w.block j) (v : Str) :
    let r : World := { w' with datas := w'.datas.set a { rest := { (w'.data a).rest with head := some v },
                                                         versions := some (Dict.set ((w'.data a).versions.getD []) v k) } }
    r.view a = { w.view a with versions := some (Dict.set (w.view a).versionsD v B), head := some v } ∧
      (∀ a', a' ≠ a → r.view a' = w.view a') ∧ World.Separate r ∧ r.datas.length = w.datas.length := by
  intro r
  have hdat : ∀ a, w'.data a = w.data a := fun a => by unfold World.data; rw [hd]
  have hrd : ∀ a', r.data a' = if a' = a then
      (⟨{ (w.data a).rest with head := some v }, some (Dict.set ((w.data a).versions.getD []) v k)⟩ : HData) else w.data a' := by
    intro a'
    have := data_set (w := w') (a := a) (by rw [hd]; exact ha) ⟨{ (w'.data a).rest with head := some v },
      some (Dict.set ((w'.data a).versions.getD []) v k)⟩ a'
    rw [hdat, hdat] at this
    rw [← this]
    simp only [r, hdat]
  have hrb : ∀ j, r.block j = w'.block j := fun _ => rfl
  have hold : ∀ a, ∀ j ∈ addresses w a, r.block j = w.block j := by
    intro a j hj
    rw [hrb]
    exact hsame j ((separate_iff.mp hs).2.2 a j hj) (fun e => hk (e ▸ mem_used.mpr ⟨a, hj⟩))
  have hkn : ∀ a, k ∉ addresses w a := fun a h => hk (mem_used.mpr ⟨a, h⟩)
  have hset := addresses_set (v := v) ((separate_iff.mp hs).1 a) (hkn a)
  have hadr : ∀ a', addresses r a' = if a' = a then (Dict.set ((w.data a).versions.getD []) v k).map Prod.snd else addresses w a' := by
    intro a'
    unfold addresses
    rw [hrd]
    by_cases e : a' = a
    · rw [if_pos e, if_pos e]; rfl
    · rw [if_neg e, if_neg e]
  refine ⟨?_, ?_, ?_, ?_⟩
  · rw [view_eq, hrd, if_pos rfl, view_eq]
    simp only [Option.map_some, versionsD]
    rw [read_set, hrb, hB]
    have hread : readBlocks r.block ((w.data a).versions.getD []) = ((w.data a).versions.map (readBlocks w.block)).getD [] := by
      rw [read_same (hold a)]
      cases (w.data a).versions <;> rfl
    rw [hread]
  · intro a' hne
    rw [view_eq, hrd, if_neg hne, view_eq]
    cases hv : (w.data a').versions with
    | none => rfl
    | some vs =>
      simp only [Option.map_some]
      rw [read_same]
      intro j hj
      apply hold a'
      unfold addresses
      rw [hv]
      exact hj
  · rw [separate_iff]
    refine ⟨fun a' => ?_, fun a1 a2 hne j h1 h2 => ?_, fun a' j hj => ?_⟩
    · rw [hadr]
      split
      · exact hset.1
      · exact (separate_iff.mp hs).1 a'
    · rw [hadr] at h1 h2
      have hsep := (separate_iff.mp hs).2.1
      split at h1
      · next e1 =>
        rw [if_neg (fun e => hne (e.trans e1.symm))] at h2
        rcases hset.2 j h1 with rfl | h1
        · exact hkn a2 h2
        · exact hsep a a2 (fun e => hne (e.trans e1.symm)) j h1 h2
      · split at h2
        · next e2 =>
          rcases hset.2 j h2 with rfl | h2
          · exact hkn a1 h1
          · exact hsep a1 a (fun e => hne (e2.trans e)) j h1 h2
        · exact hsep a1 a2 hne j h1 h2
    · rw [hadr] at hj
      show j < w'.blocks.length
      split at hj
      · rcases hset.2 j hj with rfl | hj
        · exact hk'
        · exact lt_of_lt_of_le ((separate_iff.mp hs).2.2 a j hj) hl
      · exact lt_of_lt_of_le ((separate_iff.mp hs).2.2 a' j hj) hl
  · simp [r, hd]

theorem valueCall_meta (inv : Inv) (v : Str) (m : NV.MetaOp) :
    valueCall (.setMeta v m) inv = (inv.setBlock v (metaChange m), metaOutcome (inv.versionData v).isSome m) := by
  cases hv : inv.versionData v with
  | none => cases m <;> simp [valueCall, setCreated, setMessage, setUserName, setUserAddress, setUser, setBlock, hv, metaOutcome]
  | some b => cases m <;> simp [valueCall, setCreated, setMessage, setUserName, setUserAddress, setUser, setBlock, hv, metaOutcome, metaChange]

/-- What a call does with separate inventories: to its own what it does to a value, to the others nothing. -/
structure StepOf (w r : World) (a : Nat) (c : InvCall VBlock) (out : Py Unit) : Prop where
  own : r.view a = (valueCall c (w.view a)).1
  outcome : out = (valueCall c (w.view a)).2
  others : ∀ a', a' ≠ a → r.view a' = w.view a'
  separate : World.Separate r
  number : r.datas.length = w.datas.length

theorem call_step (hs : World.Separate w) (ha : a < w.datas.length) {c : InvCall Nat} (hf : FreshMetadata w c) :
    StepOf w (Sharing.exec a c w).1 a (resolve w c) (Sharing.exec a c w).2 := by
  cases c with
  | setState v st =>
    obtain ⟨h1, h2, h3, h4⟩ := changeBlock_step (a := a) hs v (fun b => { b with state := some st })
    exact ⟨h1, rfl, h2, h3, by simp only [Sharing.exec, h4]⟩
  | setMeta v m =>
    obtain ⟨h1, h2, h3, h4⟩ := changeBlock_step (a := a) hs v (metaChange m)
    refine ⟨?_, ?_, h2, h3, by simp only [Sharing.exec, h4]⟩
    · simp only [resolve, valueCall_meta, Sharing.exec]; exact h1
    · simp only [resolve, valueCall_meta, Sharing.exec, view_data, Option.isSome_map]
  | addFileToManifest d cp =>
    have hrd := data_set (w := w) ha { (w.data a) with rest := ((w.data a).rest.addFileToManifest d cp).1 }
    have hadr : ∀ a', addresses (Sharing.exec a (.addFileToManifest d cp) w).1 a' = addresses w a' := by
      intro a'
      unfold addresses Sharing.exec
      dsimp only
      rw [hrd]
      by_cases e : a' = a
      · rw [if_pos e, e]
      · rw [if_neg e]
    have hm : ∀ i : Inv, i.manifest = (w.data a).rest.manifest →
        i.addFileToManifest d cp = ({ i with manifest := ((w.data a).rest.addFileToManifest d cp).1.manifest },
          ((w.data a).rest.addFileToManifest d cp).2) ∧
        ((w.data a).rest.addFileToManifest d cp).1 = { (w.data a).rest with manifest := ((w.data a).rest.addFileToManifest d cp).1.manifest } := by
      intro i hi
      unfold addFileToManifest contentPaths manifestD
      rw [hi]
      split
      · refine ⟨?_, rfl⟩
        rw [← hi]
      · split <;> exact ⟨rfl, rfl⟩
    have hm1 := hm (w.view a) rfl
    refine ⟨?_, ?_, ?_, ?_, ?_⟩
    · simp only [resolve, valueCall]
      rw [hm1.1, view_eq]
      unfold Sharing.exec
      dsimp only
      rw [hrd, if_pos rfl]
      dsimp only
      rw [hm1.2]
      rfl
    · simp only [resolve, valueCall]
      rw [hm1.1]
      rfl
    · intro a' hne
      rw [view_eq, view_eq]
      unfold Sharing.exec
      dsimp only
      rw [hrd, if_neg hne]
      rfl
    · rw [separate_iff] at hs ⊢
      simp only [hadr]
      exact hs
    · simp [Sharing.exec]
  | addVersion vdir metadata state width =>
    have fin : ∀ v, (storeVersion a v metadata state w).view a = { w.view a with
            versions := some (Dict.set (w.view a).versionsD v
              ⟨((metadata.map w.block).getD {}).created, ((metadata.map w.block).getD {}).message, ((metadata.map w.block).getD {}).user,
                state.or ((metadata.map w.block).getD {}).state⟩), head := some v } ∧
          (∀ a', a' ≠ a → (storeVersion a v metadata state w).view a' = w.view a') ∧ World.Separate (storeVersion a v metadata state w) ∧
          (storeVersion a v metadata state w).datas.length = w.datas.length := by
      intro v
      have hn : w.blocks.length ∉ World.used w := fun h => absurd (hs.there _ h) (by omega)
      have hb : World.block { w with blocks := w.blocks ++ [({} : VBlock)] } w.blocks.length = {} := by unfold World.block; simp [List.getD]
      have hlen : w.blocks.length < (w.blocks ++ [({} : VBlock)]).length := by simp
      cases metadata with
      | none =>
        cases state with
        | none =>
          exact store_step hs ha (w' := { w with blocks := w.blocks ++ [({} : VBlock)] }) hn hlen (by simp) rfl hb (fun j hj _ => block_append w _ hj) v
        | some st =>
          refine store_step hs ha (w' := ⟨(w.blocks ++ [({} : VBlock)]).set w.blocks.length
            { (World.block { w with blocks := w.blocks ++ [({} : VBlock)] } w.blocks.length) with state := some st }, w.datas⟩) hn (by simp) (by simp) rfl ?_ ?_ v
          · rw [block_set (w := { w with blocks := w.blocks ++ [({} : VBlock)] }) hlen, if_pos rfl, hb]; rfl
          · intro j hj hne
            rw [block_set (w := { w with blocks := w.blocks ++ [({} : VBlock)] }) hlen, if_neg hne]
            exact block_append w _ hj
      | some k =>
        cases state with
        | none => exact store_step hs ha hf.1 hf.2 le_rfl rfl rfl (fun _ _ _ => rfl) v
        | some st =>
          refine store_step hs ha (w' := { w with blocks := w.blocks.set k { (w.block k) with state := some st } }) hf.1
            (by simpa using hf.2) (by simp) rfl ?_ ?_ v
          · rw [block_set hf.2, if_pos rfl]; rfl
          · intro j hj hne
            rw [block_set hf.2, if_neg hne]
    have hval : ∀ v, (w.view a).addVersion (some v) (metadata.map w.block) state width = .ok { w.view a with
            versions := some (Dict.set (w.view a).versionsD v
              ⟨((metadata.map w.block).getD {}).created, ((metadata.map w.block).getD {}).message, ((metadata.map w.block).getD {}).user,
                state.or ((metadata.map w.block).getD {}).state⟩), head := some v } := by
      intro v
      cases state <;> rfl
    cases vdir with
    | some v =>
      have := fin v
      simp only [resolve, valueCall, Sharing.exec]
      refine ⟨?_, ?_, this.2.1, this.2.2.1, this.2.2.2⟩
      · simp only [valueCall, hval]; exact this.1
      · simp only [valueCall, hval]
    | none =>
      have hnone : (w.view a).addVersion none (metadata.map w.block) state width =
          match (w.view a).nextVersionDir width with
          | .error e => .error e
          | .ok v => (w.view a).addVersion (some v) (metadata.map w.block) state width := by
        simp only [addVersion]
        cases (w.view a).nextVersionDir width <;> rfl
      simp only [resolve, Sharing.exec]
      cases hnv : (w.view a).nextVersionDir width with
      | error e =>
        rw [hnv] at hnone
        exact ⟨by simp only [valueCall, hnone], by simp only [valueCall, hnone], fun _ _ => rfl, hs, rfl⟩
      | ok v =>
        rw [hnv] at hnone
        have := fin v
        refine ⟨?_, ?_, this.2.1, this.2.2.1, this.2.2.2⟩
        · simp only [valueCall, hnone, hval]; exact this.1
        · simp only [valueCall, hnone, hval]

theorem data_append (w : World) (d : HData) (a' : Nat) :
    World.data { w with datas := w.datas ++ [d] } a' = if a' = w.datas.length then d else w.data a' := by
  unfold World.data
  rcases Nat.lt_trichotomy a' w.datas.length with h | h | h
  · rw [if_neg (by omega)]; simp [List.getD, List.getElem?_append_left h]
  · subst h; simp [List.getD]
  · rw [if_neg (by omega)]
    simp only [List.getD]
    rw [List.getElem?_eq_none (by simp; omega), List.getElem?_eq_none (by omega)]

/-- What the other events do: inventories that are there stay as they are. -/
structure QuietOf (w r : World) : Prop where
  views : ∀ a < w.datas.length, r.view a = w.view a
  separate : World.Separate r
  number : w.datas.length ≤ r.datas.length

theorem newDict_step (hs : World.Separate w) (b : VBlock) : QuietOf w (Event.exec w (.newDict b)) := by
  refine ⟨fun a _ => ?_, ?_, le_rfl⟩
  · rw [view_eq, view_eq]
    show { (w.data a).rest with versions := (w.data a).versions.map (readBlocks (World.block { w with blocks := w.blocks ++ [b] })) } = _
    cases hv : (w.data a).versions with
    | none => rfl
    | some vs =>
      simp only [Option.map_some]
      rw [read_same]
      intro j hj
      apply block_append
      apply (separate_iff.mp hs).2.2 a
      unfold addresses
      rw [hv]
      exact hj
  · rw [separate_iff] at hs ⊢
    refine ⟨hs.1, hs.2.1, fun a k hk => ?_⟩
    have := hs.2.2 a k hk
    simp only [Event.exec, List.length_append]
    omega

theorem newInventory_step (hs : World.Separate w) : QuietOf w (Event.exec w .newInventory) := by
  have hrd := data_append w {}
  have hadr : ∀ a', addresses (Event.exec w .newInventory) a' = addresses w a' := by
    intro a'
    unfold addresses Event.exec
    dsimp only
    rw [hrd]
    by_cases e : a' = w.datas.length
    · rw [if_pos e]
      subst e
      unfold World.data
      simp [List.getD]
    · rw [if_neg e]
  refine ⟨fun a ha => ?_, ?_, by simp [Event.exec]⟩
  · rw [view_eq, view_eq]
    unfold Event.exec
    dsimp only
    rw [hrd, if_neg (by omega)]
    rfl
  · rw [separate_iff] at hs ⊢
    simp only [hadr]
    exact hs

theorem copy_data (w : World) (a a' : Nat) : (fromInventory a w).1.data a' =
    if a' = w.datas.length then { (w.data a) with versions := (w.data a).versions.map (fun vs => vs.map (fun p => (p.1, p.2 + w.blocks.length))) }
    else w.data a' :=
  data_append w _ a'

theorem copy_block (w : World) (a : Nat) {j : Nat} (hj : j < w.blocks.length) :
    (fromInventory a w).1.block j = w.block j ∧ (fromInventory a w).1.block (j + w.blocks.length) = w.block j := by
  unfold fromInventory World.block
  dsimp only
  refine ⟨?_, ?_⟩
  · simp [List.getD, List.getElem?_append_left hj]
  · simp only [List.getD]
    rw [List.getElem?_append_right (by omega)]
    simp

theorem copy_addresses (w : World) (a a' : Nat) : addresses (fromInventory a w).1 a' =
    if a' = w.datas.length then (addresses w a).map (· + w.blocks.length) else addresses w a' := by
  unfold addresses
  rw [copy_data]
  by_cases e : a' = w.datas.length
  · rw [if_pos e, if_pos e]
    cases (w.data a).versions with
    | none => rfl
    | some vs => simp
  · rw [if_neg e, if_neg e]

theorem copy_step (hs : World.Separate w) (a : Nat) : QuietOf w (fromInventory a w).1 := by
  have h3 := (separate_iff.mp hs).2.2
  refine ⟨fun a' ha => ?_, ?_, by simp [fromInventory]⟩
  · rw [view_eq, view_eq, copy_data, if_neg (by omega)]
    cases hv : (w.data a').versions with
    | none => rfl
    | some vs =>
      simp only [Option.map_some]
      rw [read_same]
      intro j hj
      apply (copy_block w a _).1
      apply h3 a'
      unfold addresses
      rw [hv]
      exact hj
  · have hlen : (fromInventory a w).1.blocks.length = w.blocks.length + w.blocks.length := by simp [fromInventory]
    rw [separate_iff]
    rw [separate_iff] at hs
    refine ⟨fun a' => ?_, fun a1 a2 hne k h1 h2 => ?_, fun a' k hk => ?_⟩
    · rw [copy_addresses]
      split
      · exact (hs.1 a).map (fun x y h => by simpa using h)
      · exact hs.1 a'
    · rw [copy_addresses] at h1 h2
      split at h1
      · next e1 =>
        rw [if_neg (fun e => hne (e.trans e1.symm))] at h2
        obtain ⟨j, hj, rfl⟩ := List.mem_map.mp h1
        have := h3 a2 _ h2
        omega
      · split at h2
        · obtain ⟨j, hj, rfl⟩ := List.mem_map.mp h2
          have := h3 a1 _ h1
          omega
        · exact hs.2.1 a1 a2 hne k h1 h2
    · rw [copy_addresses] at hk
      rw [hlen]
      split at hk
      · obtain ⟨j, hj, rfl⟩ := List.mem_map.mp hk
        have := h3 a _ hj
        omega
      · have := h3 a' k hk
        omega

end

/-- **C104** (partial): whatever a program does with its inventories, each of them is always what it would be if it shared nothing with anything:
the calls on it, and no others, have their effect on it. The `dict`s given as metadata may be used for one version each, and no inventory is made
of a `dict` that another one has. Missing: these, see the theorems on violations. -/
theorem C104_partial {w : World} (hs : World.Separate w) {es : List Event} (he : UsedOnce w es) {a : Nat} (ha : a < w.datas.length) :
    (es.foldl Event.exec w).view a = (callsOn a w es).foldl (fun inv c => (valueCall c inv).1) (w.view a) := by
  induction es generalizing w with
  | nil => rfl
  | cons e es ih =>
    have quiet : ∀ {r : World}, QuietOf w r → r = Event.exec w e → UsedOnce r es → callsOn a w (e :: es) = callsOn a r es →
        ((e :: es).foldl Event.exec w).view a = (callsOn a w (e :: es)).foldl (fun inv c => (valueCall c inv).1) (w.view a) := by
      intro r hq hr hu hc
      rw [List.foldl_cons, ← hr, hc, ih hq.separate hu (lt_of_lt_of_le ha hq.number), hq.views a ha]
    cases e with
    | newDict b => exact quiet (newDict_step hs b) rfl he rfl
    | newInventory => exact quiet (newInventory_step hs) rfl he rfl
    | copy a' => exact quiet (copy_step hs a') rfl he.2 rfl
    | call a' c =>
      obtain ⟨h1, h2, h3⟩ := he
      have st := call_step hs h1 h2
      rw [List.foldl_cons]
      unfold callsOn
      rw [ih (w := Event.exec w (.call a' c)) st.separate h3 (by rw [show (Event.exec w (.call a' c)).datas.length = w.datas.length from st.number]; exact ha)]
      by_cases e : a' = a
      · subst e
        rw [if_pos rfl, List.foldl_cons, show (Event.exec w (.call a' c)).view a' = _ from st.own]
      · rw [if_neg e, show (Event.exec w (.call a' c)).view a = _ from st.others a (fun h => e h.symm)]

/-- **C104**, one call: it has the outcome and the effect that it has on an inventory that shares nothing; no other inventory changes. -/
theorem C104_call {w : World} (hs : World.Separate w) {a : Nat} (ha : a < w.datas.length) {c : InvCall Nat} (hf : FreshMetadata w c) :
    let r := Sharing.exec a c w
    let value := valueCall (resolve w c) (w.view a)
    r.1.view a = value.1 ∧ r.2 = value.2 ∧ ∀ a', a' ≠ a → r.1.view a' = w.view a' :=
  ⟨(call_step hs ha hf).own, (call_step hs ha hf).outcome, (call_step hs ha hf).others⟩

/-- **C104**, an `Inventory` made from another one: it holds the same, and from then on each goes its own way. -/
theorem C104_copy {w : World} (hs : World.Separate w) {a : Nat} (ha : a < w.datas.length) :
    let c := fromInventory a w
    c.2 ≠ a ∧ c.1.view c.2 = w.view a ∧ c.1.view a = w.view a ∧
      ∀ es, UsedOnce c.1 es →
        (es.foldl Event.exec c.1).view a = (callsOn a c.1 es).foldl (fun inv x => (valueCall x inv).1) (w.view a) ∧
        (es.foldl Event.exec c.1).view c.2 = (callsOn c.2 c.1 es).foldl (fun inv x => (valueCall x inv).1) (w.view a) := by
  intro c
  have hq := copy_step hs a
  have hview : c.1.view c.2 = w.view a := by
    have h3 := (separate_iff.mp hs).2.2 a
    rw [view_eq, view_eq, copy_data, if_pos (show c.2 = w.datas.length from rfl)]
    cases hv : (w.data a).versions with
    | none => rfl
    | some vs =>
      simp only [Option.map_some]
      have : readBlocks c.1.block (vs.map (fun p => (p.1, p.2 + w.blocks.length))) = readBlocks w.block vs := by
        unfold readBlocks
        rw [List.map_map]
        apply List.map_congr_left
        intro p hp
        have hm : p.2 ∈ addresses w a := by
          unfold addresses
          rw [hv]
          exact List.mem_map.mpr ⟨p, hp, rfl⟩
        show (p.1, c.1.block (p.2 + w.blocks.length)) = _
        rw [(copy_block w a (h3 _ hm)).2]
      rw [this]
  have hnum : c.1.datas.length = w.datas.length + 1 := by simp [c, fromInventory]
  have hnew : c.2 = w.datas.length := rfl
  refine ⟨by omega, hview, hq.views a ha, fun es he => ⟨?_, ?_⟩⟩
  · rw [C104_partial hq.separate he (lt_of_lt_of_le ha hq.number), hq.views a ha]
  · rw [C104_partial hq.separate he (show c.2 < c.1.datas.length by omega), hview]

/-- A program with one inventory and three `dict`s with metadata. -/
def exWorld : World where
  blocks := [{ message := some c!"one" }, { message := some c!"two" }, { message := some c!"three" }]
  datas := [{ rest := { id := some c!"x" } }]

theorem exWorld_separate : World.Separate exWorld := ⟨by decide, by decide⟩

/-- **C104** fails for a `dict`: two inventories made of one `dict` are one and the same, although "the underlying data is deep copied". -/
theorem C104_violated_dict :
    let first := fromDict 0 exWorld
    let second := fromDict 0 first.1
    let after := (Sharing.exec first.2 (.addVersion none none none none) second.1).1
    (second.1.view second.2).head = none ∧ (after.view second.2).head = some c!"v1" := by
  refine ⟨by decide +kernel, by decide +kernel⟩

/-- **C104** fails if a `dict` with metadata is used for two versions: the state of the second becomes the state of the first. -/
theorem C104_violated_metadata :
    let es : List Event := [.call 0 (.addVersion none (some 0) (some [(c!"d1", [c!"a"])]) none),
                            .call 0 (.addVersion none (some 0) (some [(c!"d2", [c!"b"])]) none)]
    ((es.foldl Event.exec exWorld).view 0).stateOf c!"v1" = [(c!"d2", [c!"b"])] ∧
    ((callsOn 0 exWorld es).foldl (fun inv c => (valueCall c inv).1) (exWorld.view 0)).stateOf c!"v1" = [(c!"d1", [c!"a"])] := by
  refine ⟨by decide +kernel, by decide +kernel⟩

/-- Two inventories, the second a copy, change in turn. -/
def exEvents : List Event :=
  [.call 0 (.addVersion none (some 0) (some [(c!"d1", [c!"a"])]) none), .copy 0, .call 1 (.setMeta c!"v1" (.message c!"other")),
   .call 0 (.addVersion none (some 1) none none), .newDict { message := some c!"four" }, .call 1 (.addVersion none (some 2) none none)]

example : World.Separate exWorld ∧ UsedOnce exWorld exEvents ∧
    ((exEvents.foldl Event.exec exWorld).view 0).message c!"v1" = some c!"one" ∧
    ((exEvents.foldl Event.exec exWorld).view 1).message c!"v1" = some c!"other" :=
  ⟨exWorld_separate, by simp only [exEvents, UsedOnce, FreshMetadata]; decide +kernel, by decide +kernel, by decide +kernel⟩

end Ocfl
