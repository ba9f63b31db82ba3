import Verif.Spec.Document
import Verif.Proofs.Inventory
import Verif.Proofs.InventoryJson
import Verif.Py.Decimal
import Verif.Py.DictLemmas

/-!
# Lemmas about inventories as documents
-/

namespace Ocfl
namespace Doc
open Spec

/-! ## The members of a changed object -/

theorem field_obj (d : Dict Str Json) (k : Str) : (Json.obj d).field k = Dict.get? d k := rfl

theorem within_none {d : Dict Str Json} {k : Str} (h : Dict.get? d k = none) (f : Json → Json) : within k f (.obj d) = .obj d := by
  simp only [within, h]

theorem within_some {d : Dict Str Json} {k : Str} {v : Json} (h : Dict.get? d k = some v) (f : Json → Json) :
    within k f (.obj d) = put k (f v) (.obj d) := by
  simp only [within, h, put]

theorem need_none {d : Dict Str Json} {k : Str} (h : Dict.get? d k = none) : need k (.obj d) = put k (.obj []) (.obj d) := by
  simp [need, Dict.has, h, put]

theorem need_some {d : Dict Str Json} {k : Str} {v : Json} (h : Dict.get? d k = some v) : need k (.obj d) = .obj d := by
  simp [need, Dict.has, h]

theorem field_put (k k' : Str) (v : Json) (d : Dict Str Json) :
    (put k v (.obj d)).field k' = if k = k' then some v else (Json.obj d).field k' := by
  simp only [put, field_obj, Dict.get?_set]

theorem field_within (k k' : Str) (f : Json → Json) (d : Dict Str Json) :
    (within k f (.obj d)).field k' = if k = k' then ((Json.obj d).field k').map f else (Json.obj d).field k' := by
  cases h : Dict.get? d k with
  | none =>
    rw [within_none h]
    by_cases hk : k = k'
    · subst hk; simp [field_obj, h]
    · simp [hk]
  | some v =>
    rw [within_some h, field_put]
    by_cases hk : k = k'
    · subst hk; simp [field_obj, h]
    · simp [hk]

theorem field_need (k k' : Str) (d : Dict Str Json) :
    (need k (.obj d)).field k' = if k = k' then some (((Json.obj d).field k').getD (.obj [])) else (Json.obj d).field k' := by
  cases h : Dict.get? d k with
  | none =>
    rw [need_none h, field_put]
    by_cases hk : k = k'
    · subst hk; simp [field_obj, h]
    · simp [hk]
  | some v =>
    rw [need_some h]
    by_cases hk : k = k'
    · subst hk; simp [field_obj, h]
    · simp [hk]

/-! ## Records stay records -/

theorem IsRecord.put {P : Str → Json → Prop} {j : Json} (h : IsRecord P j) {k : Str} {v : Json} (hv : P k v) : IsRecord P (Doc.put k v j) := by
  obtain ⟨d, rfl, hnk, hd⟩ := h
  refine ⟨_, rfl, Dict.NK_set hnk _ _, fun k' v' h' => ?_⟩
  rw [Dict.get?_set] at h'
  split at h'
  · subst k'; cases h'; exact hv
  · exact hd _ _ h'

theorem IsRecord.within {P : Str → Json → Prop} {j : Json} (h : IsRecord P j) {k : Str} {f : Json → Json} (hf : ∀ v, P k v → P k (f v)) :
    IsRecord P (Doc.within k f j) := by
  obtain ⟨d, rfl, hnk, hd⟩ := h
  cases hg : Dict.get? d k with
  | none => rw [within_none hg]; exact ⟨_, rfl, hnk, hd⟩
  | some v => rw [within_some hg]; exact IsRecord.put ⟨d, rfl, hnk, hd⟩ (hf _ (hd _ _ hg))

theorem IsRecord.need {P : Str → Json → Prop} {j : Json} (h : IsRecord P j) {k : Str} (hv : P k (.obj [])) : IsRecord P (Doc.need k j) := by
  obtain ⟨d, rfl, hnk, hd⟩ := h
  cases hg : Dict.get? d k with
  | none => rw [need_none hg]; exact IsRecord.put ⟨d, rfl, hnk, hd⟩ hv
  | some v => rw [need_some hg]; exact ⟨_, rfl, hnk, hd⟩

theorem IsRecord.del {P : Str → Json → Prop} {j : Json} (h : IsRecord P j) (k : Str) : IsRecord P (Doc.del k j) := by
  obtain ⟨d, rfl, hnk, hd⟩ := h
  refine ⟨_, rfl, Dict.NK_erase hnk _, fun k' v' h' => ?_⟩
  rw [Dict.get?_erase hnk] at h'
  split at h'
  · cases h'
  · exact hd _ _ h'

theorem isRecord_empty (P : Str → Json → Prop) : IsRecord P (.obj []) := ⟨[], rfl, Dict.NK_nil, fun _ _ h => by cases h⟩

theorem isDigestMap_toJson {m : DigestMap} (h : Dict.NK m) : IsDigestMap (DigestMap.toJson m) := by
  refine ⟨_, rfl, Dict.NK_map_val h (fun e => Json.arr (e.2.map .str)), fun k v hv => ?_⟩
  have := Dict.get?_map_val m (fun l : List Str => Json.arr (l.map .str)) k
  rw [this] at hv
  cases hm : Dict.get? m k with
  | none => rw [hm] at hv; cases hv
  | some l => rw [hm] at hv; cases hv; exact ⟨l, rfl⟩

theorem IsDigestMap.putPaths {j : Json} (h : IsDigestMap j) (k : Str) (l : List Str) : IsDigestMap (Doc.put k (paths l) j) :=
  IsRecord.put h ⟨l, rfl⟩

theorem IsDigestMap.append {j : Json} (h : IsDigestMap j) (k p : Str) : IsDigestMap (Doc.within k (Doc.append p) j) :=
  IsRecord.within h (fun v ⟨l, hl⟩ => ⟨l ++ [p], by subst hl; simp [Doc.append]⟩)

/-! ## What is read of a changed document -/

theorem map_set {β γ : Type} (f : β → γ) (d : Dict Str β) (k : Str) (v : β) :
    (Dict.set d k v).map (fun e => (e.1, f e.2)) = Dict.set (d.map (fun e => (e.1, f e.2))) k (f v) := by
  induction d with
  | nil => rfl
  | cons e d ih =>
    obtain ⟨a, b⟩ := e
    simp only [Dict.set, List.map_cons]
    split <;> simp [*]

theorem map_erase {β γ : Type} (f : β → γ) (d : Dict Str β) (k : Str) :
    (Dict.erase d k).map (fun e => (e.1, f e.2)) = Dict.erase (d.map (fun e => (e.1, f e.2))) k := by
  induction d with
  | nil => rfl
  | cons e d ih =>
    obtain ⟨a, b⟩ := e
    simp only [Dict.erase, List.map_cons]
    split <;> simp [*]

/-- The paths of a list. -/
def pathsOf (j : Json) : List Str := (j.arr?.getD []).filterMap Json.str?

theorem pathsOf_paths (l : List Str) : pathsOf (paths l) = l := by
  simp only [pathsOf, paths, Json.arr?, Option.getD_some, List.filterMap_map]
  induction l with
  | nil => rfl
  | cons a l ih => rw [List.filterMap_cons]; simp only [Function.comp, Json.str?]; exact congrArg (a :: ·) ih

theorem digestMap_obj (d : Dict Str Json) : DigestMap.ofJson (.obj d) = d.map (fun e => (e.1, pathsOf e.2)) := rfl

theorem digestMap_put (d : Dict Str Json) (k : Str) (l : List Str) :
    DigestMap.ofJson (put k (paths l) (.obj d)) = Dict.set (DigestMap.ofJson (.obj d)) k l := by
  show DigestMap.ofJson (.obj (Dict.set d k (paths l))) = _
  rw [digestMap_obj, digestMap_obj, map_set, pathsOf_paths]

theorem digestMap_del (d : Dict Str Json) (k : Str) : DigestMap.ofJson (del k (.obj d)) = Dict.erase (DigestMap.ofJson (.obj d)) k :=
  map_erase pathsOf d k

theorem get?_digestMap (d : Dict Str Json) (k : Str) : Dict.get? (DigestMap.ofJson (.obj d)) k = (Dict.get? d k).map pathsOf :=
  Dict.get?_map_val d pathsOf k

theorem digestMap_append {j : Json} (h : IsDigestMap j) (k p : Str) {l : List Str} (hl : Dict.get? (DigestMap.ofJson j) k = some l) :
    DigestMap.ofJson (within k (append p) j) = Dict.set (DigestMap.ofJson j) k (l ++ [p]) := by
  obtain ⟨d, rfl, _, hd⟩ := h
  rw [get?_digestMap] at hl
  cases hg : Dict.get? d k with
  | none => rw [hg] at hl; cases hl
  | some v =>
    obtain ⟨l', rfl⟩ := hd _ _ hg
    rw [hg] at hl
    have hl' : l' = l := by
      have := pathsOf_paths l'
      unfold paths at this
      simp only [Option.map_some, this, Option.some.injEq] at hl
      exact hl
    subst hl'
    rw [within_some hg]
    have ha : append p (.arr (l'.map .str)) = paths (l' ++ [p]) := by simp [append, paths]
    rw [ha]
    exact digestMap_put d k (l' ++ [p])

/-- `state[digest].append(path)` or `state[digest] = [path]` -/
theorem digestMap_stateAppend {j : Json} (h : IsDigestMap j) (k p : Str) :
    DigestMap.ofJson (if Dict.has (DigestMap.ofJson j) k then within k (append p) j else put k (paths [p]) j) =
      Inv.stateAppend (DigestMap.ofJson j) k p := by
  unfold Inv.stateAppend
  cases hg : Dict.get? (DigestMap.ofJson j) k with
  | none =>
    have : Dict.has (DigestMap.ofJson j) k = false := by simp [Dict.has, hg]
    simp only [this, Bool.false_eq_true, if_false]
    obtain ⟨d, rfl, _, hd⟩ := h
    exact digestMap_put d k [p]
  | some l =>
    have : Dict.has (DigestMap.ofJson j) k = true := by simp [Dict.has, hg]
    simp only [this, if_true]
    exact digestMap_append h k p hg

theorem keys_digestMap (d : Dict Str Json) : Dict.keys (DigestMap.ofJson (.obj d)) = Dict.keys d := by
  rw [digestMap_obj]
  simp [Dict.keys, List.map_map, Function.comp_def]

theorem NK_digestMap {j : Json} (h : IsDigestMap j) : Dict.NK (DigestMap.ofJson j) := by
  obtain ⟨d, rfl, hnk, _⟩ := h
  exact Dict.NK_map_val hnk (fun e => pathsOf e.2)

theorem digestMap_renameKeys (l : List (Str × Str)) (d : Dict Str Json) :
    DigestMap.ofJson (.obj (renameKeys l d)) = Inv.applyFromTo l (DigestMap.ofJson (.obj d)) := by
  induction l generalizing d with
  | nil => rfl
  | cons e l ih =>
    obtain ⟨a, b⟩ := e
    simp only [renameKeys, Inv.applyFromTo, get?_digestMap]
    cases hg : Dict.get? d a with
    | none => simp [ih]
    | some v =>
      simp only [Option.map_some]
      rw [ih, digestMap_obj, map_set, map_erase, ← digestMap_obj]

theorem digestMap_normalize {j : Json} (h : IsDigestMap j) (alg : Str) :
    DigestMap.ofJson (normalizeBlock alg j) = Inv.normalizeMap alg (DigestMap.ofJson j) := by
  obtain ⟨d, rfl, _, _⟩ := h
  show DigestMap.ofJson (.obj (renameKeys _ d)) = _
  rw [digestMap_renameKeys]
  unfold Inv.normalizeMap
  rw [keys_digestMap]

theorem IsDigestMap.normalize {j : Json} (h : IsDigestMap j) (alg : Str) : IsDigestMap (normalizeBlock alg j) := by
  obtain ⟨d, rfl, hnk, hd⟩ := h
  have main : ∀ (l : List (Str × Str)) (d : Dict Str Json), IsDigestMap (.obj d) → IsDigestMap (.obj (renameKeys l d)) := by
    intro l
    induction l with
    | nil => exact fun d h => h
    | cons e l ih =>
      intro d h
      obtain ⟨a, b⟩ := e
      simp only [renameKeys]
      cases hg : Dict.get? d a with
      | none => exact ih d h
      | some v =>
        refine ih _ ?_
        have hv : ∃ l : List Str, v = .arr (l.map .str) := by
          obtain ⟨d', hd', _, h3⟩ := h
          cases hd'
          exact h3 _ _ hg
        exact IsRecord.put (IsRecord.del h a) (k := b) hv
  exact main _ _ ⟨d, rfl, hnk, hd⟩

/-! ## A change of the document, and of what is read of it -/

/-- The change `f` of a document is the change `g` of what is read of it. -/
def Tracks {α : Type} (P : Json → Prop) (h : Json → α) (f : Json → Json) (g : α → α) : Prop :=
  ∀ j, P j → P (f j) ∧ h (f j) = g (h j)

theorem Tracks.comp {α : Type} {P : Json → Prop} {h : Json → α} {f f' : Json → Json} {g g' : α → α} (h1 : Tracks P h f g) (h2 : Tracks P h f' g') :
    Tracks P h (fun j => f' (f j)) (fun a => g' (g a)) := fun j hj =>
  ⟨(h2 _ (h1 j hj).1).1, by rw [(h2 _ (h1 j hj).1).2, (h1 j hj).2]⟩

theorem tracks_normalize (alg : Str) : Tracks IsDigestMap DigestMap.ofJson (normalizeBlock alg) (Inv.normalizeMap alg) :=
  fun _ hj => ⟨IsDigestMap.normalize hj alg, digestMap_normalize hj alg⟩

theorem tracks_putPaths (k : Str) (l : List Str) :
    Tracks IsDigestMap DigestMap.ofJson (put k (paths l)) (fun m => Dict.set m k l) := by
  intro j hj
  refine ⟨IsDigestMap.putPaths hj k l, ?_⟩
  obtain ⟨d, rfl, _, _⟩ := hj
  exact digestMap_put d k l

theorem tracks_del (k : Str) : Tracks IsDigestMap DigestMap.ofJson (del k) (fun m => Dict.erase m k) := by
  intro j hj
  refine ⟨IsRecord.del hj k, ?_⟩
  obtain ⟨d, rfl, _, _⟩ := hj
  exact digestMap_del d k

/-- A change of one member of a `dict`. -/
def alter {α : Type} (k : Str) (g : α → α) (d : Dict Str α) : Dict Str α :=
  match Dict.get? d k with
  | none => d
  | some v => Dict.set d k (g v)

theorem set_self {α : Type} {d : Dict Str α} {k : Str} {v : α} (h : Dict.get? d k = some v) : Dict.set d k v = d := by
  induction d with
  | nil => cases h
  | cons e d ih =>
    obtain ⟨a, b⟩ := e
    rw [Dict.get?_cons] at h
    simp only [Dict.set]
    by_cases hk : a = k
    · simp only [hk, if_true] at h ⊢
      cases h; rfl
    · simp only [hk, if_false] at h ⊢
      rw [ih h]

theorem blocksOf_obj {α : Type} (h : Json → α) (d : Dict Str Json) : blocksOf h (.obj d) = d.map (fun e => (e.1, h e.2)) := rfl

theorem get?_blocksOf {α : Type} (h : Json → α) (d : Dict Str Json) (k : Str) : Dict.get? (blocksOf h (.obj d)) k = (Dict.get? d k).map h :=
  Dict.get?_map_val d h k

theorem tracks_within {α : Type} {P : Json → Prop} {h : Json → α} {f : Json → Json} {g : α → α} (hfg : Tracks P h f g) (k : Str) :
    Tracks (IsRecord (fun _ => P)) (blocksOf h) (within k f) (alter k g) := by
  intro j hj
  refine ⟨IsRecord.within hj (fun v hv => (hfg v hv).1), ?_⟩
  obtain ⟨d, rfl, _, hd⟩ := hj
  unfold alter
  rw [get?_blocksOf]
  cases hg : Dict.get? d k with
  | none => rw [within_none hg]; rfl
  | some v =>
    rw [within_some hg]
    simp only [Option.map_some]
    show blocksOf h (.obj (Dict.set d k (f v))) = _
    rw [blocksOf_obj, map_set, (hfg v (hd _ _ hg)).2]
    rfl

theorem tracks_put {α : Type} {P : Json → Prop} (h : Json → α) (k : Str) {v : Json} (hv : P v) :
    Tracks (IsRecord (fun _ => P)) (blocksOf h) (put k v) (fun d => Dict.set d k (h v)) := by
  intro j hj
  refine ⟨IsRecord.put hj hv, ?_⟩
  obtain ⟨d, rfl, _, hd⟩ := hj
  exact map_set h d k v

theorem digestMap_toJson (m : DigestMap) : DigestMap.ofJson (DigestMap.toJson m) = m := by
  show (m.map (fun e => (e.1, Json.arr (e.2.map .str)))).map (fun e => (e.1, pathsOf e.2)) = m
  rw [List.map_map]
  conv_rhs => rw [← List.map_id m]
  refine List.map_congr_left (fun e _ => ?_)
  simp only [Function.comp, id]
  exact Prod.ext rfl (pathsOf_paths e.2)

theorem tracks_append (k p : Str) : Tracks IsDigestMap DigestMap.ofJson (within k (append p)) (alter k (fun l => l ++ [p])) := by
  have h : Tracks (fun v => ∃ l : List Str, v = .arr (l.map .str)) pathsOf (append p) (fun l => l ++ [p]) := by
    rintro _ ⟨l, rfl⟩
    have ha : append p (.arr (l.map .str)) = paths (l ++ [p]) := by simp [append, paths]
    refine ⟨⟨l ++ [p], ha⟩, ?_⟩
    rw [ha, pathsOf_paths]
    exact congrArg (· ++ [p]) (pathsOf_paths l).symm
  exact tracks_within h k

theorem tracks_stateAppend (k p : Str) {m : DigestMap} :
    (if Dict.has m k then alter k (fun l => l ++ [p]) m else Dict.set m k [p]) = Inv.stateAppend m k p := by
  unfold Inv.stateAppend alter
  cases hg : Dict.get? m k with
  | none => simp [Dict.has, hg]
  | some l => simp [Dict.has, hg]

/-! ### The version blocks -/

theorem tracks_created (x : Str) : Tracks IsBlock VBlock.ofJson (put c!"created" (.str x)) (fun b => { b with created := some x }) := by
  intro j hj
  refine ⟨IsRecord.put hj ⟨fun _ => ⟨x, rfl⟩, fun h => absurd h (by decide), fun h => absurd h (by decide)⟩, ?_⟩
  obtain ⟨d, rfl, _, hd⟩ := hj
  simp [VBlock.ofJson, field_put, Json.str?]

theorem tracks_message (x : Str) : Tracks IsBlock VBlock.ofJson (put c!"message" (.str x)) (fun b => { b with message := some x }) := by
  intro j hj
  refine ⟨IsRecord.put hj ⟨fun _ => ⟨x, rfl⟩, fun h => absurd h (by decide), fun h => absurd h (by decide)⟩, ?_⟩
  obtain ⟨d, rfl, _, hd⟩ := hj
  simp [VBlock.ofJson, field_put, Json.str?]

theorem tracks_state {m : DigestMap} (h : Dict.NK m) :
    Tracks IsBlock VBlock.ofJson (put c!"state" (DigestMap.toJson m)) (fun b => { b with state := some m }) := by
  intro j hj
  refine ⟨IsRecord.put hj ⟨fun h => absurd h (by decide), fun h => absurd h (by decide), fun _ => isDigestMap_toJson h⟩, ?_⟩
  obtain ⟨d, rfl, _, hd⟩ := hj
  simp [VBlock.ofJson, field_put, digestMap_toJson]

theorem tracks_needState : Tracks IsBlock VBlock.ofJson (need c!"state") (fun b => { b with state := some (b.state.getD []) }) := by
  intro j hj
  refine ⟨IsRecord.need hj ⟨fun h => absurd h (by decide), fun h => absurd h (by decide), fun _ => isRecord_empty _⟩, ?_⟩
  obtain ⟨d, rfl, _, hd⟩ := hj
  simp only [VBlock.ofJson, field_need]
  cases (Json.obj d).field c!"state" <;> simp [DigestMap.ofJson, Json.obj?]

theorem tracks_withinState {f : Json → Json} {g : DigestMap → DigestMap} (h : Tracks IsDigestMap DigestMap.ofJson f g) :
    Tracks IsBlock VBlock.ofJson (within c!"state" f) (fun b => { b with state := b.state.map g }) := by
  intro j hj
  refine ⟨IsRecord.within hj (fun v hv => ⟨fun h => absurd h (by decide), fun h => absurd h (by decide), fun hh => (h v (hv.2.2 hh)).1⟩), ?_⟩
  obtain ⟨d, rfl, _, hd⟩ := hj
  simp only [VBlock.ofJson, field_within]
  cases hs : (Json.obj d).field c!"state" with
  | none => simp
  | some v => simp [(h v ((hd _ _ hs).2.2 rfl)).2]

theorem tracks_name (x : Str) : Tracks IsUser User.ofJson (put c!"name" (.str x)) (fun u => { u with name := some x }) := by
  intro j hj
  refine ⟨IsRecord.put hj (fun _ => ⟨x, rfl⟩), ?_⟩
  obtain ⟨d, rfl, _, hd⟩ := hj
  simp [User.ofJson, field_put, Json.str?]

theorem tracks_address (x : Str) : Tracks IsUser User.ofJson (put c!"address" (.str x)) (fun u => { u with address := some x }) := by
  intro j hj
  refine ⟨IsRecord.put hj (fun _ => ⟨x, rfl⟩), ?_⟩
  obtain ⟨d, rfl, _, hd⟩ := hj
  simp [User.ofJson, field_put, Json.str?]

theorem tracks_user {f : Json → Json} {g : User → User} (h : Tracks IsUser User.ofJson f g) :
    Tracks IsBlock VBlock.ofJson (fun b => within c!"user" f (need c!"user" b)) (fun b => { b with user := some (g (b.user.getD {})) }) := by
  intro j hj
  have h0 : IsUser (.obj []) := isRecord_empty _
  have hn : IsBlock (need c!"user" j) :=
    IsRecord.need hj ⟨fun h => absurd h (by decide), fun _ => h0, fun h => absurd h (by decide)⟩
  refine ⟨IsRecord.within hn (fun v hv => ⟨fun h => absurd h (by decide), fun hh => (h v (hv.2.1 hh)).1, fun h => absurd h (by decide)⟩), ?_⟩
  obtain ⟨d, rfl, _, hd⟩ := hj
  obtain ⟨d', hd', _, _⟩ := hn
  have hu : ∀ k, (within c!"user" f (need c!"user" (.obj d))).field k =
      if c!"user" = k then ((need c!"user" (.obj d)).field k).map f else (need c!"user" (.obj d)).field k := by
    intro k; rw [hd', field_within]
  simp only [VBlock.ofJson, hu, field_need]
  cases hs : (Json.obj d).field c!"user" with
  | none => simp [(h _ h0).2]; rfl
  | some v => simp [(h v ((hd _ _ hs).2.1 rfl)).2]

/-! ### The inventory -/

theorem tracks_text {k : Str} (x : Str) (hk : k ∈ [c!"id", c!"type", c!"digestAlgorithm", c!"contentDirectory", c!"head"]) (j : Json)
    (hj : IsInventory j) : IsInventory (put k (.str x) j) :=
  IsRecord.put hj ⟨fun _ => ⟨x, rfl⟩, fun h => by subst h; exact absurd hk (by decide), fun h => by subst h; exact absurd hk (by decide),
    fun h => by subst h; exact absurd hk (by decide)⟩

theorem read_text (x : Str) {j : Json} (hj : IsInventory j) :
    Inv.ofJson (put c!"id" (.str x) j) = { Inv.ofJson j with id := some x } ∧
    Inv.ofJson (put c!"type" (.str x) j) = { Inv.ofJson j with type := some x } ∧
    Inv.ofJson (put c!"digestAlgorithm" (.str x) j) = { Inv.ofJson j with digestAlgorithm := some x } ∧
    Inv.ofJson (put c!"contentDirectory" (.str x) j) = { Inv.ofJson j with contentDirectory := some x } ∧
    Inv.ofJson (put c!"head" (.str x) j) = { Inv.ofJson j with head := some x } := by
  obtain ⟨d, rfl, _, hd⟩ := hj
  refine ⟨?_, ?_, ?_, ?_, ?_⟩ <;> simp [Inv.ofJson, field_put, Json.str?]

theorem tracks_manifest {m : DigestMap} (h : Dict.NK m) :
    Tracks IsInventory Inv.ofJson (put c!"manifest" (DigestMap.toJson m)) (fun inv => { inv with manifest := some m }) := by
  intro j hj
  refine ⟨IsRecord.put hj ⟨fun h => absurd h (by decide), fun _ => isDigestMap_toJson h, fun h => absurd h (by decide),
    fun h => absurd h (by decide)⟩, ?_⟩
  obtain ⟨d, rfl, _, hd⟩ := hj
  simp [Inv.ofJson, field_put, digestMap_toJson]

theorem tracks_needManifest : Tracks IsInventory Inv.ofJson (need c!"manifest") (fun inv => { inv with manifest := some inv.manifestD }) := by
  intro j hj
  refine ⟨IsRecord.need hj ⟨fun h => absurd h (by decide), fun _ => isRecord_empty _, fun h => absurd h (by decide),
    fun h => absurd h (by decide)⟩, ?_⟩
  obtain ⟨d, rfl, _, hd⟩ := hj
  simp only [Inv.ofJson, field_need, Inv.manifestD]
  cases (Json.obj d).field c!"manifest" <;> simp [DigestMap.ofJson, Json.obj?]

theorem tracks_needVersions : Tracks IsInventory Inv.ofJson (need c!"versions") (fun inv => { inv with versions := some inv.versionsD }) := by
  intro j hj
  refine ⟨IsRecord.need hj ⟨fun h => absurd h (by decide), fun h => absurd h (by decide), fun _ => isRecord_empty _,
    fun h => absurd h (by decide)⟩, ?_⟩
  obtain ⟨d, rfl, _, hd⟩ := hj
  simp only [Inv.ofJson, field_need, Inv.versionsD]
  cases (Json.obj d).field c!"versions" <;> simp [blocksOf, Json.obj?]

theorem tracks_needFixity : Tracks IsInventory Inv.ofJson (need c!"fixity") (fun inv => { inv with fixity := some inv.fixityD }) := by
  intro j hj
  refine ⟨IsRecord.need hj ⟨fun h => absurd h (by decide), fun h => absurd h (by decide), fun h => absurd h (by decide),
    fun _ => isRecord_empty _⟩, ?_⟩
  obtain ⟨d, rfl, _, hd⟩ := hj
  simp only [Inv.ofJson, field_need, Inv.fixityD]
  cases (Json.obj d).field c!"fixity" <;> simp [blocksOf, Json.obj?]

theorem tracks_withinManifest {f : Json → Json} {g : DigestMap → DigestMap} (h : Tracks IsDigestMap DigestMap.ofJson f g) :
    Tracks IsInventory Inv.ofJson (within c!"manifest" f) (fun inv => { inv with manifest := inv.manifest.map g }) := by
  intro j hj
  refine ⟨IsRecord.within hj (fun v hv => ⟨fun h => absurd h (by decide), fun hh => (h v (hv.2.1 hh)).1, fun h => absurd h (by decide),
    fun h => absurd h (by decide)⟩), ?_⟩
  obtain ⟨d, rfl, _, hd⟩ := hj
  simp only [Inv.ofJson, field_within]
  cases hs : (Json.obj d).field c!"manifest" with
  | none => simp
  | some v => simp [(h v ((hd _ _ hs).2.1 rfl)).2]

theorem tracks_withinVersions {f : Json → Json} {g : Dict Str VBlock → Dict Str VBlock}
    (h : Tracks (IsRecord (fun _ => IsBlock)) (blocksOf VBlock.ofJson) f g) :
    Tracks IsInventory Inv.ofJson (within c!"versions" f) (fun inv => { inv with versions := inv.versions.map g }) := by
  intro j hj
  refine ⟨IsRecord.within hj (fun v hv => ⟨fun h => absurd h (by decide), fun h => absurd h (by decide), fun hh => (h v (hv.2.2.1 hh)).1,
    fun h => absurd h (by decide)⟩), ?_⟩
  obtain ⟨d, rfl, _, hd⟩ := hj
  simp only [Inv.ofJson, field_within]
  cases hs : (Json.obj d).field c!"versions" with
  | none => simp
  | some v => simp [(h v ((hd _ _ hs).2.2.1 rfl)).2]

theorem tracks_withinFixity {f : Json → Json} {g : Dict Str DigestMap → Dict Str DigestMap}
    (h : Tracks (IsRecord (fun _ => IsDigestMap)) (blocksOf DigestMap.ofJson) f g) :
    Tracks IsInventory Inv.ofJson (within c!"fixity" f) (fun inv => { inv with fixity := inv.fixity.map g }) := by
  intro j hj
  refine ⟨IsRecord.within hj (fun v hv => ⟨fun h => absurd h (by decide), fun h => absurd h (by decide), fun h => absurd h (by decide),
    fun hh => (h v (hv.2.2.2 hh)).1⟩), ?_⟩
  obtain ⟨d, rfl, _, hd⟩ := hj
  simp only [Inv.ofJson, field_within]
  cases hs : (Json.obj d).field c!"fixity" with
  | none => simp
  | some v => simp [(h v ((hd _ _ hs).2.2.2 rfl)).2]

theorem setBlock_eq (inv : Inv) (v : Str) (g : VBlock → VBlock) :
    inv.setBlock v g = { inv with versions := inv.versions.map (alter v g) } := by
  unfold Inv.setBlock Inv.versionData Inv.versionsD alter
  obtain ⟨_, _, _, _, _, _, vs, _⟩ := inv
  cases vs with
  | none => rfl
  | some d =>
    simp only [Option.getD_some, Option.map_some]
    cases Dict.get? d v <;> rfl

theorem tracks_block {f : Json → Json} {g : VBlock → VBlock} (h : Tracks IsBlock VBlock.ofJson f g) (v : Str) :
    Tracks IsInventory Inv.ofJson (block v f) (fun inv => inv.setBlock v g) := by
  intro j hj
  have := tracks_withinVersions (tracks_within h v) j hj
  refine ⟨this.1, ?_⟩
  show _ = (Inv.ofJson j).setBlock v g
  rw [setBlock_eq]
  exact this.2

/-! ## The operations -/

/-- A call on the document is the call on what is read of it. -/
def Agrees {α : Type} (r : Json × Py α) (q : Inv × Py α) : Prop := IsInventory r.1 ∧ Inv.ofJson r.1 = q.1 ∧ r.2 = q.2

theorem hasVersion_iff (doc : Json) (v : Str) : hasVersion doc v = true ↔ ∃ b, (Inv.ofJson doc).versionData v = some b := by
  unfold hasVersion
  exact Option.isSome_iff_exists

theorem addFileToManifest_agrees {doc : Json} (h : IsInventory doc) (digest path : Str) :
    Agrees (addFileToManifest digest path doc) ((Inv.ofJson doc).addFileToManifest digest path) := by
  unfold addFileToManifest Inv.addFileToManifest
  by_cases hc : path ∈ (Inv.ofJson doc).contentPaths
  · simp only [hc, if_true]
    exact ⟨h, rfl, rfl⟩
  · simp only [hc, if_false]
    have hn := tracks_needManifest doc h
    have hm : (Inv.ofJson (need c!"manifest" doc)).manifestD = (Inv.ofJson doc).manifestD := by rw [hn.2]; rfl
    rw [hm]
    cases hg : Dict.get? (Inv.ofJson doc).manifestD digest with
    | none =>
      have hh : Dict.has (Inv.ofJson doc).manifestD digest = false := by simp [Dict.has, hg]
      simp only [hh, Bool.false_eq_true, if_false]
      have t := tracks_withinManifest (tracks_putPaths digest [path]) _ hn.1
      refine ⟨t.1, ?_, rfl⟩
      rw [t.2, hn.2]
      rfl
    | some l =>
      have hh : Dict.has (Inv.ofJson doc).manifestD digest = true := by simp [Dict.has, hg]
      simp only [hh, if_true]
      have t := tracks_withinManifest (tracks_append digest path) _ hn.1
      refine ⟨t.1, ?_, rfl⟩
      rw [t.2, hn.2]
      simp [alter, hg]

theorem addVersion_some_agrees {doc : Json} (h : IsInventory doc) (v : Str) (md : Option Json) (st : Option DigestMap) (w : Option Nat)
    (hm : ∀ b, md = some b → IsBlock b) (hs : ∀ m, st = some m → Dict.NK m) :
    ∃ inv', (Inv.ofJson doc).addVersion (some v) (md.map VBlock.ofJson) st w = .ok inv' ∧
      Agrees (addVersion (some v) md st w doc) (inv', .ok ()) := by
  refine ⟨_, rfl, ?_⟩
  unfold addVersion
  have hb : IsBlock (md.getD (.obj [])) := by
    cases md with
    | none => exact isRecord_empty _
    | some b => exact hm b rfl
  have hbr : VBlock.ofJson (md.getD (.obj [])) = (md.map VBlock.ofJson).getD {} := by
    cases md <;> rfl
  have hn := tracks_needVersions doc h
  have h1 := tracks_withinVersions (tracks_put VBlock.ofJson v hb) _ hn.1
  cases st with
  | none =>
    simp only
    refine ⟨tracks_text (k := c!"head") v (by decide) _ h1.1, ?_, rfl⟩
    rw [(read_text v h1.1).2.2.2.2, h1.2, hn.2, hbr]
    rfl
  | some m =>
    simp only
    have h2 := tracks_block (tracks_state (hs m rfl)) v _ h1.1
    refine ⟨tracks_text (k := c!"head") v (by decide) _ h2.1, ?_, rfl⟩
    rw [(read_text v h2.1).2.2.2.2, h2.2, h1.2, hn.2, hbr]
    simp [setBlock_eq, alter, Dict.get?_set_self, Dict.set_set]

/-- `add_version()` adds the version that comes next. -/
theorem addVersion_next {doc : Json} {w : Option Nat} {v : Str} (h : (Inv.ofJson doc).nextVersionDir w = .ok v) (md : Option Json)
    (st : Option DigestMap) : addVersion none md st w doc = addVersion (some v) md st w doc := by
  simp only [addVersion, h]

theorem addVersion_agrees {doc : Json} (h : IsInventory doc) (vdir : Option Str) (md : Option Json) (st : Option DigestMap) (w : Option Nat)
    (hm : ∀ b, md = some b → IsBlock b) (hs : ∀ m, st = some m → Dict.NK m) :
    (∃ inv', (Inv.ofJson doc).addVersion vdir (md.map VBlock.ofJson) st w = .ok inv' ∧ Agrees (addVersion vdir md st w doc) (inv', .ok ())) ∨
    (∃ e, (Inv.ofJson doc).addVersion vdir (md.map VBlock.ofJson) st w = .error e ∧ addVersion vdir md st w doc = (doc, .error e)) := by
  cases vdir with
  | some v => exact .inl (addVersion_some_agrees h v md st w hm hs)
  | none =>
    cases hn : (Inv.ofJson doc).nextVersionDir w with
    | error e => exact .inr ⟨e, by simp only [Inv.addVersion, hn], by simp only [addVersion, hn]⟩
    | ok v =>
      obtain ⟨inv', h1, h2⟩ := addVersion_some_agrees h v md st w hm hs
      rw [addVersion_next hn]
      exact .inl ⟨inv', by rw [← h1]; simp only [Inv.addVersion, hn], h2⟩

theorem addFixityType_agrees {doc : Json} (h : IsInventory doc) (alg : Str) (map : Option DigestMap) (hm : ∀ m, map = some m → Dict.NK m) :
    IsInventory (addFixityType alg map doc) ∧ Inv.ofJson (addFixityType alg map doc) = (Inv.ofJson doc).addFixityType alg map := by
  have hb : Dict.NK (map.getD []) := by
    cases map with
    | none => exact Dict.NK_nil
    | some m => exact hm m rfl
  have hn := tracks_needFixity doc h
  have h1 := tracks_withinFixity (tracks_put DigestMap.ofJson alg (isDigestMap_toJson hb)) _ hn.1
  refine ⟨h1.1, ?_⟩
  unfold addFixityType
  rw [h1.2, hn.2]
  simp [Inv.addFixityType, digestMap_toJson]

theorem addFixityData_agrees {doc : Json} (h : IsInventory doc) (alg digest path : Str) :
    Agrees (addFixityData alg digest path doc)
      (match (Inv.ofJson doc).addFixityData alg digest path with
        | .error e => (Inv.ofJson doc, .error e)
        | .ok inv' => (inv', .ok ())) := by
  unfold addFixityData Inv.addFixityData
  cases hf : Dict.get? (Inv.ofJson doc).fixityD alg with
  | none => exact ⟨h, rfl, rfl⟩
  | some fx =>
    simp only
    have hfx : ∃ d, (Inv.ofJson doc).fixity = some d ∧ Dict.get? d alg = some fx := by
      unfold Inv.fixityD at hf
      cases hd : (Inv.ofJson doc).fixity with
      | none => rw [hd] at hf; cases hf
      | some d => rw [hd] at hf; exact ⟨d, rfl, hf⟩
    obtain ⟨d, hd, hda⟩ := hfx
    cases hg : Dict.get? fx digest with
    | none =>
      have hh : Dict.has fx digest = false := by simp [Dict.has, hg]
      simp only [hh, Bool.false_eq_true, if_false]
      have t := tracks_withinFixity (tracks_within (tracks_putPaths digest [path]) alg) _ h
      refine ⟨t.1, ?_, rfl⟩
      rw [t.2]
      simp [Inv.fixityD, hd, alter, hda]
    | some l =>
      have hh : Dict.has fx digest = true := by simp [Dict.has, hg]
      simp only [hh, if_true]
      have t := tracks_withinFixity (tracks_within (tracks_append digest path) alg) _ h
      refine ⟨t.1, ?_, rfl⟩
      rw [t.2]
      simp [Inv.fixityD, hd, alter, hda, hg]

theorem setUser_agrees {doc : Json} (h : IsInventory doc) (key v x : Str) {g : User → User} (hk : Tracks IsUser User.ofJson (put key (.str x)) g) :
    Agrees (setUser key v x doc) ((Inv.ofJson doc).setUser v g) := by
  unfold setUser Inv.setUser hasVersion
  cases (Inv.ofJson doc).versionData v with
  | none => exact ⟨h, rfl, rfl⟩
  | some b =>
    simp only [Option.isSome_some, if_true]
    have := tracks_block (tracks_user hk) v doc h
    exact ⟨this.1, this.2, rfl⟩

theorem setState_eq (inv : Inv) (v : Str) (st : DigestMap) : inv.setState v st = inv.setBlock v (fun b => { b with state := some st }) := rfl

theorem needState_agrees {doc : Json} (h : IsInventory doc) (v : Str) :
    IsInventory (needState v doc).1 ∧ Inv.ofJson (needState v doc).1 = ((Inv.ofJson doc).stateAddIfNotPresent v).1 ∧
    (needState v doc).2 = ((Inv.ofJson doc).stateAddIfNotPresent v).2.map (fun _ => ()) ∧
    ((needState v doc).2 = .ok () → ((Inv.ofJson doc).stateAddIfNotPresent v).2 = .ok ((Inv.ofJson (needState v doc).1).stateOf v) ∧
      ∃ b st, (Inv.ofJson (needState v doc).1).versionData v = some b ∧ b.state = some st) := by
  have t := tracks_block tracks_needState v doc h
  unfold needState Inv.stateAddIfNotPresent hasVersion
  cases hv : (Inv.ofJson doc).versionData v with
  | none => exact ⟨h, rfl, rfl, fun h => by cases h⟩
  | some b =>
    simp only [Option.isSome_some, if_true]
    have hb : (Inv.ofJson (block v (need c!"state") doc)).versionData v = some { b with state := some (b.state.getD []) } := by
      rw [t.2]
      simp [Inv.setBlock, hv]
      simp [Inv.versionData, Inv.versionsD, Dict.get?_set_self]
    have hs : (Inv.ofJson (block v (need c!"state") doc)).stateOf v = b.state.getD [] := by
      simp [Inv.stateOf, hb]
    rw [hs]
    cases hst : b.state with
    | none =>
      simp only [Option.getD_none]
      refine ⟨t.1, ?_, rfl, fun _ => ⟨by first | rfl | trivial, _, _, hb, rfl⟩⟩
      rw [t.2, setState_eq]
      simp [Inv.setBlock, hv, hst]
    | some st =>
      simp only [Option.getD_some]
      refine ⟨t.1, ?_, rfl, fun _ => ⟨by first | rfl | trivial, _, _, hb, rfl⟩⟩
      rw [t.2]
      have hb' : ({ b with state := some (b.state.getD []) } : VBlock) = b := by rw [hst]; cases b; cases hst; rfl
      simp only [Inv.setBlock, hv, hb']
      obtain ⟨D, hD⟩ : ∃ D, (Inv.ofJson doc).versions = some D := by
        unfold Inv.versionData Inv.versionsD at hv
        cases hd : (Inv.ofJson doc).versions with
        | none => rw [hd] at hv; cases hv
        | some D => exact ⟨D, rfl⟩
      have hDv : Dict.get? (Inv.ofJson doc).versionsD v = some b := hv
      rw [set_self hDv]
      simp only [Inv.versionsD, hD, Option.getD_some]
      rw [← hD]

theorem stateAppend_agrees {doc : Json} (h : IsInventory doc) (v digest path : Str) {b : VBlock} {st : DigestMap}
    (hb : (Inv.ofJson doc).versionData v = some b) (hst : b.state = some st) :
    IsInventory (stateAppend v digest path doc) ∧
    Inv.ofJson (stateAppend v digest path doc) = (Inv.ofJson doc).setState v (Inv.stateAppend st digest path) := by
  have hs : (Inv.ofJson doc).stateOf v = st := by simp [Inv.stateOf, hb, hst]
  unfold stateAppend
  rw [hs, ← tracks_stateAppend]
  split
  · have t := tracks_block (tracks_withinState (tracks_append digest path)) v doc h
    refine ⟨t.1, ?_⟩
    rw [t.2, setState_eq]
    simp [Inv.setBlock, hb, hst]
  · have t := tracks_block (tracks_withinState (tracks_putPaths digest [path])) v doc h
    refine ⟨t.1, ?_⟩
    rw [t.2, setState_eq]
    simp [Inv.setBlock, hb, hst]

theorem addFile_agrees {doc : Json} (h : IsInventory doc) (v digest path : Str) (cp : Option Str) (dedupe : Bool) :
    Agrees (addFile v digest path cp dedupe doc) ((Inv.ofJson doc).addFile v digest path cp dedupe) := by
  have tail : ∀ {doc1 : Json} {r : Option Str}, IsInventory doc1 →
      Agrees (match needState v doc1 with
        | (doc2, .error e) => (doc2, .error e)
        | (doc2, .ok ()) => (stateAppend v digest path doc2, .ok r))
        (match (Inv.ofJson doc1).stateAddIfNotPresent v with
        | (inv2, .error e) => (inv2, .error e)
        | (inv2, .ok st) => (inv2.setState v (Inv.stateAppend st digest path), .ok r)) := by
    intro doc1 r h1
    obtain ⟨n1, n2, n3, n4⟩ := needState_agrees h1 v
    generalize needState v doc1 = N at n1 n2 n3 n4
    generalize (Inv.ofJson doc1).stateAddIfNotPresent v = M at n2 n3 n4
    obtain ⟨doc2, o⟩ := N
    obtain ⟨inv2, q⟩ := M
    cases q with
    | error e =>
      cases o with
      | error e' => cases n3; exact ⟨n1, n2, rfl⟩
      | ok u => cases n3
    | ok st =>
      cases o with
      | error e' => cases n3
      | ok u =>
        dsimp only at n1 n2 n4 ⊢
        obtain ⟨n5, b, st', hb, hst⟩ := n4 rfl
        have hs : (Inv.ofJson doc2).stateOf v = st' := by simp [Inv.stateOf, hb, hst]
        rw [hs] at n5
        cases n5
        have := stateAppend_agrees n1 v digest path hb hst
        exact ⟨this.1, by rw [this.2, n2], rfl⟩
  unfold addFile Inv.addFile
  by_cases hl : path ∈ (Inv.ofJson doc).logicalPaths v
  · simp only [hl, if_true]
    exact ⟨h, rfl, rfl⟩
  · simp only [hl, if_false]
    by_cases hc : (Inv.ofJson doc).contentPathsForDigest digest = [] ∨ dedupe = false
    · simp only [hc, if_true]
      cases makeUnusedFilepath (osPathJoin (osPathJoin v (Inv.ofJson doc).contentDirectoryToUse) (cp.getD path)) (Inv.ofJson doc).contentPaths with
      | none => exact ⟨h, rfl, rfl⟩
      | some c =>
        simp only
        have ha := addFileToManifest_agrees h digest c
        generalize addFileToManifest digest c doc = N at ha
        generalize (Inv.ofJson doc).addFileToManifest digest c = M at ha
        obtain ⟨doc1, o⟩ := N
        obtain ⟨inv1, q⟩ := M
        obtain ⟨a1, a2, a3⟩ := ha
        simp only at a1 a2 a3
        subst a2 a3
        cases o with
        | error e => exact ⟨a1, rfl, rfl⟩
        | ok u => exact tail a1
    · simp only [hc, if_false]
      exact tail h

theorem deleteFromState_eq {st : DigestMap} (h : Dict.NK st) (path : Str) :
    Inv.deleteFromState st path = (Inv.digestFor st path).map (fun d =>
      if ((Dict.get? st d).getD []).length > 1 then (Dict.set st d (((Dict.get? st d).getD []).erase path), d, false)
      else (Dict.erase st d, d, true)) := by
  induction st with
  | nil => rfl
  | cons e st ih =>
    obtain ⟨a, ps⟩ := e
    rw [Dict.NK_cons] at h
    unfold Inv.deleteFromState Inv.digestFor
    by_cases hp : path ∈ ps
    · simp only [hp, if_true, Option.map_some, Dict.get?_cons, Option.getD_some]
      split <;> simp [Dict.set, Dict.erase]
    · simp only [hp, if_false]
      rw [ih h.2]
      cases hd : Inv.digestFor st path with
      | none => rfl
      | some d =>
        have hmem : d ∈ Dict.keys st := by
          clear ih h
          induction st with
          | nil => cases hd
          | cons e st ih2 =>
            obtain ⟨a', ps'⟩ := e
            unfold Inv.digestFor at hd
            split at hd
            · cases hd; simp [Dict.keys]
            · have := ih2 hd
              simp only [Dict.keys, List.map_cons, List.mem_cons] at this ⊢
              exact .inr this
        have hne : a ≠ d := fun hh => h.1 (hh ▸ hmem)
        simp only [Option.map_some, Dict.get?_cons, hne, if_false]
        split
        · rename_i hlen
          simp [hlen, Dict.set, hne]
        · rename_i hlen
          simp [hlen, Dict.erase, hne]

theorem NK_stateOf {doc : Json} (h : IsInventory doc) (v : Str) : Dict.NK ((Inv.ofJson doc).stateOf v) := by
  obtain ⟨d, rfl, _, hd⟩ := h
  unfold Inv.stateOf Inv.versionData Inv.versionsD Inv.ofJson
  simp only
  cases hv : (Json.obj d).field c!"versions" with
  | none => exact Dict.NK_nil
  | some vs =>
    obtain ⟨d', rfl, _, hd'⟩ := (hd _ _ hv).2.2.1 rfl
    simp only [Option.map_some, Option.getD_some, get?_blocksOf]
    cases hb : Dict.get? d' v with
    | none => exact Dict.NK_nil
    | some b =>
      simp only [Option.map_some]
      obtain ⟨d'', rfl, _, hd''⟩ := hd' _ _ hb
      unfold VBlock.ofJson
      simp only
      cases hs : (Json.obj d'').field c!"state" with
      | none => exact Dict.NK_nil
      | some s => exact NK_digestMap ((hd'' _ _ hs).2.2 rfl)

theorem deleteLogicalPath_agrees {doc : Json} (h : IsInventory doc) (v path : Str) :
    Agrees (deleteLogicalPath v path doc) ((Inv.ofJson doc).deleteLogicalPath v path) := by
  unfold deleteLogicalPath Inv.deleteLogicalPath Inv.digestForLogicalPath
  rw [deleteFromState_eq (NK_stateOf h v)]
  dsimp only
  cases hd : Inv.digestFor ((Inv.ofJson doc).stateOf v) path with
  | none => exact ⟨h, rfl, rfl⟩
  | some digest =>
    simp only [Option.map_some]
    obtain ⟨b, st, hb, hst⟩ : ∃ b st, (Inv.ofJson doc).versionData v = some b ∧ b.state = some st := by
      unfold Inv.stateOf at hd
      cases hv : (Inv.ofJson doc).versionData v with
      | none => rw [hv] at hd; cases hd
      | some b =>
        rw [hv] at hd
        cases hs : b.state with
        | none => simp only [hs] at hd; cases hd
        | some st => exact ⟨b, st, rfl, hs⟩
    have hso : (Inv.ofJson doc).stateOf v = st := by simp [Inv.stateOf, hb, hst]
    rw [hso]
    split
    · have t := tracks_block (tracks_withinState (tracks_putPaths digest (((Dict.get? st digest).getD []).erase path))) v doc h
      refine ⟨t.1, ?_, rfl⟩
      rw [t.2]
      simp [setState_eq, Inv.setBlock, hb, hst]
    · have t := tracks_block (tracks_withinState (tracks_del digest)) v doc h
      have hts : Inv.ofJson (block v (within c!"state" (del digest)) doc) = (Inv.ofJson doc).setState v (Dict.erase st digest) := by
        rw [t.2]
        simp [setState_eq, Inv.setBlock, hb, hst]
      have hman : ((Inv.ofJson doc).setState v (Dict.erase st digest)).manifest = (Inv.ofJson doc).manifest := by
        rw [setState_eq, setBlock_eq]
      simp only [if_true, hman]
      unfold Inv.manifestD
      cases hm : (Inv.ofJson doc).manifest with
      | none => exact ⟨t.1, hts, rfl⟩
      | some m =>
        simp only [Option.getD_some]
        unfold Inv.dropVersionPaths
        cases hg : Dict.get? m digest with
        | none =>
          refine ⟨t.1, ?_, rfl⟩
          simp only [hts]
          rw [← hm, ← hman]
        | some cps =>
          simp only
          have t2 := tracks_withinManifest (tracks_putPaths digest (cps.filter (fun p => !startsWith p (v ++ c!"/")))) _ t.1
          refine ⟨t2.1, ?_, rfl⟩
          rw [t2.2, hts]
          dsimp only
          rw [hman, hm]
          rfl

/-! ### Digests in normal form -/

theorem alter_eq_map {α : Type} (v : Str) (g : α → α) {d : Dict Str α} (h : Dict.NK d) :
    alter v g d = d.map (fun p => (p.1, if p.1 = v then g p.2 else p.2)) := by
  induction d with
  | nil => rfl
  | cons e d ih =>
    obtain ⟨a, b⟩ := e
    rw [Dict.NK_cons] at h
    unfold alter at ih ⊢
    rw [Dict.get?_cons]
    by_cases ha : a = v
    · subst ha
      have : d.map (fun p => (p.1, if p.1 = a then g p.2 else p.2)) = d := by
        conv_rhs => rw [← List.map_id d]
        refine List.map_congr_left (fun p hp => ?_)
        have : p.1 ≠ a := fun hh => h.1 (hh ▸ List.mem_map_of_mem (f := Prod.fst) hp)
        simp [this]
      simp [Dict.set, this]
    · have := ih h.2
      simp only [ha, if_false, List.map_cons]
      cases hg : Dict.get? d v with
      | none => rw [hg] at this; simp only at this ⊢; rw [← this]
      | some x => rw [hg] at this; simp only [Dict.set, ha, if_false] at this ⊢; rw [← this]

theorem foldl_alter {α : Type} (g : α → α) (vs : List Str) (hvs : vs.Nodup) :
    ∀ {d : Dict Str α}, Dict.NK d → vs.foldl (fun d v => alter v g d) d = d.map (fun p => (p.1, if p.1 ∈ vs then g p.2 else p.2)) := by
  induction vs with
  | nil => intro d _; simp
  | cons v vs ih =>
    intro d hd
    rw [List.nodup_cons] at hvs
    simp only [List.foldl_cons]
    rw [alter_eq_map v g hd, ih hvs.2 (Dict.NK_map_val hd (fun p => if p.1 = v then g p.2 else p.2)), List.map_map]
    refine List.map_congr_left (fun p _ => ?_)
    simp only [Function.comp, List.mem_cons]
    by_cases hp : p.1 = v
    · simp [hp, hvs.1]
    · simp [hp]

theorem foldl_setBlock (g : VBlock → VBlock) (vs : List Str) (inv : Inv) :
    vs.foldl (fun inv v => inv.setBlock v g) inv = { inv with versions := inv.versions.map (fun d => vs.foldl (fun d v => alter v g d) d) } := by
  induction vs generalizing inv with
  | nil => cases inv; simp
  | cons v vs ih =>
    simp only [List.foldl_cons]
    rw [ih, setBlock_eq]
    simp [Function.comp_def]

theorem tracks_foldl {α : Type} {P : Json → Prop} {h : Json → α} {f : Str → Json → Json} {g : Str → α → α} (vs : List Str)
    (hfg : ∀ v, Tracks P h (f v) (g v)) : Tracks P h (fun j => vs.foldl (fun j v => f v j) j) (fun a => vs.foldl (fun a v => g v a) a) := by
  induction vs with
  | nil => exact fun j hj => ⟨hj, rfl⟩
  | cons v vs ih =>
    intro j hj
    have h1 := hfg v j hj
    have h2 := ih _ h1.1
    exact ⟨h2.1, h2.2.trans (by rw [h1.2]; rfl)⟩

theorem NK_versions {doc : Json} (h : IsInventory doc) {D : Dict Str VBlock} (hD : (Inv.ofJson doc).versions = some D) : Dict.NK D := by
  obtain ⟨d, rfl, _, hd⟩ := h
  unfold Inv.ofJson at hD
  simp only at hD
  cases hv : (Json.obj d).field c!"versions" with
  | none => rw [hv] at hD; cases hD
  | some vs =>
    obtain ⟨d', rfl, hnk, _⟩ := (hd _ _ hv).2.2.1 rfl
    rw [hv] at hD
    cases hD
    exact Dict.NK_map_val hnk (fun e => VBlock.ofJson e.2)

theorem normalizeDigests_agrees {doc : Json} (h : IsInventory doc) (alg : Str) :
    Agrees (normalizeDigests alg doc) ((Inv.ofJson doc).normalizeDigests alg) := by
  have t1 := tracks_withinManifest (tracks_normalize alg) doc h
  have hv : (Inv.ofJson (within c!"manifest" (normalizeBlock alg) doc)).versions = (Inv.ofJson doc).versions := by rw [t1.2]
  have hvd : (Inv.ofJson (within c!"manifest" (normalizeBlock alg) doc)).versionDirectories = (Inv.ofJson doc).versionDirectories := by
    simp only [Inv.versionDirectories, Inv.versionsD, hv]
  unfold normalizeDigests Inv.normalizeDigests
  simp only [hvd]
  cases hvs : (Inv.ofJson doc).versionDirectories with
  | error e => exact ⟨t1.1, t1.2, rfl⟩
  | ok vs =>
    simp only
    have t2 := tracks_foldl vs (fun v => tracks_block (tracks_withinState (tracks_normalize alg)) v) _ t1.1
    refine ⟨t2.1, ?_, rfl⟩
    simp only
    rw [t2.2]
    dsimp only
    rw [foldl_setBlock, t1.2]
    obtain ⟨hp, _⟩ := versionDirectories_ok hvs
    cases hD : (Inv.ofJson doc).versions with
    | none => rfl
    | some D =>
      have hnk := NK_versions h hD
      have hkeys : Dict.keys (Inv.ofJson doc).versionsD = Dict.keys D := by simp [Inv.versionsD, hD]
      rw [hkeys] at hp
      simp only [hD, Option.map_some]
      rw [foldl_alter _ vs (hp.nodup_iff.mpr hnk) hnk]
      congr 2
      refine List.map_congr_left (fun p hpD => ?_)
      have : p.1 ∈ vs := hp.mem_iff.mpr (List.mem_map_of_mem (f := Prod.fst) hpD)
      simp [this]

/-! ## What the library does not know -/

theorem Kept.refl (known : List Str) (j : Json) : Kept known j j := fun _ _ => rfl

theorem Kept.trans {known : List Str} {a b c : Json} (h1 : Kept known a b) (h2 : Kept known b c) : Kept known a c := fun k hk =>
  (h2 k hk).trans (h1 k hk)

theorem BlockKept.refl (b : Json) : BlockKept b b := ⟨Kept.refl _ _, fun u hu => ⟨u, hu, Kept.refl _ _⟩⟩

theorem BlockKept.trans {a b c : Json} (h1 : BlockKept a b) (h2 : BlockKept b c) : BlockKept a c := by
  refine ⟨Kept.trans h1.1 h2.1, fun u hu => ?_⟩
  obtain ⟨u1, hu1, k1⟩ := h1.2 u hu
  obtain ⟨u2, hu2, k2⟩ := h2.2 u1 hu1
  exact ⟨u2, hu2, Kept.trans k1 k2⟩

theorem RestKept.refl (j : Json) : RestKept j j := ⟨Kept.refl _ _, fun _ b hb => ⟨b, hb, BlockKept.refl b⟩⟩

theorem RestKept.trans {a b c : Json} (h1 : RestKept a b) (h2 : RestKept b c) : RestKept a c := by
  refine ⟨Kept.trans h1.1 h2.1, fun v b hb => ?_⟩
  obtain ⟨b1, hb1, k1⟩ := h1.2 v b hb
  obtain ⟨b2, hb2, k2⟩ := h2.2 v b1 hb1
  exact ⟨b2, hb2, BlockKept.trans k1 k2⟩

/-- A change of known members other than the versions. -/
theorem restKept_of_fields {j j' : Json} (h1 : Kept inventoryKeys j j') (h2 : j'.field c!"versions" = j.field c!"versions") : RestKept j j' := by
  refine ⟨h1, fun v b hb => ⟨b, ?_, BlockKept.refl b⟩⟩
  unfold versionBlock at hb ⊢
  rw [h2]
  exact hb

theorem restKept_put {j : Json} (hj : IsInventory j) {k : Str} (v : Json) (hk : k ∈ inventoryKeys) (hv : k ≠ c!"versions") : RestKept j (put k v j) := by
  obtain ⟨d, rfl, _, _⟩ := hj
  refine restKept_of_fields (fun k' hk' => ?_) ?_
  · rw [field_put, if_neg (fun h => by subst h; exact hk' hk)]
  · rw [field_put, if_neg hv]

theorem restKept_within {j : Json} (hj : IsInventory j) {k : Str} (f : Json → Json) (hk : k ∈ inventoryKeys) (hv : k ≠ c!"versions") :
    RestKept j (within k f j) := by
  obtain ⟨d, rfl, _, _⟩ := hj
  refine restKept_of_fields (fun k' hk' => ?_) ?_
  · rw [field_within, if_neg (fun h => by subst h; exact hk' hk)]
  · rw [field_within, if_neg hv]

theorem restKept_need {j : Json} (hj : IsInventory j) {k : Str} (hk : k ∈ inventoryKeys) : RestKept j (need k j) := by
  obtain ⟨d, rfl, _, _⟩ := hj
  refine ⟨fun k' hk' => ?_, fun v b hb => ⟨b, ?_, BlockKept.refl b⟩⟩
  · rw [field_need, if_neg (fun h => by subst h; exact hk' hk)]
  · unfold versionBlock at hb ⊢
    rw [field_need]
    split
    · cases hv : (Json.obj d).field c!"versions" with
      | none => rw [hv] at hb; cases hb
      | some x => rw [hv] at hb; exact hb
    · exact hb

/-- The versions of a document. -/
theorem versions_record {j : Json} (hj : IsInventory j) {vs : Json} (h : j.field c!"versions" = some vs) : IsRecord (fun _ => IsBlock) vs := by
  obtain ⟨d, rfl, _, hd⟩ := hj
  exact (hd _ _ h).2.2.1 rfl

theorem field_within' {j : Json} (hj : IsInventory j) (k k' : Str) (f : Json → Json) :
    (within k f j).field k' = if k = k' then (j.field k').map f else j.field k' := by
  obtain ⟨d, rfl, _, _⟩ := hj
  exact field_within k k' f d

theorem restKept_block {j : Json} (hj : IsInventory j) (v : Str) {f : Json → Json} (hf : ∀ b, IsBlock b → BlockKept b (f b)) : RestKept j (block v f j) := by
  refine ⟨fun k hk => ?_, fun u b hb => ?_⟩
  · unfold block
    rw [field_within' hj, if_neg (fun h => by subst h; exact hk (by decide))]
  · unfold versionBlock block at *
    rw [field_within' hj, if_pos rfl]
    cases hv : j.field c!"versions" with
    | none => rw [hv] at hb; cases hb
    | some vs =>
      obtain ⟨d, rfl, _, hd⟩ := versions_record hj hv
      rw [hv] at hb
      simp only [Option.bind_some, Option.map_some] at hb ⊢
      rw [field_within]
      split
      · rw [hb]
        exact ⟨f b, rfl, hf b (hd _ _ hb)⟩
      · exact ⟨b, hb, BlockKept.refl b⟩

/-- A new version. -/
theorem restKept_newVersion {j : Json} (hj : IsInventory j) {v : Str} (hv : versionBlock j v = none) (b : Json) :
    RestKept j (within c!"versions" (put v b) j) := by
  refine ⟨fun k hk => ?_, fun u x hx => ?_⟩
  · rw [field_within' hj, if_neg (fun h => by subst h; exact hk (by decide))]
  · have hne : v ≠ u := fun h => by rw [h, hx] at hv; cases hv
    unfold versionBlock at *
    rw [field_within' hj, if_pos rfl]
    cases hvs : j.field c!"versions" with
    | none => rw [hvs] at hx; cases hx
    | some vs =>
      obtain ⟨d, rfl, _, hd⟩ := versions_record hj hvs
      rw [hvs] at hx
      simp only [Option.bind_some, Option.map_some] at hx ⊢
      rw [field_put, if_neg hne]
      exact ⟨x, hx, BlockKept.refl x⟩

theorem blockKept_put {b : Json} (hb : IsBlock b) {k : Str} (v : Json) (hk : k ∈ blockKeys) (hu : k ≠ c!"user") : BlockKept b (put k v b) := by
  obtain ⟨d, rfl, _, _⟩ := hb
  refine ⟨fun k' hk' => ?_, fun u hu' => ⟨u, ?_, Kept.refl _ _⟩⟩
  · rw [field_put, if_neg (fun h => by subst h; exact hk' hk)]
  · rw [field_put, if_neg hu]; exact hu'

theorem blockKept_within {b : Json} (hb : IsBlock b) {k : Str} (f : Json → Json) (hk : k ∈ blockKeys) (hu : k ≠ c!"user") :
    BlockKept b (within k f b) := by
  obtain ⟨d, rfl, _, _⟩ := hb
  refine ⟨fun k' hk' => ?_, fun u hu' => ⟨u, ?_, Kept.refl _ _⟩⟩
  · rw [field_within, if_neg (fun h => by subst h; exact hk' hk)]
  · rw [field_within, if_neg hu]; exact hu'

theorem blockKept_need {b : Json} (hb : IsBlock b) {k : Str} (hk : k ∈ blockKeys) : BlockKept b (need k b) := by
  obtain ⟨d, rfl, _, _⟩ := hb
  refine ⟨fun k' hk' => ?_, fun u hu' => ⟨u, ?_, Kept.refl _ _⟩⟩
  · rw [field_need, if_neg (fun h => by subst h; exact hk' hk)]
  · rw [field_need]
    split
    · rw [hu']; rfl
    · exact hu'

theorem blockKept_user {b : Json} (hb : IsBlock b) {k : Str} (x : Json) (hk : k ∈ userKeys) :
    BlockKept b (within c!"user" (put k x) (need c!"user" b)) := by
  have h0 : IsBlock (need c!"user" b) :=
    IsRecord.need hb ⟨fun h => absurd h (by decide), fun _ => isRecord_empty _, fun h => absurd h (by decide)⟩
  refine BlockKept.trans (blockKept_need (k := c!"user") hb (by decide)) ?_
  obtain ⟨d, hd, _, hdd⟩ := h0
  rw [hd]
  refine ⟨fun k' hk' => ?_, fun u hu' => ?_⟩
  · rw [field_within, if_neg (fun h => by subst h; exact hk' (by decide))]
  · rw [field_within, if_pos rfl, hu']
    refine ⟨_, rfl, fun k' hk' => ?_⟩
    obtain ⟨d', rfl, _, _⟩ := (hdd _ _ hu').2.1 rfl
    rw [field_put, if_neg (fun h => by subst h; exact hk' hk)]

/-! ### The name of the next version is new -/

theorem parse_digits {ds : Str} (h : ∀ c ∈ ds, isDigit c = true) {n : Nat} (hp : parseVersionDirectory ('v' :: ds) = .ok n) : n = intOf ds := by
  unfold parseVersionDirectory matchVDigits5 at hp
  have ht : ds.takeWhile isDigit = ds := List.takeWhile_eq_self_iff.mpr h
  simp only [ht] at hp
  split at hp
  · cases hp
  · rename_i ds' hds
    split at hds
    · cases hds
      split at hp
      · cases hp
      · cases hp; rfl
    · cases hds

theorem next_number {d e : Str} {n m : Nat} (hd : parseVersionDirectory d = .ok n) (hn : nextVersionDirectory d = .ok e)
    (he : parseVersionDirectory e = .ok m) : m = n + 1 := by
  obtain ⟨ds, hds, hi⟩ : ∃ ds, matchVDigits d = some ds ∧ n = intOf ds := by
    unfold parseVersionDirectory matchVDigits5 at hd
    unfold matchVDigits
    split at hd
    · cases hd
    · rename_i ds' hds
      split at hds
      · rename_i rest
        dsimp only at hds ⊢
        split at hds
        · rename_i hc
          cases hds
          refine ⟨_, if_pos ⟨hc.1, hc.2.2⟩, ?_⟩
          dsimp only at hd
          split at hd
          · cases hd
          · cases hd; rfl
        · cases hds
      · cases hds
  unfold nextVersionDirectory at hn
  rw [hds] at hn
  dsimp only at hn
  split at hn
  · split at hn
    · cases hn
    · cases hn
      have := parse_digits (ds := '0' :: padStr (d.length - 2) (intOf ds + 1)) (fun c hc => ?_) he
      · rw [this, hi]
        have := intOf_zeros_append 1 (padStr (d.length - 2) (intOf ds + 1))
        simp only [List.replicate, List.cons_append, List.nil_append] at this
        rw [this, intOf_padStr]
      · rcases List.mem_cons.mp hc with rfl | hc
        · decide
        · exact isDigit_ascii (padStr_isDigit hc)
  · cases hn
    have := parse_digits (ds := natStr (intOf ds + 1)) (fun c hc => natStr_isDigit' hc) he
    rw [this, intOf_natStr, hi]

theorem highestLoop_last {vs : List Str} {f : Str → Nat} (hf : ∀ v ∈ vs, parseVersionDirectory v = .ok (f v)) (hs : vs.Pairwise (fun a b => f a ≤ f b)) :
    ∀ {hi : Nat} {u : Option Str} {n : Nat} {last : Option Str}, Inv.highestLoop vs hi u = .ok (n, last) →
      (vs = [] ∧ n = hi ∧ last = u) ∨ ∃ x ∈ vs, last = some x ∧ (∀ v ∈ vs, f v ≤ f x) ∧ f x ≤ n := by
  induction vs with
  | nil => intro hi u n last h; cases h; exact .inl ⟨rfl, rfl, rfl⟩
  | cons v vs ih =>
    intro hi u n last h
    unfold Inv.highestLoop at h
    rw [hf v List.mem_cons_self] at h
    dsimp only at h
    rw [List.pairwise_cons] at hs
    rcases ih (fun x hx => hf x (List.mem_cons_of_mem _ hx)) hs.2 h with ⟨rfl, rfl, rfl⟩ | ⟨x, hx, rfl, hx2, hx3⟩
    · exact .inr ⟨v, List.mem_cons_self, rfl, by simp, by omega⟩
    · refine .inr ⟨x, List.mem_cons_of_mem _ hx, rfl, ?_, hx3⟩
      intro y hy
      rcases List.mem_cons.mp hy with rfl | hy
      · exact hs.1 x hx
      · exact hx2 y hy

theorem parse_pos {d : Str} {n : Nat} (h : parseVersionDirectory d = .ok n) : 0 < n := by
  unfold parseVersionDirectory at h
  split at h
  · cases h
  · dsimp only at h
    split at h
    · cases h
    · cases h; omega

theorem nextVersionDir_new {inv : Inv} {w : Option Nat} {v : Str} (h : inv.nextVersionDir w = .ok v) : Dict.get? inv.versionsD v = none := by
  rw [Dict.get?_eq_none_iff]
  unfold Inv.nextVersionDir at h
  split at h
  · cases h
  · rename_i vs hvs
    obtain ⟨hp, f, hf, hs⟩ := versionDirectories_ok hvs
    split at h
    · cases h
    · rename_i n last hl
      intro hmem
      rw [← hp.mem_iff] at hmem
      rcases highestLoop_last hf hs hl with ⟨rfl, rfl, rfl⟩ | ⟨x, hx, rfl, hx2, hx3⟩
      · cases hmem
      · have h0 := parse_pos (hf x hx)
        rw [if_neg (by omega)] at h
        have := next_number (hf x hx) h (hf v hmem)
        have := hx2 v hmem
        omega

end Doc
end Ocfl
