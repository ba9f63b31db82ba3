import Verif.Model.InventoryJson
import Verif.Py.DictLemmas
import Verif.Proofs.Reorder
import Mathlib.Data.List.Perm.Basic
import Mathlib.Tactic.Conv

/-! # Writing an inventory as JSON and reading it back -/

namespace Ocfl
open Spec

/-- Insert into a dictionary ordered by key. -/
def Dict.insertSorted {α : Type} (p : Str × α) : Dict Str α → Dict Str α
  | [] => [p]
  | q :: rest => if strLe p.1 q.1 then p :: q :: rest else q :: Dict.insertSorted p rest

/-- The dictionary in the order of its keys. -/
def Dict.sorted {α : Type} : Dict Str α → Dict Str α
  | [] => []
  | p :: d => Dict.insertSorted p (Dict.sorted d)

namespace Dict
variable {α β : Type}

theorem insertSorted_perm (p : Str × α) (d : Dict Str α) : (insertSorted p d).Perm (p :: d) := by
  induction d with
  | nil => exact .refl _
  | cons q d ih =>
    unfold insertSorted
    split
    · exact .refl _
    · exact (ih.cons q).trans (.swap p q d)

theorem sorted_perm (d : Dict Str α) : (sorted d).Perm d := by
  induction d with
  | nil => exact .refl _
  | cons p d ih => exact (insertSorted_perm p _).trans (ih.cons p)

theorem NK_perm {d d' : Dict Str α} (h : d.Perm d') : NK d ↔ NK d' := (h.map Prod.fst).nodup_iff

theorem NK_sorted {d : Dict Str α} : NK (sorted d) ↔ NK d := NK_perm (sorted_perm d)

theorem get?_sorted {d : Dict Str α} (h : NK d) (k : Str) : get? (sorted d) k = get? d k :=
  get?_perm (sorted_perm d) (NK_sorted.mpr h) k

theorem insertSorted_map (f : Str × α → Str × β) (hf : ∀ p, (f p).1 = p.1) (p : Str × α) (d : Dict Str α) :
    insertSorted (f p) (d.map f) = (insertSorted p d).map f := by
  induction d with
  | nil => rfl
  | cons q d ih =>
    rw [List.map_cons]
    unfold insertSorted
    rw [hf, hf]
    split
    · rfl
    · rw [List.map_cons, ih]

theorem sorted_map (f : Str × α → Str × β) (hf : ∀ p, (f p).1 = p.1) (d : Dict Str α) :
    sorted (d.map f) = (sorted d).map f := by
  induction d with
  | nil => rfl
  | cons p d ih => rw [List.map_cons]; unfold sorted; rw [ih, insertSorted_map f hf]

theorem sorted_mapVal (f : Str × α → β) (d : Dict Str α) :
    sorted (d.map (fun e => (e.1, f e))) = (sorted d).map (fun e => (e.1, f e)) :=
  sorted_map (fun e => (e.1, f e)) (fun _ => rfl) d

end Dict

namespace Json

theorem insertKey_eq (p : Str × Json) (d : List (Str × Json)) : insertKey p d = Dict.insertSorted p d := by
  induction d with
  | nil => rfl
  | cons q d ih => unfold insertKey Dict.insertSorted; rw [ih]

theorem sortKeysObj_eq (d : List (Str × Json)) : sortKeysObj d = Dict.sorted (d.map (fun e => (e.1, e.2.sortKeys))) := by
  induction d with
  | nil => unfold sortKeysObj; rfl
  | cons p d ih =>
    obtain ⟨k, x⟩ := p
    unfold sortKeysObj
    rw [ih, insertKey_eq]
    rfl

theorem sortKeysList_eq (l : List Json) : sortKeysList l = l.map sortKeys := by
  induction l with
  | nil => unfold sortKeysList; rfl
  | cons x l ih => unfold sortKeysList; rw [ih]; rfl

theorem sortKeys_obj (d : List (Str × Json)) : (Json.obj d).sortKeys = .obj (Dict.sorted (d.map (fun e => (e.1, e.2.sortKeys)))) := by
  rw [← sortKeysObj_eq]
  unfold sortKeys
  rfl

theorem sortKeys_arr (l : List Json) : (Json.arr l).sortKeys = .arr (l.map sortKeys) := by
  rw [← sortKeysList_eq]
  unfold sortKeys
  rfl

theorem sortKeys_str (s : Str) : (Json.str s).sortKeys = .str s := by unfold sortKeys; rfl

/-! ## Objects with optional members -/

/-- The members that are there. -/
def optFields (l : List (Str × Option Json)) : List (Str × Json) := l.flatMap (fun e => optField e.1 e.2)

theorem keys_optFields (l : List (Str × Option Json)) : (Dict.keys (optFields l)).Sublist (l.map Prod.fst) := by
  induction l with
  | nil => exact .slnil
  | cons e l ih =>
    obtain ⟨k, v⟩ := e
    unfold optFields at ih ⊢
    rw [List.flatMap_cons]
    cases v with
    | none => exact ih.cons k
    | some j => exact ih.cons_cons k

theorem NK_optFields {l : List (Str × Option Json)} (h : Dict.NK l) : Dict.NK (optFields l) := (keys_optFields l).nodup h

theorem get?_optFields {l : List (Str × Option Json)} (h : Dict.NK l) (k : Str) :
    Dict.get? (optFields l) k = (Dict.get? l k).join := by
  induction l with
  | nil => rfl
  | cons e l ih =>
    obtain ⟨k', v⟩ := e
    obtain ⟨h1, h2⟩ := Dict.NK_cons.mp h
    have ih := ih h2
    unfold optFields at ih ⊢
    rw [List.flatMap_cons, Dict.get?_append, ih, Dict.get?_cons]
    have hn : k' = k → Dict.get? l k = none := by
      rintro rfl
      exact (Dict.get?_eq_none_iff _ _).mpr h1
    cases v with
    | none =>
      show (none : Option Json).or _ = _
      split
      · rename_i he; rw [hn he]; rfl
      · simp
    | some j =>
      show (Dict.get? [(k', j)] k).or _ = _
      rw [Dict.get?_cons]
      split
      · rfl
      · simp

theorem sortKeys_optFields (l : List (Str × Option Json)) (h : Dict.NK l) (k : Str) :
    (Json.obj (optFields l)).sortKeys.field k = (Dict.get? l k).join.map sortKeys := by
  rw [sortKeys_obj]
  show Dict.get? (Dict.sorted _) k = _
  rw [Dict.get?_sorted (Dict.NK_map_val (NK_optFields h) (fun p => p.2.sortKeys)), Dict.get?_map_val, get?_optFields h]

end Json

/-! ## The order in which an inventory is written -/

/-- The block with its state in the order in which it is written. -/
def VBlock.sorted (b : VBlock) : VBlock := { b with state := b.state.map Dict.sorted }

/-- The inventory with everything in the order in which it is written. -/
def Inv.sorted (inv : Inv) : Inv :=
  { inv with
    manifest := inv.manifest.map Dict.sorted
    versions := inv.versions.map (fun d => Dict.sorted (d.map (fun e => (e.1, e.2.sorted))))
    fixity := inv.fixity.map (fun d => Dict.sorted (d.map (fun e => (e.1, Dict.sorted e.2)))) }

theorem filterMap_str (l : List Str) : (l.map Json.str).filterMap Json.str? = l := by
  induction l with
  | nil => rfl
  | cons a l ih => show a :: List.filterMap Json.str? (l.map Json.str) = _; rw [ih]

theorem DigestMap.sortKeys_toJson (m : DigestMap) : (DigestMap.toJson m).sortKeys = DigestMap.toJson (Dict.sorted m) := by
  unfold DigestMap.toJson
  rw [Json.sortKeys_obj, List.map_map]
  have : ((fun e : Str × Json => (e.1, e.2.sortKeys)) ∘ fun e : Str × List Str => (e.1, Json.arr (e.2.map .str)))
      = fun e => (e.1, Json.arr (e.2.map .str)) := by
    funext e
    simp only [Function.comp_def, Json.sortKeys_arr, List.map_map, Json.sortKeys_str]
  rw [this, Dict.sorted_mapVal (fun e : Str × List Str => Json.arr (e.2.map .str))]

theorem DigestMap.ofJson_toJson (m : DigestMap) : DigestMap.ofJson (DigestMap.toJson m) = m := by
  unfold DigestMap.toJson DigestMap.ofJson
  simp only [Json.obj?, Option.getD_some, List.map_map]
  conv_rhs => rw [← List.map_id m]
  apply List.map_congr_left
  intro e _
  simp only [Function.comp, Json.arr?, Option.getD_some, filterMap_str]
  rfl

theorem blocksJson_sortKeys {α : Type} (f : α → Json) (g : α → α) (hf : ∀ a, (f a).sortKeys = f (g a)) (d : Dict Str α) :
    (blocksJson f d).sortKeys = blocksJson f (Dict.sorted (d.map (fun e => (e.1, g e.2)))) := by
  unfold blocksJson
  rw [Json.sortKeys_obj, List.map_map, ← Dict.sorted_mapVal (fun e => f e.2), List.map_map]
  congr 2
  apply List.map_congr_left
  intro e _
  simp only [Function.comp, hf]

theorem blocksOf_blocksJson {α : Type} (f : α → Json) (g : Json → α) (d : Dict Str α) (h : ∀ a, g (f a) = a) :
    blocksOf g (blocksJson f d) = d := by
  unfold blocksOf blocksJson
  simp only [Json.obj?, Option.getD_some, List.map_map]
  conv_rhs => rw [← List.map_id d]
  apply List.map_congr_left
  intro e _
  simp only [Function.comp, h]
  rfl

/-! ### Users -/

theorem User.ofJson_sortKeys (u : User) : User.ofJson (User.toJson u).sortKeys = u := by
  have he : User.toJson u = .obj (Json.optFields [(c!"name", u.name.map .str), (c!"address", u.address.map .str)]) := by
    unfold User.toJson Json.optFields
    simp only [List.flatMap_cons, List.flatMap_nil, List.append_nil]
  have hk : Dict.NK [(c!"name", u.name.map Json.str), (c!"address", u.address.map Json.str)] := by
    simp only [Dict.NK, Dict.keys, List.map_cons, List.map_nil]; decide
  unfold User.ofJson
  rw [he, Json.sortKeys_optFields _ hk, Json.sortKeys_optFields _ hk]
  obtain ⟨n, a⟩ := u
  cases n <;> cases a <;> simp [Dict.get?, Json.sortKeys_str, Json.str?]

/-! ### Version blocks -/

/-- The members of a version block. -/
def VBlock.fields (b : VBlock) : List (Str × Option Json) :=
  [(c!"created", b.created.map .str), (c!"message", b.message.map .str), (c!"user", b.user.map User.toJson),
    (c!"state", b.state.map DigestMap.toJson)]

theorem VBlock.fields_NK (b : VBlock) : Dict.NK b.fields := by
  simp only [VBlock.fields, Dict.NK, List.map_cons, List.map_nil]; decide

theorem VBlock.toJson_eq (b : VBlock) : b.toJson = .obj (Json.optFields b.fields) := by
  unfold VBlock.toJson Json.optFields VBlock.fields
  simp only [List.flatMap_cons, List.flatMap_nil, List.append_nil, List.append_assoc]

theorem VBlock.ofJson_sortKeys (b : VBlock) : VBlock.ofJson b.toJson.sortKeys = b.sorted := by
  rw [VBlock.toJson_eq]
  unfold VBlock.ofJson
  simp only [Json.sortKeys_optFields _ b.fields_NK]
  obtain ⟨c, m, u, st⟩ := b
  unfold VBlock.sorted
  simp only [VBlock.fields, Dict.get?]
  congr 1
  · cases c <;> simp [Json.sortKeys_str, Json.str?]
  · cases m <;> simp [Json.sortKeys_str, Json.str?]
  · cases u <;> simp [User.ofJson_sortKeys]
  · cases st <;> simp [DigestMap.sortKeys_toJson, DigestMap.ofJson_toJson]

theorem blocksOf_sortKeys {α : Type} (f : α → Json) (g : Json → α) (h : α → α) (hfg : ∀ a, g (f a).sortKeys = h a) (d : Dict Str α) :
    blocksOf g (blocksJson f d).sortKeys = Dict.sorted (d.map (fun e => (e.1, h e.2))) := by
  unfold blocksOf blocksJson
  rw [Json.sortKeys_obj]
  simp only [Json.obj?, Option.getD_some]
  rw [← Dict.sorted_mapVal (fun e => g e.2), List.map_map, List.map_map]
  congr 1
  apply List.map_congr_left
  intro e _
  simp only [Function.comp, hfg]

/-! ### Inventories -/

/-- The members of an inventory. -/
def Inv.fields (inv : Inv) : List (Str × Option Json) :=
  [(c!"id", inv.id.map .str), (c!"type", inv.type.map .str), (c!"digestAlgorithm", inv.digestAlgorithm.map .str),
    (c!"contentDirectory", inv.contentDirectory.map .str), (c!"head", inv.head.map .str),
    (c!"manifest", inv.manifest.map DigestMap.toJson), (c!"versions", inv.versions.map (blocksJson VBlock.toJson)),
    (c!"fixity", inv.fixity.map (blocksJson DigestMap.toJson))]

theorem Inv.fields_NK (inv : Inv) : Dict.NK inv.fields := by
  simp only [Inv.fields, Dict.NK, List.map_cons, List.map_nil]; decide

theorem Inv.toJson_eq (inv : Inv) : inv.toJson = .obj (Json.optFields inv.fields) := by
  unfold Inv.toJson Json.optFields Inv.fields
  simp only [List.flatMap_cons, List.flatMap_nil, List.append_nil, List.append_assoc]

/-- Reading back what is written gives the inventory in the order of its keys. -/
theorem Inv.ofJson_sortKeys (inv : Inv) : Inv.ofJson inv.toJson.sortKeys = inv.sorted := by
  rw [Inv.toJson_eq]
  unfold Inv.ofJson
  simp only [Json.sortKeys_optFields _ inv.fields_NK]
  obtain ⟨a, b, c, d, e, f, g, h⟩ := inv
  unfold Inv.sorted
  simp only [Inv.fields, Dict.get?]
  congr 1
  · cases a <;> simp [Json.sortKeys_str, Json.str?]
  · cases b <;> simp [Json.sortKeys_str, Json.str?]
  · cases c <;> simp [Json.sortKeys_str, Json.str?]
  · cases d <;> simp [Json.sortKeys_str, Json.str?]
  · cases e <;> simp [Json.sortKeys_str, Json.str?]
  · cases f <;> simp [DigestMap.sortKeys_toJson, DigestMap.ofJson_toJson]
  · cases g <;> simp [blocksOf_sortKeys _ _ _ VBlock.ofJson_sortKeys]
  · cases h <;> simp [blocksOf_sortKeys DigestMap.toJson DigestMap.ofJson Dict.sorted (fun a => by rw [DigestMap.sortKeys_toJson, DigestMap.ofJson_toJson])]

/-! ### Distinct keys -/

theorem DigestMap.writable_toJson {m : DigestMap} (h : Dict.NK m) : (DigestMap.toJson m).Writable := by
  refine .obj (Dict.NK_map_val h (fun e => Json.arr (e.2.map .str))) ?_
  intro p hp
  obtain ⟨e, _, rfl⟩ := List.mem_map.mp hp
  refine .arr ?_
  intro x hx
  obtain ⟨s, _, rfl⟩ := List.mem_map.mp hx
  exact .str

theorem blocksJson_writable {α : Type} {f : α → Json} {d : Dict Str α} (h : Dict.NK d) (hf : ∀ e ∈ d, (f e.2).Writable) :
    (blocksJson f d).Writable := by
  refine .obj (Dict.NK_map_val h (fun e => f e.2)) ?_
  intro p hp
  obtain ⟨e, he, rfl⟩ := List.mem_map.mp hp
  exact hf e he

theorem Json.optFields_writable {l : List (Str × Option Json)} (h : Dict.NK l) (hv : ∀ k j, (k, some j) ∈ l → j.Writable) :
    (Json.obj (Json.optFields l)).Writable := by
  refine .obj (Json.NK_optFields h) ?_
  intro p hp
  obtain ⟨⟨k, v⟩, he, hpe⟩ := List.mem_flatMap.mp hp
  cases v with
  | none => simp [Json.optField] at hpe
  | some j =>
    simp only [Json.optField, List.mem_singleton] at hpe
    subst hpe
    exact hv k j he

theorem User.writable_toJson (u : User) : u.toJson.Writable := by
  have he : User.toJson u = .obj (Json.optFields [(c!"name", u.name.map .str), (c!"address", u.address.map .str)]) := by
    unfold User.toJson Json.optFields
    simp only [List.flatMap_cons, List.flatMap_nil, List.append_nil]
  rw [he]
  refine Json.optFields_writable ?_ ?_
  · simp only [Dict.NK, List.map_cons, List.map_nil]; decide
  · obtain ⟨n, a⟩ := u
    intro k j hkj
    cases n <;> cases a <;> simp at hkj
    · obtain ⟨_, rfl⟩ := hkj; exact .str
    · obtain ⟨_, rfl⟩ := hkj; exact .str
    · rcases hkj with ⟨_, rfl⟩ | ⟨_, rfl⟩ <;> exact .str

/-- Every block of the version has distinct keys. -/
def VBlock.Keys (b : VBlock) : Prop := ∀ st, b.state = some st → Dict.NK st

/-- Every block of the inventory has distinct keys. -/
structure Inv.Keys (inv : Inv) : Prop where
  manifest : ∀ m, inv.manifest = some m → Dict.NK m
  versions : ∀ vs, inv.versions = some vs → Dict.NK vs ∧ ∀ e ∈ vs, e.2.Keys
  fixity : ∀ fx, inv.fixity = some fx → Dict.NK fx ∧ ∀ e ∈ fx, Dict.NK e.2

theorem VBlock.writable_toJson {b : VBlock} (h : b.Keys) : b.toJson.Writable := by
  rw [VBlock.toJson_eq]
  refine Json.optFields_writable b.fields_NK ?_
  intro k j hkj
  simp only [VBlock.fields, List.mem_cons, Prod.mk.injEq, List.not_mem_nil, or_false] at hkj
  rcases hkj with ⟨_, h1⟩ | ⟨_, h1⟩ | ⟨_, h1⟩ | ⟨_, h1⟩ <;> obtain ⟨x, hx, rfl⟩ := Option.map_eq_some_iff.mp h1.symm
  · exact .str
  · exact .str
  · exact x.writable_toJson
  · exact DigestMap.writable_toJson (h x hx)

theorem Inv.writable_toJson {inv : Inv} (h : inv.Keys) : inv.toJson.Writable := by
  rw [Inv.toJson_eq]
  refine Json.optFields_writable inv.fields_NK ?_
  intro k j hkj
  simp only [Inv.fields, List.mem_cons, Prod.mk.injEq, List.not_mem_nil, or_false] at hkj
  rcases hkj with ⟨_, h1⟩ | ⟨_, h1⟩ | ⟨_, h1⟩ | ⟨_, h1⟩ | ⟨_, h1⟩ | ⟨_, h1⟩ | ⟨_, h1⟩ | ⟨_, h1⟩ <;>
    obtain ⟨x, hx, rfl⟩ := Option.map_eq_some_iff.mp h1.symm
  · exact .str
  · exact .str
  · exact .str
  · exact .str
  · exact .str
  · exact DigestMap.writable_toJson (h.manifest x hx)
  · exact blocksJson_writable (h.versions x hx).1 (fun e he => VBlock.writable_toJson ((h.versions x hx).2 e he))
  · exact blocksJson_writable (h.fixity x hx).1 (fun e he => DigestMap.writable_toJson ((h.fixity x hx).2 e he))

namespace Json

theorem Writable.wf {j : Json} (h : j.Writable) : j.WF := by
  induction h with
  | null => exact .null
  | bool => exact .bool
  | num => exact .num
  | str => exact .str
  | arr _ ih => exact .arr ih
  | obj h _ ih => exact .obj h ih

theorem Writable.sortKeys {j : Json} (h : j.Writable) : j.sortKeys.Writable := by
  induction h with
  | null => unfold Json.sortKeys; exact .null
  | bool => unfold Json.sortKeys; exact .bool
  | num => unfold Json.sortKeys; exact .num
  | str => unfold Json.sortKeys; exact .str
  | arr _ ih =>
    rw [sortKeys_arr]
    refine .arr ?_
    intro x hx
    obtain ⟨y, hy, rfl⟩ := List.mem_map.mp hx
    exact ih y hy
  | obj h _ ih =>
    rw [sortKeys_obj]
    refine .obj (Dict.NK_sorted.mpr (Dict.NK_map_val h (fun e => e.2.sortKeys))) ?_
    intro p hp
    obtain ⟨e, he, rfl⟩ := List.mem_map.mp ((Dict.sorted_perm _).mem_iff.mp hp)
    exact ih e he

theorem reorder_values {f : Json → Json} {d : List (Str × Json)} (h : ∀ e ∈ d, Reorder e.2 (f e.2)) :
    ∀ a, Reorder (.obj (a ++ d)) (.obj (a ++ d.map (fun e => (e.1, f e.2)))) := by
  induction d with
  | nil => exact fun a => .refl
  | cons e d ih =>
    intro a
    have h1 : Reorder (.obj (a ++ e :: d)) (.obj (a ++ (e.1, f e.2) :: d)) := .value (k := e.1) (h e (by simp))
    have h2 := ih (fun x hx => h x (by simp [hx])) (a ++ [(e.1, f e.2)])
    rw [List.append_assoc, List.append_assoc] at h2
    exact h1.trans h2

theorem reorder_elements {f : Json → Json} {d : List Json} (h : ∀ e ∈ d, Reorder e (f e)) :
    ∀ a, Reorder (.arr (a ++ d)) (.arr (a ++ d.map f)) := by
  induction d with
  | nil => exact fun a => .refl
  | cons e d ih =>
    intro a
    have h1 : Reorder (.arr (a ++ e :: d)) (.arr (a ++ f e :: d)) := .element (h e (by simp))
    have h2 := ih (fun x hx => h x (by simp [hx])) (a ++ [f e])
    rw [List.append_assoc, List.append_assoc] at h2
    exact h1.trans h2

/-- What is written is the same document up to the order of members. -/
theorem reorder_sortKeys {j : Json} (h : j.WF) : Reorder j j.sortKeys := by
  induction h with
  | null => unfold Json.sortKeys; exact .refl
  | bool => unfold Json.sortKeys; exact .refl
  | num => unfold Json.sortKeys; exact .refl
  | str => unfold Json.sortKeys; exact .refl
  | arr _ ih =>
    rw [sortKeys_arr]
    exact reorder_elements (f := Json.sortKeys) ih []
  | obj _ _ ih =>
    rw [sortKeys_obj]
    exact (reorder_values (f := Json.sortKeys) ih []).trans (.members (Dict.sorted_perm _).symm)

end Json
end Ocfl
