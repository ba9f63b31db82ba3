import Verif.Spec.Repository
import Verif.Proofs.Session
import Verif.Props.StoreHistory
import Verif.Props.LibraryValid

/-!
# Storage roots with objects that were made with the commands
-/

namespace Ocfl

open Spec FS Prog Store

/-- The layout is registered under the name that it writes, and is not the tuple tree. -/
def PlainLayout (reg : Dict Str LayoutObj) (name : Str) (l0 : LayoutObj) : Prop :=
  getLayout reg name = .ok l0 ∧ (∃ l1, Dict.get? reg l0.name = some l1 ∧ l1.name = l0.name) ∧ ∀ n, l0 ≠ .tupleTree n

/-- The name says what kind of layout it is. -/
theorem LayoutObj.kind_of_name {l l0 : LayoutObj} (h : l0.name = l.name) :
    ((∀ n, l0 ≠ .tupleTree n) → ∀ n, l ≠ .tupleTree n) ∧ (l0.config = none → l.config = none) := by
  cases l0 <;> cases l <;> first | (simp [LayoutObj.name] at h; done) | exact ⟨fun h n => by simp_all, by simp [LayoutObj.config]⟩

theorem getStorageRoot_iff {a : RootCli.Common} {root : Str} : RootCli.getStorageRoot a = .ok root ↔ RootIs a root := by
  obtain ⟨r, l, x, q, o⟩ := a
  unfold RootCli.getStorageRoot RootIs
  cases r with
  | none => cases o <;> simp
  | some r =>
    cases r with
    | nil => cases o <;> simp <;> intro h <;> subst h <;> simp
    | cons c t =>
      simp
      rintro rfl
      simp

theorem create_command {E : Env} {reg : Dict Str LayoutObj} {enc : Str → Str} {a : RootCli.Common} {root : Str} (hroot : RootIs a root) {spec : Str}
    {params : Option Str} {s s' : FS} {out : RootCli.Output} (h : RootCli.doStoreOperation E reg enc a (.create spec params) s = (s', .ok out)) :
    out = .created root ∧ ∃ r', run (initializeRoot E reg (RootCli.store a root) (some spec) params) s = (s', .ok r') := by
  unfold RootCli.doStoreOperation at h
  rw [getStorageRoot_iff.mpr hroot] at h
  dsimp only at h
  split at h
  · cases (Prod.mk.inj h).2
  · rename_i s1 r' hr
    obtain ⟨rfl, h⟩ := Prod.mk.inj h
    cases h
    exact ⟨rfl, r', hr⟩

theorem add_command {E : Env} {reg : Dict Str LayoutObj} {enc : Str → Str} {a : RootCli.Common} {root : Str} (hroot : RootIs a root) {src : Str}
    {s s' : FS} {out : RootCli.Output} (h : RootCli.doStoreOperation E reg enc a (.add (some src)) s = (s', .ok out)) :
    ∃ i path, out = .added i path ∧ run (Store.add E reg enc (RootCli.store a root) src) s = (s', .ok (i, path)) := by
  cases src with
  | nil =>
    unfold RootCli.doStoreOperation at h
    rw [getStorageRoot_iff.mpr hroot] at h
    cases (Prod.mk.inj h).2
  | cons c src =>
    unfold RootCli.doStoreOperation at h
    rw [getStorageRoot_iff.mpr hroot] at h
    dsimp only at h
    split at h
    · cases (Prod.mk.inj h).2
    · rename_i s1 i path hr
      obtain ⟨rfl, h⟩ := Prod.mk.inj h
      cases h
      exact ⟨i, path, rfl, hr⟩

theorem sound_id {E : Env} (hlib : E.lib.Lawful) {s : FS} {base : Path} {dv : Str} {trees : List Tree} {recs : List Rec} {rl : Rec} {id : Str}
    (h : Sound E s base dv trees recs) (hlast : recs.getLast? = some rl) (hid : rl.inv.id = some id) :
    ∃ inv, parseInventory E base s = .ok inv ∧ inv.id = some id := by
  obtain ⟨rl', hlast', hdl, hroot, _, _⟩ := h.last
  rw [hlast] at hlast'
  cases hlast'
  exact ⟨_, parse_written hlib hdl.parsed hroot.1, hid⟩

theorem session_wf {B : Bagit} {E : Env} (hE : Libraries E) (hcwd : ∀ w ∈ E.cwd, SafeName w) {base : Path} {id spec : Str} {trees : List Tree}
    {s : FS} (h : Session B E base id spec trees s) (hno : NoCollision E.raw (InTrees trees)) (hlen : trees.length ≤ 99999) : s.WF := by
  obtain ⟨_, _, hs, _⟩ := session_sound hE hcwd h hno hlen
  exact hs.wf

/-- What `ocfl-object.py update` does outside of the object. -/
theorem update_outside {B : Bagit} {E : Env} (hE : Libraries E) {now : Str} {c : ObjectCli.Common} {objdir : Str} {a : ObjectCli.About}
    {srcdir srcbag : Option Str} {dir : Path} {bagId : Option Str} {s s' : FS} {out : ObjectCli.Output} (hw : s.WF) (clock : Timestamp now)
    (source : Source B E s a srcdir srcbag dir bagId)
    (done : ObjectCli.doObjectOperation B E now c (.update objdir a srcdir srcbag) s = (s', .ok out)) :
    ∀ q, ¬ absComps E.cwd objdir <+: q → look s' q = look s q := by
  obtain ⟨block, src, inv, _, _, _, hr⟩ := update_done clock source done
  have hv := visits_run (addVersionWithContent E (ObjectCli.object c) objdir (some src) (some block) false) s
  rw [hr] at hv
  intro q hq
  rcases C23_update hE.json hE.hash hw hv with rfl | ⟨_, _, _, _, _, _, ho⟩
  · rfl
  · exact ho.outside hq

section
variable {B : Bagit} {E : Env} {reg : Dict Str LayoutObj} {enc : Str → Str} {root name : Str} {items : List Item} {s : FS}

/-- The objects as `StoreHistory` has them. -/
def placesOf (items : List Item) : List (List Str × Str) := items.map (fun i => (i.place, i.id))

/-- What holds of storage roots that were made with the commands. -/
structure RepositorySound (B : Bagit) (E : Env) (reg : Dict Str LayoutObj) (enc : Str → Str) (root spec : Str) (l : LayoutObj)
    (items : List Item) (s : FS) : Prop where
  store : StoreHistory E reg enc root spec l (placesOf items) s
  path : ∀ i ∈ items, i.path = joinWith '/' i.place
  object : ∀ i ∈ items, Session B E (absComps E.cwd root ++ i.place) i.id i.spec i.trees s
  later : ∀ i ∈ items, i.spec = c!"1.1" ∨ i.trees.length ≤ 2

theorem repository_sound (hE : Libraries E) (hraw : Spec.HexDigests E.raw) (hcwd : ∀ w ∈ E.cwd, SafeName w)
    (hgood : ∀ n l, getLayout reg n = .ok l → GoodParams E.raw l) (henc : GoodEncoder enc) (hdot : ∀ i, '.' ∉ enc i) {l0 : LayoutObj}
    (hname : PlainLayout reg name l0) (h : Repository B E reg enc root name items s) (hno : ∀ i ∈ items, NoCollision E.raw (InTrees i.trees))
    (hlen : ∀ i ∈ items, i.trees.length ≤ 99999) :
    ∃ spec l, l0.name = l.name ∧ RepositorySound B E reg enc root spec l items s := by
  obtain ⟨hget, hreg0, htree⟩ := hname
  induction h with
  | @create s s' a spec params out wf root_eq layout done =>
    obtain ⟨_, r', hr⟩ := create_command root_eq done
    rcases initialize_total hE.json hE.word hraw hcwd wf hgood (RootCli.store a root) (by intro l h; cases h) (some spec) params with
      ⟨e, he⟩ | ⟨s2, r2, spec', h1, h2, h3, h4, h5, _, h6, h7, h8⟩
    · rw [hr] at he; cases (Prod.mk.inj he).2
    · rw [hr] at h1
      obtain ⟨rfl, h1⟩ := Prod.mk.inj h1
      cases h1
      cases hl : r'.layout with
      | none =>
        have := (h8.mp hl).2
        rw [show (RootCli.store a root).layoutName = a.layout from rfl, layout] at this
        cases this
      | some l =>
        obtain ⟨n, l1, k1, k2, k3⟩ := h7 l hl rfl
        rw [show (RootCli.store a root).layoutName = a.layout from rfl, layout] at k1
        cases k1
        rw [hget] at k2
        cases k2
        exact ⟨spec', l, k3, .made wf rfl rfl hr hl h4, by simp, by simp, by simp⟩
  | @elsewhere items s s' before wf same ih =>
    obtain ⟨spec, l, h1, h2⟩ := ih hno hlen
    refine ⟨spec, l, h1, .elsewhere h2.store wf same, h2.path, fun i hi => ?_, h2.later⟩
    exact .elsewhere (h2.object i hi) wf (fun q hq => same q ((List.prefix_append _ _).trans hq))
  | @add items s s' a src path id i spec trees before root_eq object later free done ih =>
    obtain ⟨rspec, l, h1, h2⟩ := ih (fun i hi => hno i (by simp [hi])) (fun i hi => hlen i (by simp [hi]))
    have hno' := hno ⟨path, id, spec, trees⟩ (by simp)
    have hlen' := hlen ⟨path, id, spec, trees⟩ (by simp)
    obtain ⟨i', path', e, hadd⟩ := add_command root_eq done
    cases e
    have hreg : ∃ l0, Dict.get? reg l.name = some l0 ∧ l0.name = l.name := by rw [← h1]; exact hreg0
    have hs := store_sound hE.json hE.word hraw hcwd hgood henc hdot hreg h2.store
    have hb := C54_layouts hraw henc hdot hgood (r := RootCli.store a root) (by intro l h; cases h) hs.wf
    obtain ⟨r', l', ws, j, k1, k2, k3, k4, k5, k6, k7, _, hsrc, hc⟩ := add_copied hE.json hs.wf hb hadd
    obtain ⟨recs, rl, hsound, hlast, hid⟩ := session_sound hE hcwd object hno' hlen'
    have hi : i = id := by
      obtain ⟨inv, p1, p2⟩ := sound_id hE.json hsound hlast hid
      obtain ⟨inv', p3, p4⟩ := add_parsed hadd
      rw [p1] at p3
      cases p3
      rw [p2] at p4
      exact (Option.some.inj p4).symm
    subst hi
    have hlk := LayoutObj.kind_of_name h1
    obtain ⟨ws', k8, k9⟩ := C78_place hE hraw hcwd hgood henc hdot hreg h2.store (hlk.1 htree) (r := RootCli.store a root) rfl rfl hadd free.1
      (fun _ => free.2)
    have e := joinWith_inj' k4.2.1 k8.2.1 (by rw [← k4.2.2, ← k8.2.2])
    subst e
    have hplace : (Item.mk path i spec trees).place = ws := by
      unfold Item.place
      dsimp only
      rw [k4.2.2, splitOn_joinWith k4.1 (fun w hw => (k4.2.1 w hw).2.2.2)]
    have hv := (C74 hE hcwd (session_history object) hno' hlen' (cfg := {}) rfl).mpr (by
      rcases later with rfl | hl
      · left
        show look s (absComps E.cwd src ++ [c!"0=ocfl_object_" ++ c!"1.1"]) ≠ none
        rw [hsound.declared]
      · exact .inr hl)
    refine ⟨rspec, l, h1, ?_, ?_, ?_, ?_⟩
    · unfold placesOf
      rw [List.map_append, List.map_singleton, hplace]
      rw [k4.2.2] at hadd
      exact .add h2.store rfl rfl ((C73 hE rfl hs.wf).mp hv).2 (C77_full hE hcwd (session_history object) hno' hlen' rfl hv) hadd k4.2.1 k9
    · intro x hx
      rcases List.mem_append.mp hx with hx | hx
      · exact h2.path x hx
      · rw [List.mem_singleton.mp hx, hplace]; exact k4.2.2
    · intro x hx
      rcases List.mem_append.mp hx with hx | hx
      · refine .elsewhere (h2.object x hx) hc.wf ?_
        rintro q ⟨t, rfl⟩
        have hm : (x.place, x.id) ∈ placesOf items := List.mem_map.mpr ⟨x, hx, rfl⟩
        refine hc.others hs.wf ?_ (fun hp => ?_) t
        · rw [(hs.objects _ hm).dir]; simp
        · exact k9.apart _ hm ((List.prefix_append_right_inj _).mp hp)
      · rw [List.mem_singleton.mp hx, hplace]
        exact .copied object hc.wf (hc.sameFiles hs.wf hsrc)
    · intro x hx
      rcases List.mem_append.mp hx with hx | hx
      · exact h2.later x hx
      · rw [List.mem_singleton.mp hx]; exact later
  | @update front back item s s' now c objdir a srcdir srcbag dir bagId out before place later digest clock source names done ih =>
    have hno1 := hno { item with trees := item.trees ++ [FileBelow s dir] } (by simp)
    have hlen1 := hlen { item with trees := item.trees ++ [FileBelow s dir] } (by simp)
    obtain ⟨rspec, l, h1, h2⟩ := ih
      (fun i hi => by
        rcases List.mem_append.mp hi with hi | hi
        · exact hno i (by simp [hi])
        · rcases List.mem_cons.mp hi with rfl | hi
          · exact NoCollision.mono hno1 (fun b hb => InTrees.append hb)
          · exact hno i (by simp [hi]))
      (fun i hi => by
        rcases List.mem_append.mp hi with hi | hi
        · exact hlen i (by simp [hi])
        · rcases List.mem_cons.mp hi with rfl | hi
          · simp at hlen1; omega
          · exact hlen i (by simp [hi]))
    have hreg : ∃ l0, Dict.get? reg l.name = some l0 ∧ l0.name = l.name := by rw [← h1]; exact hreg0
    have hs := store_sound hE.json hE.word hraw hcwd hgood henc hdot hreg h2.store
    have hold := h2.object item (by simp)
    rw [← place] at hold
    have hnew : Session B E (absComps E.cwd objdir) item.id item.spec (item.trees ++ [FileBelow s dir]) s' :=
      .update hold digest clock source names done
    obtain ⟨recs, rl, hsound, hlast, hid⟩ := session_sound hE hcwd hnew hno1 hlen1
    have hframe := update_outside hE hs.wf clock source done
    rw [place] at hframe
    have hlater : item.spec = c!"1.1" ∨ (item.trees ++ [FileBelow s dir]).length ≤ 2 := by
      rcases later with h | h
      · exact .inl h
      · right; simp; omega
    have heq : placesOf (front ++ { item with trees := item.trees ++ [FileBelow s dir] } :: back) = placesOf (front ++ item :: back) := by
      unfold placesOf
      rw [List.map_append, List.map_append, List.map_cons, List.map_cons]
      rfl
    have hother : ∀ i, i ∈ front ∨ i ∈ back → Session B E (absComps E.cwd root ++ i.place) i.id i.spec i.trees s' := by
      intro i hi
      have hmem : i ∈ front ++ item :: back := by rcases hi with h | h <;> simp [h]
      refine .elsewhere (h2.object i hmem) hsound.wf ?_
      rintro q ⟨t, rfl⟩
      refine hframe _ (fun hp => ?_)
      have hm : (i.place, i.id) ∈ placesOf (front ++ item :: back) := List.mem_map.mpr ⟨i, hmem, rfl⟩
      have hmi : (item.place, item.id) ∈ placesOf (front ++ item :: back) := List.mem_map.mpr ⟨item, by simp, rfl⟩
      have he : (i.place, i.id) = (item.place, item.id) := by
        rw [List.append_assoc] at hp
        rcases List.prefix_or_prefix_of_prefix ((List.prefix_append_right_inj _).mp hp) (List.prefix_append i.place t) with h | h
        · exact (hs.apart _ hmi _ hm h).symm
        · exact hs.apart _ hm _ hmi h
      have hnd := hs.nodup
      unfold placesOf at hnd
      rw [List.map_append, List.map_cons, List.nodup_append] at hnd
      obtain ⟨_, n2, n3⟩ := hnd
      rcases hi with hi | hi
      · exact n3 (i.place, i.id) (List.mem_map.mpr ⟨i, hi, rfl⟩) _ List.mem_cons_self he
      · rw [List.nodup_cons] at n2
        exact n2.1 (by rw [← he]; exact List.mem_map.mpr ⟨i, hi, rfl⟩)
    refine ⟨rspec, l, h1, ?_, ?_, ?_, ?_⟩
    · rw [heq]
      refine .update (o := (item.place, item.id)) h2.store (List.mem_map.mpr ⟨item, by simp, rfl⟩) hsound.wf (fun q _ hq => hframe q hq) ?_ ?_
      · rw [← place]
        exact hsound.valid hE hno1 hlater true
      · rw [← place]
        obtain ⟨inv, p1, p2⟩ := sound_id hE.json hsound hlast hid
        unfold idFromInventory
        rw [p1]
        exact congrArg Except.ok p2
    · intro i hi
      rcases List.mem_append.mp hi with hi | hi
      · exact h2.path i (by simp [hi])
      · rcases List.mem_cons.mp hi with rfl | hi
        · exact h2.path item (by simp)
        · exact h2.path i (by simp [hi])
    · intro i hi
      rcases List.mem_append.mp hi with hi | hi
      · exact hother i (.inl hi)
      · rcases List.mem_cons.mp hi with rfl | hi
        · rw [place] at hnew; exact hnew
        · exact hother i (.inr hi)
    · intro i hi
      rcases List.mem_append.mp hi with hi | hi
      · exact h2.later i (by simp [hi])
      · rcases List.mem_cons.mp hi with rfl | hi
        · exact hlater
        · exact h2.later i (by simp [hi])

end
end Ocfl
