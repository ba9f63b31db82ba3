import Verif.Proofs.StoreInit
import Verif.Props.StoreObjects

/-!
# Storage roots that were made by the library
-/

namespace Ocfl
namespace Store

open Spec FS Prog

theorem parse_of_file {E : Env} {s s' : FS} {p p' : Path} {b : Bytes} (h : look s (p ++ [c!"inventory.json"]) = some (.file b))
    (h' : look s' (p' ++ [c!"inventory.json"]) = some (.file b)) : parseInventory E p' s' = parseInventory E p s := by
  have e : readText s' (resolve p' inventoryFilename) = readText s (resolve p inventoryFilename) := by
    rw [look_inventory, look_inventory]
    change readText s' (p' ++ [c!"inventory.json"]) = readText s (p ++ [c!"inventory.json"])
    unfold readText FS.read
    rw [h, h']
  unfold parseInventory
  rw [e]

theorem parse_file {E : Env} {s : FS} {p : Path} {inv : Inv} (h : parseInventory E p s = .ok inv) :
    ∃ b, look s (p ++ [c!"inventory.json"]) = some (.file b) := by
  unfold parseInventory at h
  split at h
  · cases h
  · rename_i text ht
    rw [look_inventory] at ht
    change readText s (p ++ [c!"inventory.json"]) = .ok text at ht
    unfold readText FS.read at ht
    cases hl : look s (p ++ [c!"inventory.json"]) with
    | none => rw [hl] at ht; cases ht
    | some n =>
      cases n with
      | dir => rw [hl] at ht; cases ht
      | file b => exact ⟨b, rfl⟩

theorem readParams_same {lib : JsonLib} {raw : Str → Bytes → Str} {s s' : FS} {base : Path} {l : LayoutObj} {req : Bool}
    (h : look s' (base ++ [c!"extensions", l.name, c!"config.json"]) = look s (base ++ [c!"extensions", l.name, c!"config.json"])) :
    l.readParams lib raw s' base req = l.readParams lib raw s base req := by
  unfold LayoutObj.readParams exists_ FS.read
  rw [resolve_configFile, h]
  cases look s (base ++ [c!"extensions", l.name, c!"config.json"]) with
  | none => rfl
  | some n => cases n <;> rfl

/-- An object that `list_objects` and `validate` accept. -/
structure GoodObject (E : Env) (s : FS) (p : Path) (i : Str) : Prop where
  dir : look s p = some .dir
  valid : ValidObject E true s p
  parse : ∃ inv, parseInventory E p s = .ok inv ∧ inv.id = some i

theorem GoodObject.same {E : Env} {s s' : FS} {p p' : Path} {i : Str} (h : GoodObject E s p i)
    (hs : ∀ q, look s' (p' ++ q) = look s (p ++ q)) : GoodObject E s' p' i := by
  refine ⟨by simpa [h.dir] using hs [], ValidObject.same hs h.valid, ?_⟩
  obtain ⟨inv, h1, h2⟩ := h.parse
  obtain ⟨b, hb⟩ := parse_file h1
  exact ⟨inv, by rw [parse_of_file hb (by rw [hs]; exact hb)]; exact h1, h2⟩

theorem GoodObject.bearing {E : Env} {s : FS} {p : Path} {i : Str} (h : GoodObject E s p i) : FileBearing s p :=
  loose_bearing (looseObjectDir_of (objectDir_of_valid h.valid))

/-- What holds of storage roots that were made by the library. -/
structure StoreSound (E : Env) (reg : Dict Str LayoutObj) (enc : Str → Str) (base : Path) (spec : Str) (l : LayoutObj)
    (objs : List (List Str × Str)) (s : FS) : Prop where
  wf : s.WF
  dir : look s base = some .dir
  good : GoodParams E.raw l
  declared : RootDeclared E s base spec
  layoutFile : ∃ b d desc, look s (base ++ [c!"ocfl_layout.json"]) = some (.file b) ∧ E.lib.loadb b = some (.obj d) ∧
    Dict.get? d c!"extension" = some (.str l.name) ∧ Dict.get? d c!"description" = some (.str desc)
  params : ∀ l0 : LayoutObj, l0.name = l.name → l0.readParams E.lib E.raw s base false = .ok l
  extensions : ∀ w, look s (base ++ [c!"extensions", w]) ≠ none →
    look s (base ++ [c!"extensions", w]) = some .dir ∧ w = l.name ∧ l.config ≠ none
  names : ∀ o ∈ objs, o.1 ≠ [] ∧ ∀ w ∈ o.1, SafeName w
  place : ∀ o ∈ objs, o.1.head? ≠ some c!"extensions" ∧ ∀ t, o.1.head? ≠ some (c!"0=" ++ t)
  objects : ∀ o ∈ objs, GoodObject E s (base ++ o.1) o.2
  path : ∀ o ∈ objs, l.path E.raw enc o.2 = .ok (joinWith '/' o.1)
  apart : ∀ o ∈ objs, ∀ o' ∈ objs, o.1 <+: o'.1 → o = o'
  nodup : objs.Nodup
  only : ∀ w q, look s (base ++ w :: q) ≠ none → w = c!"extensions" ∨ (q = [] ∧ ∃ b, look s (base ++ [w]) = some (.file b)) ∨
    ∃ o ∈ objs, w :: q <+: o.1 ∨ o.1 <+: w :: q

section
variable {E : Env} {reg : Dict Str LayoutObj} {enc : Str → Str} {base : Path} {spec : Str} {l : LayoutObj}
  {objs : List (List Str × Str)} {s s' : FS}

/-- After `initialize`. -/
theorem RootMade.sound (hlib : E.lib.Lawful) (hword : WordClass E.isWord) (h : RootMade E s s' base spec (some l)) (hspec : spec ∈ supported)
    (hgood : GoodParams E.raw l) : StoreSound E reg enc base spec l [] s' where
  wf := h.wf
  dir := h.dir
  good := hgood
  declared := h.declared hword hspec
  layoutFile := by
    obtain ⟨d, h1, h2, h3⟩ := layoutDocument_read hlib l
    exact ⟨_, d, _, h.layoutFile l rfl, h1, h2, h3⟩
  params := h.params l rfl
  extensions := by
    intro w hx
    rcases h.only _ _ hx with ⟨e, _⟩ | ⟨l', hl', ⟨e, _⟩ | ⟨hc, e | ⟨e, e2⟩⟩⟩
    · cases e
    · cases e
    · cases e
    · cases hl'
      refine ⟨e2, ?_, hc⟩
      obtain ⟨t, ht⟩ := e
      simp only [List.cons_append, List.cons.injEq] at ht
      exact ht.2.1
  names := by simp
  place := by simp
  objects := by simp
  path := by simp
  apart := by simp
  nodup := .nil
  only := by
    intro w q hx
    rcases h.only _ _ hx with ⟨rfl, rfl⟩ | ⟨l', hl', ⟨rfl, rfl⟩ | ⟨hc, e | ⟨e, e2⟩⟩⟩
    · exact .inr (.inl ⟨rfl, _, h.declaration⟩)
    · exact .inr (.inl ⟨rfl, _, h.layoutFile l' hl'⟩)
    · left
      simp only [List.cons.injEq] at e
      exact e.1
    · exact .inl (List.cons_prefix_cons.mp e).1

theorem StoreSound.layout_apart (h : StoreSound E reg enc base spec l objs s) : ∀ o ∈ objs, o.1.head? ≠ some c!"ocfl_layout.json" := by
  intro o ho he
  obtain ⟨b, _, _, hb, _⟩ := h.layoutFile
  have hd := (h.objects o ho).dir
  cases ho1 : o.1 with
  | nil => exact (h.names o ho).1 ho1
  | cons w q =>
    rw [ho1] at he hd
    cases he
    by_cases hq : q = []
    · subst hq; rw [hb] at hd; cases hd
    · have := FS.look_above h.wf q hq (n := .dir) (p := base ++ [c!"ocfl_layout.json"]) (by simpa using hd)
      rw [hb] at this
      cases this

/-- A change of some of the objects, that stay good. -/
theorem StoreSound.change (h : StoreSound E reg enc base spec l objs s) (hw : s'.WF) (P : List Str → Prop)
    (hsame : ∀ q, (∀ o ∈ objs, P o.1 → ¬ o.1 <+: q) → look s' (base ++ q) = look s (base ++ q))
    (hobj : ∀ o ∈ objs, P o.1 → GoodObject E s' (base ++ o.1) o.2) : StoreSound E reg enc base spec l objs s' := by
  have h0 : ∀ w q, (∀ o ∈ objs, o.1.head? ≠ some w) → look s' (base ++ w :: q) = look s (base ++ w :: q) := by
    intro w q hne
    refine hsame _ (fun o ho _ hp => ?_)
    cases ho1 : o.1 with
    | nil => exact (h.names o ho).1 ho1
    | cons x t =>
      rw [ho1] at hp
      obtain ⟨rfl, _⟩ := List.cons_prefix_cons.mp hp
      exact hne o ho (by rw [ho1]; rfl)
  have hdecl : ∀ t, look s' (base ++ [c!"0=" ++ t]) = look s (base ++ [c!"0=" ++ t]) :=
    fun t => h0 _ _ (fun o ho => (h.place o ho).2 t)
  have hext : ∀ q, look s' (base ++ c!"extensions" :: q) = look s (base ++ c!"extensions" :: q) :=
    fun q => h0 _ _ (fun o ho => (h.place o ho).1)
  refine ⟨hw, ?_, h.good, ⟨h.declared.supported, ?_, ?_⟩, ?_, ?_, ?_, h.names, h.place, ?_, h.path, h.apart, h.nodup, ?_⟩
  · have := hsame [] (fun o ho _ hp => (h.names o ho).1 (List.prefix_nil.mp hp))
    simpa [h.dir] using this
  · obtain ⟨b, t, h1, h2⟩ := h.declared.declaration
    refine ⟨b, t, ?_, h2⟩
    have := hdecl (c!"ocfl_" ++ spec)
    exact this.trans h1
  · intro t ht
    rw [hdecl] at ht
    exact h.declared.one t ht
  · obtain ⟨b, d, desc, h1, h2⟩ := h.layoutFile
    exact ⟨b, d, desc, by rw [h0 _ _ h.layout_apart]; exact h1, h2⟩
  · intro l0 hl0
    rw [readParams_same (s := s) (by rw [hext])]
    exact h.params l0 hl0
  · intro w hx
    rw [hext] at hx ⊢
    exact h.extensions w hx
  · intro o ho
    by_cases hP : P o.1
    · exact hobj o ho hP
    · refine (h.objects o ho).same (fun q => ?_)
      rw [List.append_assoc]
      refine hsame _ (fun o' ho' hP' hp => ?_)
      rcases List.prefix_or_prefix_of_prefix hp (List.prefix_append o.1 q) with h1 | h1
      · rw [← h.apart _ ho' _ ho h1] at hP; exact hP hP'
      · rw [h.apart _ ho _ ho' h1] at hP; exact hP hP'
  · intro w q hx
    by_cases hc : ∃ o ∈ objs, P o.1 ∧ o.1 <+: w :: q
    · obtain ⟨o, ho, _, hp⟩ := hc
      exact .inr (.inr ⟨o, ho, .inr hp⟩)
    · have hx' := hsame (w :: q) (fun o ho hP hp => hc ⟨o, ho, hP, hp⟩)
      rw [hx'] at hx
      rcases h.only w q hx with h1 | ⟨rfl, b, h1⟩ | h1
      · exact .inl h1
      · exact .inr (.inl ⟨rfl, b, by rw [hx']; exact h1⟩)
      · exact .inr (.inr h1)

/-- The structure of the storage root is accepted, and the layout is found. -/
theorem StoreSound.checks (h : StoreSound E reg enc base spec l objs s) (hreg : ∃ l0, Dict.get? reg l.name = some l0 ∧ l0.name = l.name)
    {r : StorageRoot} (hr : r.layout = none) (hspec : r.specVersion = none ∨ r.specVersion = some spec) :
    checkStructure E reg s base r = ({ r with specVersion := some spec, layoutName := some l.name, layout := some l }, .ok ()) := by
  obtain ⟨t, h1, h2, h4⟩ := (declared_iff h.wf h.dir).mpr h.declared
  obtain ⟨b, d, desc, hb, hd, hx1, hx2⟩ := h.layoutFile
  obtain ⟨l0, hl0, hn⟩ := hreg
  unfold checkStructure
  rw [h1]
  dsimp only
  rw [h2]
  dsimp only
  rw [if_neg (by rintro ⟨a, b⟩; rcases hspec with h | h <;> contradiction), h4]
  dsimp only
  unfold checkLayout
  rw [show resolve base Store.layoutFile = base ++ [c!"ocfl_layout.json"] from resolve_name base (by decide)]
  rw [if_pos (by unfold exists_; rw [hb]; rfl), parseLayoutFile_iff.mpr ⟨b, d, desc, hb, hd, hx1, hx2⟩]
  dsimp only
  rw [if_neg (by unfold layoutIsSupported Dict.has; simp [hl0])]
  have e : layoutOf reg { r with specVersion := some spec, layoutName := some l.name } =
      ({ r with specVersion := some spec, layoutName := some l.name, layout := some l0 }, .ok (some l0)) := by
    unfold layoutOf
    dsimp only
    rw [hr]
    dsimp only
    unfold getLayout
    rw [hl0]
  rw [e]
  dsimp only
  rw [h.params l0 hn]

/-- Between the root and an object there are no files. -/
theorem StoreSound.above (h : StoreSound E reg enc base spec l objs s) {o : List Str × Str} (ho : o ∈ objs) {a b : List Str}
    (e : o.1 = a ++ b) (ha : a ≠ []) (hb : b ≠ []) : ¬ FileBearing s (base ++ a) := by
  rintro ⟨w, c, hf⟩
  cases a with
  | nil => exact ha rfl
  | cons x t =>
    have hf' : look s (base ++ x :: (t ++ [w])) = some (.file c) := by simpa using hf
    rcases h.only x (t ++ [w]) (by rw [hf']; simp) with h1 | ⟨h1, _⟩ | ⟨o', ho', h1 | h1⟩
    · exact (h.place o ho).1 (by rw [e, h1]; rfl)
    · simp at h1
    · obtain ⟨q, hq⟩ := h1
      have hd := (h.objects o' ho').dir
      rw [← hq] at hd
      by_cases hq0 : q = []
      · subst hq0; rw [List.append_nil, hf'] at hd; cases hd
      · rw [← List.append_assoc] at hd
        have := FS.look_above h.wf q hq0 hd
        rw [hf'] at this
        cases this
    · rcases List.prefix_concat_iff.mp (show o'.1 <+: (x :: t) ++ [w] from h1) with h2 | h2
      · have hd := (h.objects o' ho').dir
        rw [h2] at hd
        rw [show base ++ (x :: t ++ [w]) = base ++ x :: (t ++ [w]) from rfl, hf'] at hd
        cases hd
      · have := h.apart _ ho' _ ho (by rw [e]; exact h2.trans (List.prefix_append _ _))
        rw [this, e] at h2
        have := h2.length_le
        have hl : 0 < b.length := List.length_pos_iff.mpr hb
        simp at this
        omega

theorem StoreSound.reached (h : StoreSound E reg enc base spec l objs s) {o : List Str × Str} (ho : o ∈ objs) : Reached s base o.1 :=
  ⟨(h.names o ho).1, (h.objects o ho).dir, (h.place o ho).1, fun _ _ e ha hb => h.above ho e ha hb⟩

/-- What a traversal finds are the objects. -/
theorem StoreSound.found (h : StoreSound E reg enc base spec l objs s) {ws : List Str} (hr : Reached s base ws)
    (hf : FileBearing s (base ++ ws) ∨ EmptyDir s (base ++ ws)) : ∃ o ∈ objs, o.1 = ws := by
  cases ws with
  | nil => exact absurd rfl hr.below
  | cons w q =>
    rcases h.only w q (by rw [hr.dir]; simp) with h1 | ⟨rfl, b, h1⟩ | ⟨o, ho, h1 | h1⟩
    · exact absurd (by rw [h1]; rfl) hr.notExtension
    · have := hr.dir
      rw [h1] at this
      cases this
    · obtain ⟨t, ht⟩ := h1
      by_cases ht0 : t = []
      · subst ht0; exact ⟨o, ho, by simpa using ht.symm⟩
      · exfalso
        rcases hf with hf | hf
        · exact h.above ho ht.symm (by simp) ht0 hf
        · cases t with
          | nil => exact ht0 rfl
          | cons x t =>
            have hd := (h.objects o ho).dir
            rw [← ht] at hd
            have hx := hf x
            by_cases ht1 : t = []
            · subst ht1
              rw [← List.append_assoc, hx] at hd
              cases hd
            · have := FS.look_above h.wf t ht1 (n := .dir) (p := base ++ (w :: q) ++ [x]) (by simpa using hd)
              rw [hx] at this
              cases this
    · obtain ⟨t, ht⟩ := h1
      by_cases ht0 : t = []
      · subst ht0; exact ⟨o, ho, by simpa using ht⟩
      · exact absurd (h.objects o ho).bearing (hr.noFiles o.1 t ht.symm (h.names o ho).1 ht0)

/-- After `add`. -/
theorem StoreSound.added (h : StoreSound E reg enc base spec l objs s) {src : Path} {ws : List Str} {i : Str}
    (hsrc : look s src = some .dir) (hc : CopiedTo s s' src (base ++ ws)) (hv : ValidObject E true s src) (hfull : VersionsFull E s src)
    {inv : Inv} (hp : parseInventory E src s = .ok inv) (hid : inv.id = some i) (hne : ws ≠ []) (hnames : ∀ w ∈ ws, SafeName w)
    (hplace : FreePlace objs ws) (hpath : l.path E.raw enc i = .ok (joinWith '/' ws)) :
    StoreSound E reg enc base spec l (objs ++ [(ws, i)]) s' := by
  have hdir' : look s' base = some .dir := hc.above _ (List.prefix_append _ _)
  have hcomp : ∀ q, ¬ q <+: ws → ¬ ws <+: q → look s' (base ++ q) = look s (base ++ q) := by
    intro q h1 h2
    exact hc.frame _ (fun h => h1 ((List.prefix_append_right_inj base).mp h)) (fun h => h2 ((List.prefix_append_right_inj base).mp h))
  have hhead : ∀ w q, ws.head? ≠ some w → look s' (base ++ w :: q) = look s (base ++ w :: q) := by
    intro w q hw
    cases ws with
    | nil => exact absurd rfl hne
    | cons x t =>
      refine hcomp _ (fun h1 => ?_) (fun h1 => ?_)
      · exact hw (by rw [(List.cons_prefix_cons.mp h1).1]; rfl)
      · exact hw (by rw [(List.cons_prefix_cons.mp h1).1]; rfl)
  have hdecl : ∀ t, look s' (base ++ [c!"0=" ++ t]) = look s (base ++ [c!"0=" ++ t]) := fun t => hhead _ _ (hplace.notDeclaration t)
  have hext : ∀ q, look s' (base ++ c!"extensions" :: q) = look s (base ++ c!"extensions" :: q) := fun q => hhead _ _ hplace.notExtension
  have hlay : look s' (base ++ [c!"ocfl_layout.json"]) = look s (base ++ [c!"ocfl_layout.json"]) := by
    obtain ⟨b, _, _, hb, _⟩ := h.layoutFile
    refine hhead _ _ (fun he => ?_)
    cases ws with
    | nil => exact hne rfl
    | cons x t =>
      cases he
      exact hc.clear (base ++ [c!"ocfl_layout.json"]) b ⟨t, by simp⟩ hb
  have hnew : ∀ o ∈ objs, ¬ ws <+: o.1 := by
    rintro o ho ⟨t, ht⟩
    have hd := (h.objects o ho).dir
    rw [← ht] at hd
    by_cases ht0 : t = []
    · subst ht0; rw [List.append_nil, hc.absent] at hd; cases hd
    · rw [← List.append_assoc] at hd
      have := FS.look_above h.wf t ht0 hd
      rw [hc.absent] at this
      cases this
  refine ⟨hc.wf, hdir', h.good, ⟨h.declared.supported, ?_, ?_⟩, ?_, ?_, ?_, ?_, ?_, ?_, ?_, ?_, ?_, ?_⟩
  · obtain ⟨b, t, h1, h2⟩ := h.declared.declaration
    exact ⟨b, t, (hdecl (c!"ocfl_" ++ spec)).trans h1, h2⟩
  · intro t ht
    rw [hdecl] at ht
    exact h.declared.one t ht
  · obtain ⟨b, d, desc, h1, h2⟩ := h.layoutFile
    exact ⟨b, d, desc, by rw [hlay]; exact h1, h2⟩
  · intro l0 hl0
    rw [readParams_same (s := s) (by rw [hext])]
    exact h.params l0 hl0
  · intro w hx
    rw [hext] at hx ⊢
    exact h.extensions w hx
  · intro o ho
    rcases List.mem_append.mp ho with ho | ho
    · exact h.names o ho
    · rw [List.mem_singleton.mp ho]; exact ⟨hne, hnames⟩
  · intro o ho
    rcases List.mem_append.mp ho with ho | ho
    · exact h.place o ho
    · rw [List.mem_singleton.mp ho]; exact ⟨hplace.notExtension, hplace.notDeclaration⟩
  · intro o ho
    rcases List.mem_append.mp ho with ho | ho
    · refine (h.objects o ho).same (hc.others h.wf (by rw [(h.objects o ho).dir]; simp) (fun hp => ?_))
      exact hplace.apart o ho ((List.prefix_append_right_inj base).mp hp)
    · rw [List.mem_singleton.mp ho]
      refine ⟨hc.above _ (List.prefix_refl _), ?_, ?_⟩
      · obtain ⟨spec, j, alg, cd, m, vs, states, style, n, hr⟩ := hv
        exact ⟨spec, j, alg, cd, m, vs, states, style, n, hc.valid h.wf hsrc hr (hfull j vs hr.inventory hr.rules.versions)⟩
      · obtain ⟨b, hb⟩ := parse_file hp
        exact ⟨inv, by rw [parse_of_file hb ((hc.files _ _).mpr hb)]; exact hp, hid⟩
  · intro o ho
    rcases List.mem_append.mp ho with ho | ho
    · exact h.path o ho
    · rw [List.mem_singleton.mp ho]; exact hpath
  · intro o ho o' ho' hpre
    rcases List.mem_append.mp ho with ho | ho <;> rcases List.mem_append.mp ho' with ho' | ho'
    · exact h.apart o ho o' ho' hpre
    · rw [List.mem_singleton.mp ho'] at hpre
      exact absurd hpre (hplace.apart o ho)
    · rw [List.mem_singleton.mp ho] at hpre
      exact absurd hpre (hnew o' ho')
    · rw [List.mem_singleton.mp ho, List.mem_singleton.mp ho']
  · rw [List.nodup_append]
    refine ⟨h.nodup, by simp, ?_⟩
    intro o ho o' ho' e
    rw [List.mem_singleton.mp ho'] at e
    exact hnew o ho (by rw [e]; exact List.prefix_rfl)
  · intro w q hx
    by_cases h1 : w :: q <+: ws
    · exact .inr (.inr ⟨(ws, i), by simp, .inl h1⟩)
    · by_cases h2 : ws <+: w :: q
      · exact .inr (.inr ⟨(ws, i), by simp, .inr h2⟩)
      · rw [hcomp _ h1 h2] at hx
        rcases h.only w q hx with h3 | ⟨rfl, b, h3⟩ | ⟨o, ho, h3⟩
        · exact .inl h3
        · exact .inr (.inl ⟨rfl, b, by rw [hcomp _ h1 h2]; exact h3⟩)
        · exact .inr (.inr ⟨o, by simp [ho], h3⟩)

end

/-- The inventory that `add` has read. -/
theorem add_parsed {E : Env} {reg : Dict Str LayoutObj} {enc : Str → Str} {r : StorageRoot} {objdir : Str}
    {s s' : FS} {i path : Str} (h : run (add E reg enc r objdir) s = (s', .ok (i, path))) :
    ∃ inv, parseInventory E (absComps E.cwd objdir) s = .ok inv ∧ inv.id = some i := by
  rcases add_cases E reg enc r objdir s with ⟨e, he⟩ | ⟨base, r', src, inv, i', path', h1, h2, h3, h4, h5, h6, h7, h8⟩
  · rw [h] at he; cases (Prod.mk.inj he).2
  · obtain ⟨rfl, hs⟩ := openObj_ok h3
    rcases h8 with ⟨s1, _, ha⟩ | ⟨s1, e, _, ha⟩
    · rw [ha] at h
      have := (Prod.mk.inj h).2
      cases this
      exact ⟨inv, h4, h5⟩
    · rw [ha] at h; cases (Prod.mk.inj h).2

theorem parsed_id {E : Env} {p : Path} {s : FS} {i : Str} (h : idFromInventory E p none s = .ok (some i)) :
    ∃ inv, parseInventory E p s = .ok inv ∧ inv.id = some i := by
  unfold idFromInventory at h
  split at h
  · rename_i inv hi
    exact ⟨inv, hi, Except.ok.inj h⟩
  · cases h
  · cases h

/-- Storage roots made by the library are sound. -/
theorem store_sound {E : Env} (hlib : E.lib.Lawful) (hword : WordClass E.isWord) (hraw : Spec.HexDigests E.raw)
    (hcwd : ∀ w ∈ E.cwd, SafeName w) {reg : Dict Str LayoutObj} (hgood : ∀ n l, getLayout reg n = .ok l → GoodParams E.raw l)
    {enc : Str → Str} (henc : GoodEncoder enc) (hdot : ∀ i, '.' ∉ enc i)
    {root spec : Str} {l : LayoutObj} (hreg : ∃ l0, Dict.get? reg l.name = some l0 ∧ l0.name = l.name)
    {objs : List (List Str × Str)} {s : FS} (h : StoreHistory E reg enc root spec l objs s) :
    StoreSound E reg enc (absComps E.cwd root) spec l objs s := by
  induction h with
  | @made s s' r r' sv params wf own root_eq done layout spec_eq =>
    subst root_eq
    rcases initialize_total hlib hword hraw hcwd wf hgood r (by rw [own]; simp) sv params with ⟨e, he⟩ | ⟨s2, r2, spec', h1, h2, h3, h4, h5, _, h6, _⟩
    · rw [done] at he; cases (Prod.mk.inj he).2
    · rw [done] at h1
      obtain ⟨rfl, h1⟩ := Prod.mk.inj h1
      cases h1
      rw [spec_eq] at h4
      cases h4
      rw [layout] at h2
      exact h2.sound hlib hword h5 (h6 l layout)
  | elsewhere before wf same ih =>
    exact ih.change wf (fun _ => False) (fun q _ => same _ (List.prefix_append _ _)) (fun _ _ h => h.elim)
  | @add objs s s' r objdir ws i before own root_eq valid full done names place ih =>
    subst root_eq
    have hb := C54_layouts hraw henc hdot hgood (r := r) (by rw [own]; simp) ih.wf
    obtain ⟨r', l', ws', j, h1, h2, h3, h4, h5, h6, h7, _, hsrc, hc⟩ := add_copied hlib ih.wf hb done
    obtain ⟨inv, hp, hid⟩ := add_parsed done
    have e := joinWith_inj' h4.2.1 names h4.2.2.symm
    subst e
    have hl : l' = l := by
      obtain ⟨t, v, k1, k2, k3, k4, _⟩ := checkStructure_ok h1
      have hd := (declared_iff ih.wf ih.dir).mp ⟨t, k1, k2, k4⟩
      have ev : v = spec := by
        obtain ⟨b, _, hb, _⟩ := hd.declaration
        have := ih.declared.one (c!"ocfl_" ++ v) (by
          rw [show c!"0=" ++ (c!"ocfl_" ++ v) = c!"0=ocfl_" ++ v from rfl, hb]; simp)
        exact List.append_cancel_left this
      subst ev
      rw [ih.checks hreg own k3] at h1
      obtain ⟨rfl, _⟩ := Prod.mk.inj h1
      rw [layoutOf_some rfl] at h2
      exact ((Option.some.inj (Except.ok.inj h2))).symm
    subst hl
    exact ih.added hsrc hc valid full hp hid h4.1 names place h3
  | @update objs s s' o before mem wf same valid id ih =>
    refine ih.change wf (fun p => p = o.1) (fun q hq => same _ (List.prefix_append _ _) (fun hp => ?_)) (fun o' ho' e => ?_)
    · exact hq o mem rfl ((List.prefix_append_right_inj _).mp hp)
    · have e' := ih.apart o' ho' o mem (by rw [e]; exact List.prefix_rfl)
      subst e'
      have hv := valid
      obtain ⟨_, _, _, _, _, _, _, _, _, hr⟩ := hv
      obtain ⟨b, _, hb, _⟩ := hr.declaration
      exact ⟨FS.look_above wf [_] (by simp) hb, valid, parsed_id id⟩

end Store
end Ocfl
