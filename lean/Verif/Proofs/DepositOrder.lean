import Verif.Proofs.Deposits

/-!
# Adding two objects in the other order
-/

namespace Ocfl
namespace Store

open Spec FS Prog

/-- What `add` needs of a storage root. -/
structure Ready (E : Env) (reg : Dict Str LayoutObj) (base : Path) (v : Str) (l : LayoutObj) (s : FS) : Prop where
  wf : s.WF
  dir : look s base = some .dir
  declared : RootDeclared E s base v
  layoutFile : ∃ b d desc, look s (base ++ [c!"ocfl_layout.json"]) = some (.file b) ∧ E.lib.loadb b = some (.obj d) ∧
    Dict.get? d c!"extension" = some (.str l.name) ∧ Dict.get? d c!"description" = some (.str desc)
  params : ∃ l0, Dict.get? reg l.name = some l0 ∧ l0.name = l.name ∧ l0.readParams E.lib E.raw s base false = .ok l

section
variable {E : Env} {reg : Dict Str LayoutObj} {enc : Str → Str} {base : Path} {spec v : Str} {l : LayoutObj}
  {ds : List (FS × Path)} {s s' : FS}

theorem Ready.checks (h : Ready E reg base v l s) {r : StorageRoot} (hr : r.layout = none)
    (hspec : r.specVersion = none ∨ r.specVersion = some v) :
    checkStructure E reg s base r = ({ r with specVersion := some v, layoutName := some l.name, layout := some l }, .ok ()) := by
  obtain ⟨t, h1, h2, h4⟩ := (declared_iff h.wf h.dir).mpr h.declared
  obtain ⟨b, d, desc, hb, hd, hx1, hx2⟩ := h.layoutFile
  obtain ⟨l0, hl0, hn, hp⟩ := h.params
  unfold checkStructure
  rw [h1]
  dsimp only
  rw [h2]
  dsimp only
  rw [if_neg (by rintro ⟨a, b⟩; rcases hspec with h | h <;> contradiction), h4]
  dsimp only
  unfold checkLayout
  rw [show resolve base Store.layoutFile = base ++ [c!"ocfl_layout.json"] from resolve_name base (by decide)]
  rw [if_pos (by unfold exists_; rw [hb]; rfl), parseLayoutFile_iff.mpr ⟨b, d, desc, hb, hd, hx1, hx2⟩]
  dsimp only
  rw [if_neg (by unfold layoutIsSupported Dict.has; simp [hl0])]
  have e : layoutOf reg { r with specVersion := some v, layoutName := some l.name } =
      ({ r with specVersion := some v, layoutName := some l.name, layout := some l0 }, .ok (some l0)) := by
    unfold layoutOf
    dsimp only
    rw [hr]
    dsimp only
    unfold getLayout
    rw [hl0]
  rw [e]
  dsimp only
  rw [hp]

/-- A storage root whose structure is accepted once is ready. -/
theorem Filled.ready (h : Filled E enc base spec l ds s) (hlib : E.lib.Lawful)
    (hreg : ∃ l0, Dict.get? reg l.name = some l0 ∧ l0.name = l.name) {r r' : StorageRoot} (hlay : r.layout = none)
    (hc : checkStructure E reg s base r = (r', .ok ())) :
    ∃ v, Ready E reg base v l s ∧ (r.specVersion = none ∨ r.specVersion = some v) := by
  have hused := h.layout_used hlib hreg hlay hc
  obtain ⟨t, v, h1, h2, h3, h4, hcl⟩ := checkStructure_ok hc
  obtain ⟨l0, hl0, hn⟩ := hreg
  have hfile := (h.files _ _).mpr (.inl .layout)
  obtain ⟨d, hd, hx1, hx2⟩ := layoutDocument_read hlib l
  refine ⟨v, ⟨h.wf, h.dir, (declared_iff h.wf h.dir).mp ⟨t, h1, h2, h4⟩, ⟨_, d, _, hfile, hd, hx1, hx2⟩, l0, hl0, hn, ?_⟩, h3⟩
  unfold checkLayout at hcl
  rw [show resolve base Store.layoutFile = base ++ [c!"ocfl_layout.json"] from resolve_name base (by decide)] at hcl
  rw [if_pos (by unfold exists_; rw [hfile]; rfl), parseLayoutFile_iff.mpr ⟨_, d, _, hfile, hd, hx1, hx2⟩] at hcl
  dsimp only at hcl
  rw [if_neg (by unfold layoutIsSupported Dict.has; simp [hl0])] at hcl
  have e : layoutOf reg { r with specVersion := some v, layoutName := some l.name } =
      ({ r with specVersion := some v, layoutName := some l.name, layout := some l0 }, .ok (some l0)) := by
    unfold layoutOf
    dsimp only
    rw [hlay]
    dsimp only
    unfold getLayout
    rw [hl0]
  rw [e] at hcl
  dsimp only at hcl
  split at hcl
  · cases (Prod.mk.inj hcl).2
  · rename_i l' hl'
    obtain ⟨rfl, _⟩ := Prod.mk.inj hcl
    cases hused
    exact hl'

/-- It stays so when something is put beside the files of the storage root. -/
theorem Ready.copied (h : Ready E reg base v l s) {src : Path} {ws : List Str} (hne : ws ≠ []) (hc : CopiedTo s s' src (base ++ ws))
    (hext : ws.head? ≠ some c!"extensions") (hdecl : ∀ t, ws.head? ≠ some (c!"0=" ++ t)) : Ready E reg base v l s' := by
  have hhead : ∀ w q, ws.head? ≠ some w → look s' (base ++ w :: q) = look s (base ++ w :: q) := by
    intro w q hw
    cases ws with
    | nil => exact absurd rfl hne
    | cons x t =>
      refine hc.frame _ (fun h1 => ?_) (fun h1 => ?_)
      · exact hw (by rw [(List.cons_prefix_cons.mp ((List.prefix_append_right_inj base).mp h1)).1]; rfl)
      · exact hw (by rw [(List.cons_prefix_cons.mp ((List.prefix_append_right_inj base).mp h1)).1]; rfl)
  refine ⟨hc.wf, hc.above _ (List.prefix_append _ _), ⟨h.declared.supported, ?_, ?_⟩, ?_, ?_⟩
  · obtain ⟨b, t, h1, h2⟩ := h.declared.declaration
    exact ⟨b, t, hc.keeps h.wf h1, h2⟩
  · intro t ht
    rw [hhead _ _ (hdecl t)] at ht
    exact h.declared.one t ht
  · obtain ⟨b, d, desc, h1, h2⟩ := h.layoutFile
    exact ⟨b, d, desc, hc.keeps h.wf h1, h2⟩
  · obtain ⟨l0, h1, h2, h3⟩ := h.params
    refine ⟨l0, h1, h2, ?_⟩
    rw [readParams_same (s := s) (hhead _ _ hext)]
    exact h3

theorem Ready.version_eq {v' : Str} (h : Ready E reg base v l s) (h' : RootDeclared E s' base v')
    (hk : ∀ q n, look s q = some n → look s' q = some n) : v' = v := by
  obtain ⟨b, _, hb, _⟩ := h.declared.declaration
  have := h'.one (c!"ocfl_" ++ v) (by
    rw [show c!"0=" ++ (c!"ocfl_" ++ v) = c!"0=ocfl_" ++ v from rfl, hk _ _ hb]; simp)
  exact (List.append_cancel_left this).symm

end

/-- When `add` succeeds. -/
theorem Ready.add {E : Env} {reg : Dict Str LayoutObj} {enc : Str → Str} {r : StorageRoot} {v : Str} {l : LayoutObj} {s : FS}
    (h : Ready E reg (absComps E.cwd r.root) v l s) (hlay : r.layout = none) (hspec : r.specVersion = none ∨ r.specVersion = some v)
    {objdir i path : Str} {ws : List Str} (hsrc : look s (absComps E.cwd objdir) = some .dir) {inv : Inv}
    (hp : parseInventory E (absComps E.cwd objdir) s = .ok inv) (hid : inv.id = some i) (hpath : l.path E.raw enc i = .ok path)
    (hbelow : Below path ws) (habs : look s (absComps E.cwd r.root ++ ws) = none)
    (hclear : ∀ q b, q <+: absComps E.cwd r.root ++ ws → look s q ≠ some (.file b)) :
    ∃ s', run (add E reg enc r objdir) s = (s', .ok (i, path)) ∧ CopiedTo s s' (absComps E.cwd objdir) (absComps E.cwd r.root ++ ws) := by
  obtain ⟨s', h1, h2, h3, h4, h5, h6⟩ := C59 h.wf (srcBase := absComps E.cwd objdir) (sws := []) (by simp) hbelow.2.1 (.inr rfl)
    (by simpa using hsrc) h.dir habs hclear
  refine ⟨s', ?_, h2, habs, hclear, by simpa using h3, by simpa using h4, h5, h6⟩
  unfold Store.add
  rw [run_get, openRoot_dir h.dir]
  dsimp only
  rw [h.checks hlay hspec]
  dsimp only
  rw [openObj_dir hsrc]
  dsimp only
  rw [hp]
  dsimp only
  rw [hid]
  dsimp only
  have e : objectPath E reg enc s { r with specVersion := some v, layoutName := some l.name, layout := some l } i =
      ({ r with specVersion := some v, layoutName := some l.name, layout := some l }, .ok path) := by
    unfold objectPath
    rw [layoutOf_some rfl]
    dsimp only
    rw [hpath]
  rw [e]
  dsimp only
  have er : resolve (absComps E.cwd r.root) path = absComps E.cwd r.root ++ ws := by rw [hbelow.2.2]; exact resolve_join _ hbelow.2.1
  rw [er, if_neg (by simp [exists_, habs]), run_bind, run_handle, hbelow.2.2]
  have h1 : run (fswCopydir (absComps E.cwd objdir) c!"/" (absComps E.cwd r.root) (joinWith '/' ws)) s = (s', .ok ()) := h1
  rw [h1]
  rfl

theorem look_ext {s s' : FS} {p p' : Path} (hf : ∀ b, look s p = some (.file b) ↔ look s' p' = some (.file b))
    (hd : look s p = some .dir ↔ look s' p' = some .dir) : look s p = look s' p' := by
  cases h : look s p with
  | none =>
    cases h' : look s' p' with
    | none => rfl
    | some n =>
      cases n with
      | dir => rw [hd.mpr h'] at h; cases h
      | file b => rw [(hf b).mpr h'] at h; cases h
  | some n =>
    cases n with
    | dir => exact (hd.mp h).symm
    | file b => exact ((hf b).mp h).symm

theorem CopiedTo.apart {s s' : FS} {src base c : Path} {ws : List Str} (h : CopiedTo s s' src (base ++ ws))
    (h1 : ¬ base <+: c) (h2 : ¬ c <+: base) (y : Path) : look s' (c ++ y) = look s (c ++ y) := by
  refine h.frame _ (fun hp => ?_) (fun hp => ?_)
  · rcases List.prefix_or_prefix_of_prefix ((List.prefix_append c y).trans hp) (List.prefix_append base ws) with h | h
    · exact h2 h
    · exact h1 h
  · rcases List.prefix_or_prefix_of_prefix ((List.prefix_append base ws).trans hp) (List.prefix_append c y) with h | h
    · exact h1 h
    · exact h2 h

/-- What `add` needs of an object, for the place `ws`. -/
structure Addable (E : Env) (enc : Str → Str) (base : Path) (l : LayoutObj) (s : FS) (x : Str × Str × Str) (ws : List Str) : Prop where
  src : look s (absComps E.cwd x.1) = some .dir
  parse : ∃ inv, parseInventory E (absComps E.cwd x.1) s = .ok inv ∧ inv.id = some x.2.1
  path : l.path E.raw enc x.2.1 = .ok x.2.2
  below : Below x.2.2 ws
  absent : look s (base ++ ws) = none
  clear : ∀ q b, q <+: base ++ ws → look s q ≠ some (.file b)
  apart1 : ¬ base <+: absComps E.cwd x.1
  apart2 : ¬ absComps E.cwd x.1 <+: base
  notExtension : ws.head? ≠ some c!"extensions"
  notDeclaration : ∀ t, ws.head? ≠ some (c!"0=" ++ t)

/-- What is there after copies. -/
structure CopiedAll (E : Env) (base : Path) (ps : List ((Str × Str × Str) × List Str)) (s s' : FS) : Prop where
  files : ∀ p ∈ ps, ∀ r b, look s' (base ++ p.2 ++ r) = some (.file b) ↔ look s (absComps E.cwd p.1.1 ++ r) = some (.file b)
  dirs : ∀ p ∈ ps, ∀ r, look s' (base ++ p.2 ++ r) = some .dir ↔
    r = [] ∨ ∃ r' b, r <+: r' ∧ r ≠ r' ∧ look s (absComps E.cwd p.1.1 ++ r') = some (.file b)
  above : ∀ p ∈ ps, ∀ q, q <+: base ++ p.2 → look s' q = some .dir
  frame : ∀ q, (∀ p ∈ ps, ¬ q <+: base ++ p.2 ∧ ¬ base ++ p.2 <+: q) → look s' q = look s q

/-- Places of which none is in the other. -/
def Beside (p p' : (Str × Str × Str) × List Str) : Prop := ¬ p.2 <+: p'.2 ∧ ¬ p'.2 <+: p.2

section
variable {E : Env} {reg : Dict Str LayoutObj} {enc : Str → Str} {base : Path} {v : Str} {l : LayoutObj}
  {ps : List ((Str × Str × Str) × List Str)} {s s1 s' : FS}

theorem Addable.after {x y : Str × Str × Str} {ws ws' : List Str} (h : Addable E enc base l s y ws')
    (hc : CopiedTo s s1 (absComps E.cwd x.1) (base ++ ws)) (hb : ¬ ws <+: ws' ∧ ¬ ws' <+: ws) : Addable E enc base l s1 y ws' := by
  have hs := hc.apart h.apart1 h.apart2
  refine { h with src := ?_, parse := ?_, absent := ?_, clear := ?_ }
  · have := hs []
    rw [List.append_nil] at this
    rw [this]; exact h.src
  · obtain ⟨inv, h1, h2⟩ := h.parse
    obtain ⟨b, hb⟩ := parse_file h1
    exact ⟨inv, by rw [parse_of_file hb (by rw [hs]; exact hb)]; exact h1, h2⟩
  · rw [hc.frame _ (fun hp => hb.2 ((List.prefix_append_right_inj _).mp hp)) (fun hp => hb.1 ((List.prefix_append_right_inj _).mp hp))]
    exact h.absent
  · intro q b hq hl
    by_cases h1 : q <+: base ++ ws
    · rw [hc.above q h1] at hl; cases hl
    · rw [hc.frame q h1 (fun h2 => hb.1 ((List.prefix_append_right_inj _).mp (h2.trans hq)))] at hl
      exact h.clear q b hq hl

theorem Addable.before {x y : Str × Str × Str} {ws ws' : List Str} (h : Addable E enc base l s1 y ws') (hw : s.WF)
    (hc : CopiedTo s s1 (absComps E.cwd x.1) (base ++ ws)) : Addable E enc base l s y ws' := by
  have hs := hc.apart h.apart1 h.apart2
  refine { h with src := ?_, parse := ?_, absent := ?_, clear := ?_ }
  · have := hs []
    rw [List.append_nil] at this
    rw [← this]; exact h.src
  · obtain ⟨inv, h1, h2⟩ := h.parse
    obtain ⟨b, hb⟩ := parse_file h1
    exact ⟨inv, by rw [parse_of_file hb (by rw [← hs]; exact hb)]; exact h1, h2⟩
  · cases hl : look s (base ++ ws') with
    | none => rfl
    | some n => have := hc.keeps hw hl; rw [h.absent] at this; cases this
  · exact fun q b hq hl => h.clear q b hq (hc.keeps hw hl)

theorem CopiedAll.cons {p : (Str × Str × Str) × List Str} (h : CopiedAll E base ps s1 s')
    (hc : CopiedTo s s1 (absComps E.cwd p.1.1) (base ++ p.2)) (hb : ∀ p' ∈ ps, Beside p p')
    (ha : ∀ p' ∈ ps, ¬ base <+: absComps E.cwd p'.1.1 ∧ ¬ absComps E.cwd p'.1.1 <+: base) : CopiedAll E base (p :: ps) s s' := by
  have hfr : ∀ r, look s' (base ++ p.2 ++ r) = look s1 (base ++ p.2 ++ r) := by
    intro r
    refine h.frame _ (fun p' hp' => ⟨fun hq => (hb p' hp').1 ?_, fun hq => ?_⟩)
    · exact (List.prefix_append_right_inj _).mp ((List.prefix_append _ _).trans hq)
    · rcases List.prefix_or_prefix_of_prefix hq (List.prefix_append (base ++ p.2) r) with h | h
      · exact (hb p' hp').2 ((List.prefix_append_right_inj _).mp h)
      · exact (hb p' hp').1 ((List.prefix_append_right_inj _).mp h)
  refine ⟨?_, ?_, ?_, ?_⟩
  · intro p' hp' r b
    rcases List.mem_cons.mp hp' with rfl | hp'
    · rw [hfr]; exact hc.files r b
    · rw [h.files p' hp', hc.apart (ha p' hp').1 (ha p' hp').2]
  · intro p' hp' r
    rcases List.mem_cons.mp hp' with rfl | hp'
    · rw [hfr]; exact hc.dirs r
    · rw [h.dirs p' hp']
      simp only [hc.apart (ha p' hp').1 (ha p' hp').2]
  · intro p' hp' q hq
    rcases List.mem_cons.mp hp' with rfl | hp'
    · by_cases hx : ∃ p'' ∈ ps, q <+: base ++ p''.2
      · obtain ⟨p'', h1, h2⟩ := hx
        exact h.above p'' h1 q h2
      · rw [h.frame q (fun p'' hp'' => ⟨fun h1 => hx ⟨p'', hp'', h1⟩, fun h1 => (hb p'' hp'').2 ((List.prefix_append_right_inj _).mp (h1.trans hq))⟩)]
        exact hc.above q hq
    · exact h.above p' hp' q hq
  · intro q hq
    rw [h.frame q (fun p' hp' => hq p' (by simp [hp'])), hc.frame q (hq p (by simp)).1 (hq p (by simp)).2]

/-- Copies of the same to the same places, in any order. -/
theorem CopiedAll.unique {ps' : List ((Str × Str × Str) × List Str)} {t : FS} (h : CopiedAll E base ps s s') (h' : CopiedAll E base ps' s t)
    (hm : ∀ p, p ∈ ps ↔ p ∈ ps') (x : Path) : look t x = look s' x := by
  by_cases h1 : ∃ p ∈ ps, x <+: base ++ p.2
  · obtain ⟨p, hp, hx⟩ := h1
    rw [h.above p hp x hx, h'.above p ((hm p).mp hp) x hx]
  · by_cases h2 : ∃ p ∈ ps, base ++ p.2 <+: x
    · obtain ⟨p, hp, y, rfl⟩ := h2
      refine look_ext (fun b => ?_) ?_
      · rw [h.files p hp, h'.files p ((hm p).mp hp)]
      · rw [h.dirs p hp, h'.dirs p ((hm p).mp hp)]
    · have key : ∀ p ∈ ps, ¬ x <+: base ++ p.2 ∧ ¬ base ++ p.2 <+: x := fun p hp => ⟨fun h => h1 ⟨p, hp, h⟩, fun h => h2 ⟨p, hp, h⟩⟩
      rw [h.frame x key, h'.frame x (fun p hp => key p ((hm p).mpr hp))]

end

/-- Objects that can be added, in any order. -/
theorem Ready.adds {E : Env} {reg : Dict Str LayoutObj} {enc : Str → Str} {r : StorageRoot} {v : Str} {l : LayoutObj}
    (hlay : r.layout = none) (hspec : r.specVersion = none ∨ r.specVersion = some v) :
    ∀ {ps : List ((Str × Str × Str) × List Str)} {s : FS}, Ready E reg (absComps E.cwd r.root) v l s →
      (∀ p ∈ ps, Addable E enc (absComps E.cwd r.root) l s p.1 p.2) → ps.Pairwise Beside →
      ∃ t, Adds E reg enc r (ps.map Prod.fst) s t ∧ CopiedAll E (absComps E.cwd r.root) ps s t
  | [], s, _, _, _ => ⟨s, .nil, by simp, by simp, by simp, fun _ _ => rfl⟩
  | p :: ps, s, h, ha, hp => by
    have h0 := ha p (by simp)
    obtain ⟨inv, h1, h2⟩ := h0.parse
    obtain ⟨s1, hr, hc⟩ := h.add (enc := enc) (objdir := p.1.1) hlay hspec h0.src h1 h2 h0.path h0.below h0.absent h0.clear
    obtain ⟨hp1, hp2⟩ := List.pairwise_cons.mp hp
    obtain ⟨t, hA, hC⟩ := Ready.adds hlay hspec (h.copied h0.below.1 hc h0.notExtension h0.notDeclaration)
      (fun p' hp' => (ha p' (by simp [hp'])).after hc (hp1 p' hp')) hp2
    exact ⟨t, .cons hr hA, hC.cons hc hp1 (fun p' hp' => ⟨(ha p' (by simp [hp'])).apart1, (ha p' (by simp [hp'])).apart2⟩)⟩

end Store
end Ocfl
