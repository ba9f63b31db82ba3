import Verif.Proofs.StoreListing

/-!
# Adding an object to a storage root
-/

namespace Ocfl
namespace Store

open Spec FS Prog

/-- What `fsw_copydir` has done when it succeeds. `target` is where the copy is. -/
structure CopiedTo (s s' : FS) (src target : Path) : Prop where
  wf : s'.WF
  absent : look s target = none
  clear : ∀ q b, q <+: target → look s q ≠ some (.file b)
  files : ∀ r b, look s' (target ++ r) = some (.file b) ↔ look s (src ++ r) = some (.file b)
  dirs : ∀ r, look s' (target ++ r) = some .dir ↔ r = [] ∨ ∃ r' b, r <+: r' ∧ r ≠ r' ∧ look s (src ++ r') = some (.file b)
  above : ∀ q, q <+: target → look s' q = some .dir
  frame : ∀ q, ¬ q <+: target → ¬ target <+: q → look s' q = look s q

/-- A copy either succeeds or leaves all as it is. -/
theorem copydir_total {s : FS} (h : s.WF) {src base : Path} {ws : List Str} (hs : ∀ w ∈ ws, SafeName w)
    (hsrc : look s src = some .dir) (hbase : look s base = some .dir) :
    (∃ s', run (fswCopydir src c!"/" base (joinWith '/' ws)) s = (s', .ok ()) ∧ CopiedTo s s' src (base ++ ws)) ∨
    (∃ e, run (fswCopydir src c!"/" base (joinWith '/' ws)) s = (s, .error e)) := by
  have er : resolve base (joinWith '/' ws) = base ++ ws := resolve_join _ hs
  by_cases hx : look s (base ++ ws) = none
  · by_cases hc : Clear s (base ++ ws)
    · left
      have hclear : ∀ q b, q <+: base ++ ws → look s q ≠ some (.file b) := by
        intro q b hq hl
        rcases hc q hq with h | h <;> rw [hl] at h <;> cases h
      obtain ⟨s', h1, h2, h3, h4, h5, h6⟩ := C59 h (srcBase := src) (sws := []) (by simp) hs (.inr rfl) (by simpa using hsrc)
        hbase hx hclear
      refine ⟨s', h1, h2, hx, hclear, ?_, ?_, h5, h6⟩
      · simpa using h3
      · simpa using h4
    · right
      obtain ⟨e, he⟩ := run_makedirs_error h false hc
      refine ⟨e, ?_⟩
      unfold fswCopydir
      rw [run_get, er, if_neg, if_neg, run_bind, he]
      · unfold exists_; rw [hx]; simp
      · have : resolve src c!"/" = src := by simpa [joinWith] using resolve_slash_join src (ws := []) (by simp)
        rw [this, isdir_iff.mpr hsrc]
        simp
  · right
    exact ⟨_, C59_refuses (.inr (by rw [er]; exact hx))⟩

section
variable {s s' : FS} {src base : Path} {ws : List Str}

theorem CopiedTo.fileAt {T : Path} (h : CopiedTo s s' src T) {q : Path} (hq : ¬ T <+: q) (w : Str) (b : Bytes) :
    look s' (q ++ [w]) = some (.file b) ↔ look s (q ++ [w]) = some (.file b) := by
  by_cases h1 : T <+: q ++ [w]
  · have e : T = q ++ [w] := by
      rcases List.prefix_concat_iff.mp h1 with h | h
      · exact h
      · exact absurd h hq
    rw [← e, h.absent, h.above T (List.prefix_refl _)]
    simp
  · by_cases h2 : q ++ [w] <+: T
    · rw [h.above _ h2]
      simp [h.clear _ b h2]
    · rw [h.frame _ h2 h1]

theorem CopiedTo.fileBearing {T : Path} (h : CopiedTo s s' src T) {q : Path} (hq : ¬ T <+: q) :
    FileBearing s' q ↔ FileBearing s q :=
  exists_congr fun w => exists_congr fun b => h.fileAt hq w b

theorem CopiedTo.loose {T : Path} (h : CopiedTo s s' src T) {q : Path} (hq : ¬ T <+: q) :
    LooseObjectDir s' q ↔ LooseObjectDir s q := by
  unfold LooseObjectDir
  simp only [h.fileAt hq]

theorem CopiedTo.loose_target {T : Path} (h : CopiedTo s s' src T) : LooseObjectDir s' T ↔ LooseObjectDir s src := by
  unfold LooseObjectDir
  simp only [h.files]

theorem CopiedTo.bearing_target {T : Path} (h : CopiedTo s s' src T) : FileBearing s' T ↔ FileBearing s src :=
  exists_congr fun w => exists_congr fun b => h.files [w] b

theorem loose_bearing {p : Path} (h : LooseObjectDir s p) : FileBearing s p := by
  obtain ⟨v, _, rest, _, ⟨b, hb⟩, _⟩ := h
  exact ⟨_, b, hb⟩

theorem bearing_dir (hw : s.WF) {p : Path} (h : FileBearing s p) : look s p = some .dir := by
  obtain ⟨w, b, hb⟩ := h
  exact FS.look_above hw [w] (by simp) hb

/-- No directory between the root and the place has files. -/
def Unobstructed (s : FS) (base : Path) (ws : List Str) : Prop :=
  ∀ a b, ws = a ++ b → a ≠ [] → b ≠ [] → ¬ FileBearing s (base ++ a)

theorem not_prefix_proper {a b : List Str} (hb : b ≠ []) : ¬ (base ++ (a ++ b)) <+: base ++ a := by
  intro h
  have := h.length_le
  have hl : 0 < b.length := List.length_pos_iff.mpr hb
  simp at this
  omega

theorem CopiedTo.reached (h : CopiedTo s s' src (base ++ ws)) (hne : ws ≠ []) :
    Reached s' base ws ↔ ws.head? ≠ some c!"extensions" ∧ Unobstructed s base ws := by
  constructor
  · intro hr
    refine ⟨hr.notExtension, fun a b e ha hb hf => hr.noFiles a b e ha hb ?_⟩
    rw [h.fileBearing]
    · exact hf
    · rw [e]; exact not_prefix_proper hb
  · rintro ⟨h1, h2⟩
    refine ⟨hne, h.above _ (List.prefix_refl _), h1, fun a b e ha hb hf => h2 a b e ha hb ?_⟩
    rw [h.fileBearing] at hf
    · exact hf
    · rw [e]; exact not_prefix_proper hb

/-- Objects elsewhere are where they were. -/
theorem CopiedTo.elsewhere (hw : s.WF) (h : CopiedTo s s' src (base ++ ws)) {p : List Str} (hp : ¬ ws <+: p) :
    (Reached s' base p ∧ LooseObjectDir s' (base ++ p)) ↔ (Reached s base p ∧ LooseObjectDir s (base ++ p)) := by
  have hnp : ∀ a, a <+: p → ¬ base ++ ws <+: base ++ a := by
    intro a ha hc
    exact hp (((List.prefix_append_right_inj base).mp hc).trans ha)
  rw [h.loose (hnp p (List.prefix_refl _))]
  constructor
  · rintro ⟨hr, hl⟩
    refine ⟨⟨hr.below, bearing_dir hw (loose_bearing hl), hr.notExtension, fun a b e ha hb hf => hr.noFiles a b e ha hb ?_⟩, hl⟩
    exact (h.fileBearing (hnp a ⟨b, e.symm⟩)).mpr hf
  · rintro ⟨hr, hl⟩
    have hb' : FileBearing s' (base ++ p) := (h.fileBearing (hnp p (List.prefix_refl _))).mpr (loose_bearing hl)
    refine ⟨⟨hr.below, bearing_dir h.wf hb', hr.notExtension, fun a b e ha hb hf => hr.noFiles a b e ha hb ?_⟩, hl⟩
    exact (h.fileBearing (hnp a ⟨b, e.symm⟩)).mp hf

theorem CopiedTo.listing (hw : s.WF) (h : CopiedTo s s' src (base ++ ws)) (hne : ws ≠ []) (hobj : LooseObjectDir s src)
    (hext : ws.head? ≠ some c!"extensions") (hun : Unobstructed s base ws) (p : List Str) :
    (Reached s' base p ∧ LooseObjectDir s' (base ++ p)) ↔ p = ws ∨ (Reached s base p ∧ LooseObjectDir s (base ++ p)) := by
  by_cases hp : ws <+: p
  · obtain ⟨t, rfl⟩ := hp
    have hnone : ¬ Reached s base (ws ++ t) := by
      intro hr
      have hl := hr.dir
      rw [← List.append_assoc] at hl
      by_cases ht : t = []
      · rw [ht, List.append_nil, h.absent] at hl
        cases hl
      · have := FS.look_above hw t ht hl
        rw [h.absent] at this
        cases this
    by_cases ht : t = []
    · subst ht
      rw [List.append_nil, h.reached hne, h.loose_target]
      simp [hext, hun, hobj]
    · constructor
      · rintro ⟨hr, _⟩
        exact absurd (h.bearing_target.mpr (loose_bearing hobj)) (hr.noFiles ws t rfl hne ht)
      · rintro (e | ⟨hr, _⟩)
        · exact absurd (by simpa using e) ht
        · exact absurd hr hnone
  · rw [h.elsewhere hw hp]
    constructor
    · exact .inr
    · rintro (rfl | h)
      · exact absurd (List.prefix_refl _) hp
      · exact h

end

/-! ## The method -/

/-- The layout of a storage root that was checked does not change by a second check. -/
theorem checkLayout_layout {E : Env} {reg : Dict Str LayoutObj} {s : FS} {base : Path} {r r' : StorageRoot}
    (h : checkLayout E reg s base r = (r', .ok ())) :
    r'.root = r.root ∧ r'.lax = r.lax ∧ r'.log = r.log ∧ r'.specVersion = r.specVersion ∧
    ((exists_ s (resolve base layoutFile) = false ∧ r' = r) ∨ (exists_ s (resolve base layoutFile) = true ∧ ∃ l, r'.layout = some l)) := by
  have hlay : ∀ {r r1 : StorageRoot} {x}, layoutOf reg r = (r1, x) → r1.root = r.root ∧ r1.lax = r.lax ∧ r1.log = r.log ∧
      r1.specVersion = r.specVersion := by
    intro r r1 x h
    unfold layoutOf at h
    split at h
    · split at h <;> (obtain ⟨rfl, _⟩ := Prod.mk.inj h; exact ⟨rfl, rfl, rfl, rfl⟩)
    · obtain ⟨rfl, _⟩ := Prod.mk.inj h; exact ⟨rfl, rfl, rfl, rfl⟩
  unfold checkLayout at h
  split_ifs at h with hx
  · split at h
    · cases (Prod.mk.inj h).2
    · dsimp only at h
      split_ifs at h
      · cases (Prod.mk.inj h).2
      · split at h
        · cases (Prod.mk.inj h).2
        · cases (Prod.mk.inj h).2
        · rename_i hl
          have h1 := hlay hl
          split at h
          · cases (Prod.mk.inj h).2
          · obtain ⟨rfl, _⟩ := Prod.mk.inj h
            exact ⟨h1.1, h1.2.1, h1.2.2.1, h1.2.2.2, .inr ⟨hx, _, rfl⟩⟩
  · obtain ⟨rfl, _⟩ := Prod.mk.inj h
    exact ⟨rfl, rfl, rfl, rfl, .inl ⟨by simpa using hx, rfl⟩⟩

/-- What a successful check of the structure shows. -/
theorem checkStructure_ok {E : Env} {reg : Dict Str LayoutObj} {s : FS} {base : Path} {r r' : StorageRoot}
    (h : checkStructure E reg s base r = (r', .ok ())) :
    ∃ t v, findNamastes s base 0 [] 10 = .ok [t] ∧ declaredVersion t = some v ∧ (r.specVersion = none ∨ r.specVersion = some v) ∧
      namasteContentOk E.isWord s base 0 t [] = .ok true ∧ checkLayout E reg s base { r with specVersion := some v } = (r', .ok ()) := by
  unfold checkStructure at h
  split at h
  · cases (Prod.mk.inj h).2
  · rename_i t ht
    split at h
    · cases (Prod.mk.inj h).2
    · rename_i v hv
      split_ifs at h with hs
      · cases (Prod.mk.inj h).2
      · dsimp only at h
        split at h
        · cases (Prod.mk.inj h).2
        · cases (Prod.mk.inj h).2
        · rename_i hc
          refine ⟨t, v, ht, hv, ?_, hc, h⟩
          by_contra hcon
          push Not at hcon
          exact hs hcon
  · cases (Prod.mk.inj h).2

theorem layoutOf_some {reg : Dict Str LayoutObj} {r : StorageRoot} {l : LayoutObj} (h : r.layout = some l) :
    layoutOf reg r = (r, .ok (some l)) := by
  unfold layoutOf
  rw [h]

/-- The path of an object is that of the layout, after the structure was checked. -/
theorem objectPath_ok {E : Env} {reg : Dict Str LayoutObj} {enc : Str → Str} {s : FS} {base : Path} {r r' : StorageRoot} {i p : Str}
    (hb : openRoot E r s = .ok base) (hc : checkStructure E reg s base r = (r', .ok ()))
    (h : (objectPath E reg enc s r' i).2 = .ok p) :
    ∃ l, (layoutOf reg r').2 = .ok (some l) ∧ l.path E.raw enc i = .ok p := by
  unfold objectPath at h
  split at h
  · cases h
  · rename_i l hl
    exact ⟨l, by rw [hl], h⟩
  · rename_i r1 hl
    exfalso
    obtain ⟨t, v, _, _, _, _, hcl⟩ := checkStructure_ok hc
    have h1 := checkLayout_layout hcl
    have e1 : r1 = r' ∧ r'.layout = none ∧ r'.layoutName = none := by
      unfold layoutOf at hl
      split at hl
      · split at hl <;> cases (Prod.mk.inj hl).2
      · rename_i hno
        obtain ⟨h2, h3⟩ := Prod.mk.inj hl
        have h3 : r'.layout = none := by simpa using h3
        refine ⟨h2.symm, h3, ?_⟩
        cases hn : r'.layoutName with
        | none => rfl
        | some n => exact absurd hn (hno n h3)
    obtain ⟨rfl, e2, e3⟩ := e1
    rcases h1.2.2.2.2 with ⟨hx, rfl⟩ | ⟨_, l, hl'⟩
    · split at h
      · cases h
      · rename_i base' hb'
        have : base' = base := by
          have h2 : openRoot E { r with specVersion := some v } s = openRoot E r s := rfl
          rw [h2, hb] at hb'
          cases hb'
          rfl
        subst this
        split at h
        · cases h
        · rename_i r2 _ hc2
          obtain ⟨t2, v2, _, _, _, _, hcl2⟩ := checkStructure_ok hc2
          have h3 := checkLayout_layout hcl2
          rcases h3.2.2.2.2 with ⟨_, rfl⟩ | ⟨hx', _⟩
          · have : layoutOf reg { r with specVersion := some v2 } = ({ r with specVersion := some v2 }, .ok none) := by
              unfold layoutOf
              dsimp only at e2 e3 ⊢
              rw [e2, e3]
            dsimp only at h
            rw [this] at h
            cases h
          · rw [hx] at hx'
            cases hx'
    · rw [e2] at hl'
      cases hl'

/-- What `add` has done, step by step. -/
theorem add_cases (E : Env) (reg : Dict Str LayoutObj) (enc : Str → Str) (r : StorageRoot) (objdir : Str) (s : FS) :
    (∃ e, run (add E reg enc r objdir) s = (s, .error e)) ∨
    ∃ base r' src inv i path, openRoot E r s = .ok base ∧ checkStructure E reg s base r = (r', .ok ()) ∧
      openObj E objdir s = .ok src ∧ parseInventory E src s = .ok inv ∧ inv.id = some i ∧
      (objectPath E reg enc s r' i).2 = .ok path ∧ look s (resolve base path) = none ∧
      ((∃ s', run (fswCopydir src c!"/" base path) s = (s', .ok ()) ∧ run (add E reg enc r objdir) s = (s', .ok (i, path))) ∨
       (∃ s' e, run (fswCopydir src c!"/" base path) s = (s', .error e) ∧
         run (add E reg enc r objdir) s = (s', .error .storageRootException))) := by
  unfold add
  rw [run_get]
  split
  · exact .inl ⟨_, rfl⟩
  · rename_i base hb
    split
    · exact .inl ⟨_, rfl⟩
    · rename_i r' _ hc
      split
      · exact .inl ⟨_, rfl⟩
      · rename_i src hs
        split
        · exact .inl ⟨_, rfl⟩
        · rename_i inv hi
          split
          · exact .inl ⟨_, rfl⟩
          · rename_i i hid
            split
            · exact .inl ⟨_, rfl⟩
            · rename_i r'' path hp
              split_ifs with hx
              · exact .inl ⟨_, rfl⟩
              · right
                refine ⟨base, r', src, inv, i, path, hb, hc, hs, hi, hid, by rw [hp], by simpa [exists_] using hx, ?_⟩
                rw [run_bind, run_handle]
                cases hcp : run (fswCopydir src c!"/" base path) s with
                | mk s' res =>
                  cases res with
                  | ok u => exact .inl ⟨s', rfl, rfl⟩
                  | error e => exact .inr ⟨s', e, rfl, rfl⟩

end Store
end Ocfl
