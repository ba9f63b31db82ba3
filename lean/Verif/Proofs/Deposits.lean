import Verif.Proofs.StoreSound
import Verif.Spec.Deposits

/-!
# What is in a storage root after objects were added to it
-/

namespace Ocfl
namespace Store

open Spec FS Prog

/-- What is there stays there. -/
theorem CopiedTo.keeps {s s' : FS} (hw : s.WF) {src target : Path} (hc : CopiedTo s s' src target) {q : Path} {n : Node}
    (hq : look s q = some n) : look s' q = some n := by
  by_cases hp : q <+: target
  · cases n with
    | dir => exact hc.above q hp
    | file b => exact absurd hq (hc.clear q b hp)
  · by_cases hp' : target <+: q
    · exfalso
      obtain ⟨t, rfl⟩ := hp'
      by_cases ht : t = []
      · exact hp (by simp [ht])
      · have := FS.look_above hw t ht hq
        rw [hc.absent] at this
        cases this
    · rw [hc.frame q hp hp', hq]

/-- The files that `initialize` writes, as paths in the storage root. -/
inductive RootFile (E : Env) (spec : Str) (l : LayoutObj) : List Str → Bytes → Prop where
  | declaration : RootFile E spec l [c!"0=ocfl_" ++ spec] (utf8 (c!"ocfl_" ++ spec ++ c!"\n"))
  | layout : RootFile E spec l [c!"ocfl_layout.json"] (utf8 (E.lib.dumpsSorted (layoutDocument l)))
  | config {c : Dict Str Json} : l.config = some c →
      RootFile E spec l [c!"extensions", l.name, c!"config.json"] (utf8 (E.lib.dumps (.obj c)))

/-- Where the layout puts what is in a directory. -/
def PlaceOf (E : Env) (enc : Str → Str) (l : LayoutObj) (d : FS × Path) (ws : List Str) : Prop :=
  ∃ inv i, parseInventory E d.2 d.1 = .ok inv ∧ inv.id = some i ∧ (∀ w ∈ ws, SafeName w) ∧ l.path E.raw enc i = .ok (joinWith '/' ws)

theorem PlaceOf.unique {E : Env} {enc : Str → Str} {l : LayoutObj} {d : FS × Path} {ws ws' : List Str}
    (h : PlaceOf E enc l d ws) (h' : PlaceOf E enc l d ws') : ws = ws' := by
  obtain ⟨inv, i, h1, h2, h3, h4⟩ := h
  obtain ⟨inv', i', h1', h2', h3', h4'⟩ := h'
  rw [h1] at h1'
  cases h1'
  rw [h2] at h2'
  cases h2'
  rw [h4] at h4'
  exact joinWith_inj' h3 h3' (Except.ok.inj h4')

theorem PlaceOf.same {E : Env} {enc : Str → Str} {l : LayoutObj} {d d' : FS × Path} (hs : SameFilesIn d d') {ws : List Str}
    (h : PlaceOf E enc l d ws) : PlaceOf E enc l d' ws := by
  obtain ⟨inv, i, h1, h2⟩ := h
  obtain ⟨b, hb⟩ := parse_file h1
  exact ⟨inv, i, by rw [parse_of_file hb ((hs _ b).mp hb)]; exact h1, h2⟩

/-- What holds of a storage root to which directories were added. -/
structure Filled (E : Env) (enc : Str → Str) (base : Path) (spec : Str) (l : LayoutObj) (ds : List (FS × Path)) (s : FS) : Prop where
  wf : s.WF
  dir : look s base = some .dir
  good : GoodParams E.raw l
  params : l.config ≠ none → ∀ l0 : LayoutObj, l0.name = l.name → l0.readParams E.lib E.raw s base false = .ok l
  files : ∀ q b, look s (base ++ q) = some (.file b) ↔
    RootFile E spec l q b ∨ ∃ d ∈ ds, ∃ ws r, PlaceOf E enc l d ws ∧ q = ws ++ r ∧ look d.1 (d.2 ++ r) = some (.file b)
  dirs : ∀ q, look s (base ++ q) = some .dir → q = [] ∨ ∃ t b, look s (base ++ (q ++ t)) = some (.file b)

section
variable {E : Env} {reg : Dict Str LayoutObj} {enc : Str → Str} {base : Path} {spec : Str} {l : LayoutObj}
  {ds : List (FS × Path)} {s s' : FS}

theorem RootMade.filled (h : RootMade E s s' base spec (some l)) (hgood : GoodParams E.raw l) : Filled E enc base spec l [] s' where
  wf := h.wf
  dir := h.dir
  good := hgood
  params := fun _ l0 h0 => h.params l rfl l0 h0
  files := by
    intro q b
    constructor
    · intro hq
      left
      cases q with
      | nil => rw [List.append_nil, h.dir] at hq; cases hq
      | cons w q =>
        rcases h.only w q (by rw [hq]; simp) with ⟨rfl, rfl⟩ | ⟨l', hl', ⟨rfl, rfl⟩ | ⟨hc, e | ⟨_, e2⟩⟩⟩
        · rw [h.declaration] at hq
          cases hq
          exact .declaration
        · cases hl'
          rw [h.layoutFile l rfl] at hq
          cases hq
          exact .layout
        · cases hl'
          obtain ⟨c, hc⟩ := Option.ne_none_iff_exists'.mp hc
          rw [e] at hq ⊢
          rw [h.config l c rfl hc] at hq
          cases hq
          exact .config hc
        · rw [hq] at e2; cases e2
    · rintro (hr | ⟨d, hd, _⟩)
      · cases hr with
        | declaration => exact h.declaration
        | layout => exact h.layoutFile l rfl
        | config hc => exact h.config l _ rfl hc
      · cases hd
  dirs := by
    intro q hq
    cases q with
    | nil => exact .inl rfl
    | cons w q =>
      right
      rcases h.only w q (by rw [hq]; simp) with ⟨rfl, rfl⟩ | ⟨l', hl', ⟨rfl, rfl⟩ | ⟨hc, e | ⟨e, e2⟩⟩⟩
      · rw [h.declaration] at hq; cases hq
      · rw [h.layoutFile l' hl'] at hq; cases hq
      · cases hl'
        obtain ⟨c, hc⟩ := Option.ne_none_iff_exists'.mp hc
        rw [e, h.config l c rfl hc] at hq
        cases hq
      · cases hl'
        obtain ⟨c, hc⟩ := Option.ne_none_iff_exists'.mp hc
        obtain ⟨t, ht⟩ := e
        refine ⟨t ++ [c!"config.json"], utf8 (E.lib.dumps (.obj c)), ?_⟩
        rw [← List.append_assoc (w :: q), ht]
        exact h.config l c rfl hc

theorem Filled.elsewhere (h : Filled E enc base spec l ds s) (hw : s'.WF) (hs : ∀ q, base <+: q → look s' q = look s q) :
    Filled E enc base spec l ds s' where
  wf := hw
  dir := by rw [hs base List.prefix_rfl, h.dir]
  good := h.good
  params := by
    intro hc l0 h0
    rw [readParams_same (hs _ (List.prefix_append _ _))]
    exact h.params hc l0 h0
  files := by intro q b; rw [hs _ (List.prefix_append _ _)]; exact h.files q b
  dirs := by
    intro q hq
    rw [hs _ (List.prefix_append _ _)] at hq
    rcases h.dirs q hq with h1 | ⟨t, b, h1⟩
    · exact .inl h1
    · exact .inr ⟨t, b, by rw [hs _ (List.prefix_append _ _)]; exact h1⟩

/-- The layout of a storage root to which directories were added is that with which it was made. -/
theorem Filled.layout_used (h : Filled E enc base spec l ds s) (hlib : E.lib.Lawful)
    (hreg : ∃ l0, Dict.get? reg l.name = some l0 ∧ l0.name = l.name) {r r' : StorageRoot} (hlay : r.layout = none)
    (hc : checkStructure E reg s base r = (r', .ok ())) : r'.layout = some l := by
  obtain ⟨t, v, _, _, _, _, hcl⟩ := checkStructure_ok hc
  obtain ⟨l0, hl0, hn⟩ := hreg
  have hfile := (h.files _ _).mpr (.inl .layout)
  obtain ⟨d, hd, hx1, hx2⟩ := layoutDocument_read hlib l
  unfold checkLayout at hcl
  rw [show resolve base Store.layoutFile = base ++ [c!"ocfl_layout.json"] from resolve_name base (by decide)] at hcl
  rw [if_pos (by unfold exists_; rw [hfile]; rfl), parseLayoutFile_iff.mpr ⟨_, d, _, hfile, hd, hx1, hx2⟩] at hcl
  dsimp only at hcl
  rw [if_neg (by unfold layoutIsSupported Dict.has; simp [hl0])] at hcl
  have e : layoutOf reg { r with specVersion := some v, layoutName := some l.name } =
      ({ r with specVersion := some v, layoutName := some l.name, layout := some l0 }, .ok (some l0)) := by
    unfold layoutOf
    dsimp only
    rw [hlay]
    dsimp only
    unfold getLayout
    rw [hl0]
  rw [e] at hcl
  dsimp only at hcl
  split at hcl
  · cases (Prod.mk.inj hcl).2
  · rename_i l' hl'
    obtain ⟨rfl, _⟩ := Prod.mk.inj hcl
    dsimp only
    congr 1
    by_cases hcfg : l.config = none
    · have hs : l0 = l ∧ ∀ c, l0.setParams E.raw c = .error .attributeError := by
        clear h hc hcl hl' hfile hd hx1 hx2 e hl0
        cases l <;> cases l0 <;> first
          | exact ⟨rfl, fun _ => rfl⟩
          | (exfalso; simp [LayoutObj.config] at hcfg; done)
          | (exfalso; simp [LayoutObj.name] at hn; done)
      unfold LayoutObj.readParams LayoutObj.checkAndSet at hl'
      split_ifs at hl'
      · split at hl'
        · cases hl'
        · split at hl'
          · split at hl'
            · cases hl'
            · rw [hs.2] at hl'; cases hl'
          · cases hl'
      · cases hl'
        exact hs.1
    · rw [h.params hcfg l0 hn] at hl'
      exact (Except.ok.inj hl').symm

theorem Filled.added (h : Filled E enc base spec l ds s) {src : Path} {ws : List Str} (hc : CopiedTo s s' src (base ++ ws))
    (hp : PlaceOf E enc l (s, src) ws) : Filled E enc base spec l (ds ++ [(s, src)]) s' := by
  have hinv : ∃ b, look s' (base ++ (ws ++ [c!"inventory.json"])) = some (.file b) := by
    obtain ⟨inv, i, h1, _⟩ := hp
    obtain ⟨b, hb⟩ := parse_file h1
    exact ⟨b, by rw [← List.append_assoc]; exact (hc.files _ b).mpr hb⟩
  have hfree : ∀ r n, look s (base ++ (ws ++ r)) ≠ some n := by
    intro r n hl
    by_cases hr : r = []
    · subst hr
      rw [List.append_nil, hc.absent] at hl
      cases hl
    · rw [← List.append_assoc] at hl
      have := FS.look_above h.wf r hr hl
      rw [hc.absent] at this
      cases this
  refine ⟨hc.wf, hc.above _ (List.prefix_append _ _), h.good, ?_, ?_, ?_⟩
  · intro hcfg l0 h0
    obtain ⟨c, hcc⟩ := Option.ne_none_iff_exists'.mp hcfg
    have hf := (h.files _ _).mpr (.inl (.config hcc))
    rw [readParams_same (s := s) (by rw [h0, hc.keeps h.wf hf, hf])]
    exact h.params hcfg l0 h0
  · intro q b
    constructor
    · intro hq
      by_cases h1 : ws <+: q
      · obtain ⟨r, rfl⟩ := h1
        rw [← List.append_assoc] at hq
        exact .inr ⟨(s, src), by simp, ws, r, hp, rfl, (hc.files r b).mp hq⟩
      · by_cases h2 : q <+: ws
        · rw [hc.above _ ((List.prefix_append_right_inj base).mpr h2)] at hq
          cases hq
        · rw [hc.frame _ (fun h => h2 ((List.prefix_append_right_inj base).mp h))
            (fun h => h1 ((List.prefix_append_right_inj base).mp h))] at hq
          rcases (h.files q b).mp hq with hr | ⟨d, hd, hr⟩
          · exact .inl hr
          · exact .inr ⟨d, by simp [hd], hr⟩
    · rintro (hr | ⟨d, hd, ws', r, hpl, rfl, hf⟩)
      · exact hc.keeps h.wf ((h.files q b).mpr (.inl hr))
      · rcases List.mem_append.mp hd with hd | hd
        · exact hc.keeps h.wf ((h.files _ b).mpr (.inr ⟨d, hd, ws', r, hpl, rfl, hf⟩))
        · rw [List.mem_singleton] at hd
          subst hd
          rw [hpl.unique hp, ← List.append_assoc]
          exact (hc.files r b).mpr hf
  · intro q hq
    right
    by_cases h1 : ws <+: q
    · obtain ⟨r, rfl⟩ := h1
      rw [← List.append_assoc] at hq
      rcases (hc.dirs r).mp hq with rfl | ⟨r', b, ⟨t, rfl⟩, _, hb⟩
      · obtain ⟨b, hb⟩ := hinv
        exact ⟨[c!"inventory.json"], b, by simpa using hb⟩
      · refine ⟨t, b, ?_⟩
        have := (hc.files _ b).mpr hb
        simpa using this
    · by_cases h2 : q <+: ws
      · obtain ⟨t, rfl⟩ := h2
        obtain ⟨b, hb⟩ := hinv
        exact ⟨t ++ [c!"inventory.json"], b, by simpa using hb⟩
      · have hq0 : q ≠ [] := fun e => h2 (by rw [e]; exact List.nil_prefix)
        rw [hc.frame _ (fun h => h2 ((List.prefix_append_right_inj base).mp h))
          (fun h => h1 ((List.prefix_append_right_inj base).mp h))] at hq
        rcases h.dirs q hq with h3 | ⟨t, b, h3⟩
        · exact absurd h3 hq0
        · exact ⟨t, b, hc.keeps h.wf h3⟩

end

/-- What `add` has done, in a storage root to which directories were added. -/
theorem Filled.add {E : Env} (hlib : E.lib.Lawful) (hraw : Spec.HexDigests E.raw) {reg : Dict Str LayoutObj}
    (hgood : ∀ n l, getLayout reg n = .ok l → GoodParams E.raw l) {enc : Str → Str} (henc : GoodEncoder enc) (hdot : ∀ i, '.' ∉ enc i)
    {spec : Str} {l : LayoutObj} (hreg : ∃ l0, Dict.get? reg l.name = some l0 ∧ l0.name = l.name)
    {ds : List (FS × Path)} {s s' : FS} {r : StorageRoot} (h : Filled E enc (absComps E.cwd r.root) spec l ds s)
    (own : r.layout = none) {objdir i path : Str} (done : run (add E reg enc r objdir) s = (s', .ok (i, path))) :
    ∃ ws, Below path ws ∧ l.path E.raw enc i = .ok path ∧ i ≠ [] ∧ PlaceOf E enc l (s, absComps E.cwd objdir) ws ∧ look s (absComps E.cwd objdir) = some .dir ∧
      CopiedTo s s' (absComps E.cwd objdir) (absComps E.cwd r.root ++ ws) := by
  have hb := C54_layouts hraw henc hdot hgood (r := r) (by rw [own]; simp) h.wf
  obtain ⟨r', l', ws, j, h1, h2, h3, h4, h5, h6, h7, hne, hsrc, hc⟩ := add_copied hlib h.wf hb done
  obtain ⟨inv, hp, hid⟩ := add_parsed done
  rw [layoutOf_some (h.layout_used hlib hreg own h1)] at h2
  cases h2
  exact ⟨ws, h4, h3, hne, ⟨inv, i, hp, hid, h4.2.1, by rw [← h4.2.2]; exact h3⟩, hsrc, hc⟩

theorem deposits_filled {E : Env} (hlib : E.lib.Lawful) (hword : WordClass E.isWord) (hraw : Spec.HexDigests E.raw)
    (hcwd : ∀ w ∈ E.cwd, SafeName w) {reg : Dict Str LayoutObj} (hgood : ∀ n l, getLayout reg n = .ok l → GoodParams E.raw l)
    {enc : Str → Str} (henc : GoodEncoder enc) (hdot : ∀ i, '.' ∉ enc i)
    {root spec : Str} {l : LayoutObj} (hreg : ∃ l0, Dict.get? reg l.name = some l0 ∧ l0.name = l.name)
    {ds : List (FS × Path)} {s : FS} (h : Deposits E reg enc root spec l ds s) :
    Filled E enc (absComps E.cwd root) spec l ds s := by
  induction h with
  | @made s s' r r' sv params wf own root_eq done layout spec_eq =>
    subst root_eq
    rcases initialize_total hlib hword hraw hcwd wf hgood r (by rw [own]; simp) sv params with ⟨e, he⟩ | ⟨s2, r2, spec', h1, h2, h3, h4, h5, _, h6, _⟩
    · rw [done] at he; cases (Prod.mk.inj he).2
    · rw [done] at h1
      obtain ⟨rfl, h1⟩ := Prod.mk.inj h1
      cases h1
      rw [spec_eq] at h4
      cases h4
      rw [layout] at h2
      exact h2.filled (h6 l layout)
  | elsewhere before wf same ih => exact ih.elsewhere wf same
  | @add ds s s' r objdir i path before own root_eq done ih =>
    subst root_eq
    obtain ⟨ws, _, _, _, hp, _, hc⟩ := ih.add hlib hraw hgood henc hdot hreg own done
    exact ih.added hc hp

end Store
end Ocfl
