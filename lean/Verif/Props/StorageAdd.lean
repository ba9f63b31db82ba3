import Verif.Proofs.StoreAdd
import Verif.Props.StorageRoot
import Verif.Props.LayoutConfig

/-!
# C54: adding an object to a storage root
-/

namespace Ocfl

open Spec FS Prog Store

theorem openRoot_ok {E : Env} {r : StorageRoot} {s : FS} {base : Path} (h : openRoot E r s = .ok base) :
    base = absComps E.cwd r.root ∧ look s base = some .dir := by
  unfold openRoot fswOpen at h
  dsimp only at h
  cases hd : isdir s (absComps E.cwd r.root) with
  | false => rw [hd] at h; cases h
  | true =>
    rw [hd] at h
    cases h
    exact ⟨rfl, isdir_iff.mp hd⟩

/-- The paths of the layout that are free are below the storage root. -/
def PathsBelow (E : Env) (reg : Dict Str LayoutObj) (enc : Str → Str) (r : StorageRoot) (s : FS) : Prop :=
  ∀ base r', openRoot E r s = .ok base → checkStructure E reg s base r = (r', .ok ()) → ∀ l i p, i ≠ [] →
    (layoutOf reg r').2 = .ok (some l) → l.path E.raw enc i = .ok p → look s (resolve base p) = none → ∃ ws, Below p ws

/-- A free path of a layout with good parameters is below the root. -/
theorem path_below {raw : Str → Bytes → Str} (hraw : Spec.HexDigests raw) {enc : Str → Str} (henc : GoodEncoder enc)
    (hdot : ∀ i, '.' ∉ enc i) {l : LayoutObj} (hl : GoodParams raw l) {i p : Str} (hi : i ≠ []) (h : l.path raw enc i = .ok p)
    {s : FS} (hw : s.WF) {base : Path} (hb : look s base = some .dir) (hfree : look s (resolve base p) = none) :
    ∃ ws, Below p ws := by
  cases l with
  | flatDirect =>
    obtain ⟨rfl, hs⟩ := (C45 i p).mp h
    exact ⟨[p], by simp, by simpa using hs, rfl⟩
  | flatQuoted =>
    have hne : i ≠ c!"." ∧ i ≠ c!".." := by
      constructor
      · rintro rfl
        cases h
        rw [show resolve base (quotePlus c!".") = base from rfl, hb] at hfree
        cases hfree
      · rintro rfl
        cases h
        have e : resolve base (quotePlus c!"..") = base.dropLast := rfl
        rw [e] at hfree
        by_cases h0 : base = []
        · rw [h0] at hfree; cases hfree
        · have := FS.look_above hw (p := base.dropLast) [base.getLast h0] (by simp)
            (by rw [List.dropLast_append_getLast]; exact hb)
          rw [hfree] at this
          cases this
    have := (C47_partial hne.1 hne.2 h).1
    exact ⟨[p], by simp, by simpa using this, rfl⟩
  | hashNTuple alg ts nt =>
    obtain ⟨p', ws, h', hb', _⟩ := C46 hraw hl.1 hi
    have : LayoutObj.path raw enc (.hashNTuple alg ts nt) i = .ok p' := h'
    rw [h] at this
    cases this
    exact ⟨ws, hb'⟩
  | tupleTree ts =>
    have hts : 0 < ts := by have := hl.1; omega
    obtain ⟨hc, h'⟩ := tupleTree_eq henc hts hi
    have : LayoutObj.path raw enc (.tupleTree ts) i = _ := h'
    rw [h] at this
    cases this
    refine ⟨_, by simp, fun w hm => ?_, rfl⟩
    have hd : '.' ∉ w := by
      rcases List.mem_append.mp hm with hm | hm
      · exact fun hx => hdot i (segs_mem hts hm hx)
      · rw [List.mem_singleton] at hm; subst hm; exact hdot i
    refine ⟨(hc w hm).1, ?_, ?_, (hc w hm).2⟩
    · rintro rfl; simp at hd
    · rintro rfl; simp at hd
  | uuidQuadtree pfx =>
    obtain ⟨gs, t, hlen, hg, _, _, rfl⟩ := uuidQuadtree_iff.mp h
    refine ⟨gs, ?_, fun w hm => group_safe (hg w hm), rfl⟩
    rintro rfl
    cases hlen

/-- **C54**: the paths of the layouts are below the root. -/
theorem C54_layouts {E : Env} (hraw : Spec.HexDigests E.raw) {enc : Str → Str} (henc : GoodEncoder enc) (hdot : ∀ i, '.' ∉ enc i)
    {reg : Dict Str LayoutObj} (hreg : ∀ n l, getLayout reg n = .ok l → GoodParams E.raw l) {r : StorageRoot}
    (hr : ∀ l, r.layout = some l → GoodParams E.raw l) {s : FS} (hw : s.WF) : PathsBelow E reg enc r s := by
  intro base r' hb hc l i p hi hl hp hfree
  obtain ⟨_, hbd⟩ := openRoot_ok hb
  have hlo : ∀ r l, (∀ l, r.layout = some l → GoodParams E.raw l) → (layoutOf reg r).2 = .ok (some l) → GoodParams E.raw l := by
    intro r l hr h
    unfold layoutOf at h
    split at h
    · split at h
      · cases h
      · rename_i hg
        cases h
        exact hreg _ _ hg
    · exact hr l (Except.ok.inj h)
  refine path_below hraw henc hdot (hlo r' l ?_ hl) hi hp hw hbd hfree
  obtain ⟨t, v, _, _, _, _, hcl⟩ := checkStructure_ok hc
  unfold checkLayout at hcl
  split_ifs at hcl
  · split at hcl
    · cases (Prod.mk.inj hcl).2
    · dsimp only at hcl
      split_ifs at hcl
      · cases (Prod.mk.inj hcl).2
      · split at hcl
        · cases (Prod.mk.inj hcl).2
        · cases (Prod.mk.inj hcl).2
        · rename_i r1 l1 hl1
          split at hcl
          · cases (Prod.mk.inj hcl).2
          · rename_i l2 hp2
            obtain ⟨rfl, _⟩ := Prod.mk.inj hcl
            intro l3 h3
            cases h3
            have h1 := hlo _ l1 (by exact fun l h => hr l h) (congrArg Prod.snd hl1)
            unfold LayoutObj.readParams at hp2
            split_ifs at hp2
            · split at hp2
              · cases hp2
              · split at hp2
                · exact goodParams_of_accepted hraw hp2
                · cases hp2
            · cases hp2; exact h1
  · obtain ⟨rfl, _⟩ := Prod.mk.inj hcl
    exact fun l h => hr l h

/-- What `add` has done to the tree of files, given the root, the directory of the object and the place for it. -/
theorem add_copied {E : Env} (hlib : E.lib.Lawful) {reg : Dict Str LayoutObj} {enc : Str → Str} {r : StorageRoot} {objdir : Str}
    {s s' : FS} (hw : s.WF) (hbelow : PathsBelow E reg enc r s) {i path : Str}
    (h : run (add E reg enc r objdir) s = (s', .ok (i, path))) :
    ∃ r' l ws j, checkStructure E reg s (absComps E.cwd r.root) r = (r', .ok ()) ∧ (layoutOf reg r').2 = .ok (some l) ∧
      l.path E.raw enc i = .ok path ∧ Below path ws ∧ look s (absComps E.cwd r.root) = some .dir ∧
      StoredJson E.lib s (absComps E.cwd objdir ++ [c!"inventory.json"]) j ∧ Member j c!"id" (.str i) ∧ i ≠ [] ∧
      look s (absComps E.cwd objdir) = some .dir ∧
      CopiedTo s s' (absComps E.cwd objdir) (absComps E.cwd r.root ++ ws) := by
  rcases add_cases E reg enc r objdir s with ⟨e, he⟩ | ⟨base, r', src, inv, i', path', h1, h2, h3, h4, h5, h6, h7, h8⟩
  · rw [h] at he; cases (Prod.mk.inj he).2
  · obtain ⟨rfl, hb⟩ := openRoot_ok h1
    obtain ⟨rfl, hs⟩ := openObj_ok h3
    obtain ⟨l, hl, hp⟩ := objectPath_ok h1 h2 h6
    obtain ⟨j, alg, m0, vs0, states, m, vs, style, n, hj, hrf, _⟩ := parse_readFrom hlib h4
    have hid := (hrf.id i').mp h5
    have hne : i' ≠ [] := by
      obtain ⟨cd, style, n, hr⟩ := hrf.rules
      obtain ⟨x, hx, hm⟩ := hr.id
      have e := (hrf.id x).mpr hm
      rw [h5] at e
      cases e
      exact hx
    obtain ⟨ws, hws⟩ := hbelow _ _ h1 h2 l i' path' hne hl hp h7
    rcases h8 with ⟨s1, hc, ha⟩ | ⟨s1, e, _, ha⟩
    · rw [ha] at h
      obtain ⟨rfl, h⟩ := Prod.mk.inj h
      cases h
      refine ⟨r', l, ws, j, h2, hl, hp, hws, hb, ?_, hid, hne, hs, ?_⟩
      · rw [look_inventory] at hj; exact hj
      · rcases copydir_total hw hws.2.1 hs hb with ⟨s2, hc', hct⟩ | ⟨e, hc'⟩
        · rw [← hws.2.2, hc] at hc'
          cases hc'
          exact hct
        · rw [← hws.2.2, hc] at hc'
          cases (Prod.mk.inj hc').2
    · rw [ha] at h
      cases (Prod.mk.inj h).2

/-- **C54** (partial): adding an object copies all its files to the path that the layout gives, where there was
nothing before, and changes nothing else; the object is listed under that path exactly if it has one
declaration, the path is not in the extensions directory, and no directory above has files. Missing: that these
conditions hold, see `C54_violated`. The paths of the layout have to be below the root; that they are is
`C54_layouts`. -/
theorem C54_partial {E : Env} (hlib : E.lib.Lawful) {reg : Dict Str LayoutObj} {enc : Str → Str} {r : StorageRoot} {objdir : Str}
    {s s' : FS} (hw : s.WF) (hbelow : PathsBelow E reg enc r s) {i path : Str}
    (h : run (add E reg enc r objdir) s = (s', .ok (i, path))) :
    -- the identifier is that of the object, and the path that of the layout
    (∃ j, StoredJson E.lib s (absComps E.cwd objdir ++ [c!"inventory.json"]) j ∧ Member j c!"id" (.str i)) ∧
    (∃ r' l, checkStructure E reg s (absComps E.cwd r.root) r = (r', .ok ()) ∧ (layoutOf reg r').2 = .ok (some l) ∧
      l.path E.raw enc i = .ok path) ∧
    ∃ ws, Below path ws ∧ look s (absComps E.cwd r.root ++ ws) = none ∧
      -- the files there are those of the object
      (∀ q b, look s' (absComps E.cwd r.root ++ ws ++ q) = some (.file b) ↔ look s (absComps E.cwd objdir ++ q) = some (.file b)) ∧
      -- what was there is still there, and there are no other files
      (∀ q n, look s q = some n → look s' q = some n) ∧
      (∀ q b, look s' q = some (.file b) → look s q = some (.file b) ∨ absComps E.cwd r.root ++ ws <+: q) ∧
      -- the listing
      ∃ l', objectPaths E true s' (absComps E.cwd r.root) = .ok l' ∧
        (path ∈ l'.paths ↔ LooseObjectDir s (absComps E.cwd objdir) ∧ ws.head? ≠ some c!"extensions" ∧
          Unobstructed s (absComps E.cwd r.root) ws) := by
  obtain ⟨r', l, ws, j, h1, h2, h3, h4, h5, h6, h7, _, _, hc⟩ := add_copied hlib hw hbelow h
  refine ⟨⟨j, h6, h7⟩, ⟨r', l, h1, h2, h3⟩, ws, h4, hc.absent, hc.files, ?_, ?_, ?_⟩
  · intro q n hq
    by_cases hp : q <+: absComps E.cwd r.root ++ ws
    · cases n with
      | dir => exact hc.above q hp
      | file b => exact absurd hq (hc.clear q b hp)
    · by_cases hp' : absComps E.cwd r.root ++ ws <+: q
      · exfalso
        obtain ⟨t, rfl⟩ := hp'
        by_cases ht : t = []
        · exact hp (by simp [ht])
        · have := FS.look_above hw t ht hq
          rw [hc.absent] at this
          cases this
      · rw [hc.frame q hp hp', hq]
  · intro q b hq
    by_cases hp' : absComps E.cwd r.root ++ ws <+: q
    · exact .inr hp'
    · left
      by_cases hp : q <+: absComps E.cwd r.root ++ ws
      · rw [hc.above q hp] at hq; cases hq
      · rwa [hc.frame q hp hp'] at hq
  · obtain ⟨l', hl', _, _, hpaths, _⟩ := C53_exact E hc.wf (hc.above _ (List.prefix_append _ _)) (.inl rfl)
    refine ⟨l', hl', ?_⟩
    rw [hpaths]
    constructor
    · rintro ⟨q, e, hq, ho⟩
      have hqs : ∀ w ∈ q, SafeName w := fun w hm => look_names hc.wf hq.dir w (by simp [hm])
      have e := joinWith_inj' h4.2.1 hqs (h4.2.2.symm.trans e)
      subst e
      exact ⟨hc.loose_target.mp ho, (hc.reached h4.1).mp hq⟩
    · rintro ⟨ho, hq⟩
      exact ⟨ws, h4.2.2, (hc.reached h4.1).mpr hq, hc.loose_target.mpr ho⟩

/-- The object is the only one that is new in the listing. -/
theorem C54_listing {E : Env} (hlib : E.lib.Lawful) {reg : Dict Str LayoutObj} {enc : Str → Str} {r : StorageRoot} {objdir : Str}
    {s s' : FS} (hw : s.WF) (hbelow : PathsBelow E reg enc r s) {i path : Str}
    (h : run (add E reg enc r objdir) s = (s', .ok (i, path))) {l l' : Listing}
    (hl : objectPaths E true s (absComps E.cwd r.root) = .ok l) (hl' : objectPaths E true s' (absComps E.cwd r.root) = .ok l')
    (hin : path ∈ l'.paths) (p : Str) : p ∈ l'.paths ↔ p = path ∨ p ∈ l.paths := by
  obtain ⟨r', lay, ws, j, h1, h2, h3, h4, h5, h6, h7, _, _, hc⟩ := add_copied hlib hw hbelow h
  obtain ⟨l1, e1, _, _, hp, _⟩ := C53_exact E hw h5 (log := true) (.inl rfl)
  obtain ⟨l2, e2, _, _, hp', _⟩ := C53_exact E hc.wf (hc.above _ (List.prefix_append _ _)) (log := true) (.inl rfl)
  rw [hl] at e1
  rw [hl'] at e2
  cases e1
  cases e2
  rw [hp'] at hin ⊢
  rw [hp]
  obtain ⟨q, e, hq, ho⟩ := hin
  have hqs : ∀ w ∈ q, SafeName w := fun w hm => look_names hc.wf hq.dir w (by simp [hm])
  have e := joinWith_inj' h4.2.1 hqs (h4.2.2.symm.trans e)
  subst e
  have hr := (hc.reached h4.1).mp hq
  have key := hc.listing hw h4.1 (hc.loose_target.mp ho) hr.1 hr.2
  constructor
  · rintro ⟨q', e', hq'⟩
    rcases (key q').mp hq' with he | hq'
    · exact .inl (by rw [e', he, ← h4.2.2])
    · exact .inr ⟨q', e', hq'⟩
  · rintro (rfl | ⟨q, e, hq⟩)
    · exact ⟨ws, h4.2.2, (key ws).mpr (.inl rfl)⟩
    · exact ⟨q, e, (key q).mpr (.inr hq)⟩

/-- **C54**, refusal: if anything is wrong, nothing has changed. -/
theorem C54_refuses {E : Env} (hlib : E.lib.Lawful) {reg : Dict Str LayoutObj} {enc : Str → Str} {r : StorageRoot} {objdir : Str}
    {s s' : FS} (hw : s.WF) (hbelow : PathsBelow E reg enc r s) {e : PyErr} (h : run (add E reg enc r objdir) s = (s', .error e)) :
    s' = s := by
  rcases add_cases E reg enc r objdir s with ⟨e, he⟩ | ⟨base, r', src, inv, i', path', h1, h2, h3, h4, h5, h6, h7, h8⟩
  · rw [h] at he; exact (Prod.mk.inj he).1
  · obtain ⟨rfl, hb⟩ := openRoot_ok h1
    obtain ⟨rfl, hs⟩ := openObj_ok h3
    obtain ⟨l, hl, hp⟩ := objectPath_ok h1 h2 h6
    obtain ⟨j, alg, m0, vs0, states, m, vs, style, n, hj, hrf, _⟩ := parse_readFrom hlib h4
    have hne : i' ≠ [] := by
      obtain ⟨cd, style, n, hr⟩ := hrf.rules
      obtain ⟨x, hx, hm⟩ := hr.id
      have e := (hrf.id x).mpr hm
      rw [h5] at e
      cases e
      exact hx
    obtain ⟨ws, hws⟩ := hbelow _ _ h1 h2 l i' path' hne hl hp h7
    rcases h8 with ⟨s1, _, ha⟩ | ⟨s1, e, hc, ha⟩
    · rw [ha] at h
      cases (Prod.mk.inj h).2
    · rw [ha] at h
      obtain ⟨rfl, h⟩ := Prod.mk.inj h
      rcases copydir_total hw hws.2.1 hs hb with ⟨s2, hc', hct⟩ | ⟨e, hc'⟩
      · rw [← hws.2.2, hc] at hc'
        cases (Prod.mk.inj hc').2
      · rw [← hws.2.2, hc] at hc'
        exact (Prod.mk.inj hc').1

/-- **C54**: an object whose path is taken is refused. -/
theorem C54_taken {E : Env} {reg : Dict Str LayoutObj} {enc : Str → Str} {r r' : StorageRoot} {objdir : Str}
    {s : FS} {i path : Str} {inv : Inv} {l : LayoutObj}
    (hb : look s (absComps E.cwd r.root) = some .dir) (hc : checkStructure E reg s (absComps E.cwd r.root) r = (r', .ok ()))
    (hs : look s (absComps E.cwd objdir) = some .dir) (hi : parseInventory E (absComps E.cwd objdir) s = .ok inv)
    (hid : inv.id = some i) (hl : (layoutOf reg r').2 = .ok (some l)) (hp : l.path E.raw enc i = .ok path)
    (hx : look s (resolve (absComps E.cwd r.root) path) ≠ none) :
    run (add E reg enc r objdir) s = (s, .error .storageRootException) := by
  have h1 : openRoot E r s = .ok (absComps E.cwd r.root) := by
    unfold openRoot fswOpen
    dsimp only
    rw [isdir_iff.mpr hb]
    rfl
  have h2 : (objectPath E reg enc s r' i).2 = .ok path := by
    unfold objectPath
    cases hlo : layoutOf reg r' with
    | mk r1 x =>
      rw [hlo] at hl
      dsimp only at hl
      subst hl
      exact hp
  unfold add
  rw [run_get, h1]
  dsimp only
  rw [hc]
  dsimp only
  rw [openObj_dir hs]
  dsimp only
  rw [hi]
  dsimp only
  rw [hid]
  dsimp only
  cases ho : objectPath E reg enc s r' i with
  | mk r1 x =>
    rw [ho] at h2
    dsimp only at h2
    subst h2
    dsimp only
    rw [if_pos]
    · rfl
    · unfold exists_
      cases hl : look s (resolve (absComps E.cwd r.root) path) with
      | none => exact absurd hl hx
      | some n => rfl

/-! ## Examples -/

theorem demo_pathsBelow (s : FS) (hw : s.WF) : PathsBelow demoEnv defaultRegistry demoEnc anyStore s :=
  C54_layouts demoRaw_hex demoEnc_good demoEnc_noDot defaultRegistry_good (by intro l h; cases h) hw

theorem outcome_eq {α : Type} {x : FS × Py α} {y : Py α} (h : x.2 = y) : x = (x.1, y) := Prod.ext rfl h

theorem demo_added : run (add demoEnv defaultRegistry demoEnc anyStore c!"obj") storeFS = (storeAdded, .ok (c!"info:x", c!"info:x")) := by
  unfold storeAdded
  exact outcome_eq (by decide +kernel)

/-- What `C54_partial` says of it. -/
example : ∃ l, objectPaths demoEnv true storeAdded (absComps demoEnv.cwd anyStore.root) = .ok l ∧
    (c!"info:x" ∈ l.paths ↔ LooseObjectDir storeFS (absComps demoEnv.cwd c!"obj") ∧ Unobstructed storeFS (absComps demoEnv.cwd anyStore.root) [c!"info:x"]) := by
  obtain ⟨_, _, ws, h1, _, _, _, _, l, hl, hiff⟩ := C54_partial demoEnv_lawful storeFS_wf (demo_pathsBelow _ storeFS_wf) demo_added
  have e := joinWith_inj' (p := ws) (q := [c!"info:x"]) h1.2.1 (by decide) (h1.2.2.symm.trans rfl)
  subst e
  exact ⟨l, hl, hiff.trans ⟨fun h => ⟨h.1, h.2.2⟩, fun h => ⟨h.1, by decide, h.2⟩⟩⟩

/-- A refusal of this kind, for any tree of files. -/
theorem demo_refused {s : FS} (hw : s.WF) {e : PyErr} (h : (run (add demoEnv defaultRegistry demoEnc anyStore c!"obj") s).2 = .error e) :
    run (add demoEnv defaultRegistry demoEnc anyStore c!"obj") s = (s, .error e) := by
  have h := outcome_eq h
  have h2 := C54_refuses demoEnv_lawful hw (demo_pathsBelow _ hw) h
  rwa [h2] at h

/-- Adding it again is refused, and changes nothing. -/
example : run (add demoEnv defaultRegistry demoEnc anyStore c!"obj") storeAdded = (storeAdded, .error .storageRootException) :=
  demo_refused storeAdded_wf (by decide +kernel)

/-! ## Where the code does not do it -/

/-- **C54** fails for an object with the identifier `extensions` and the flat layout: it is added, and not
listed. -/
theorem C54_violated : run (add demoEnv defaultRegistry demoEnc anyStore c!"obj") extMade = (extAdded, .ok (c!"extensions", c!"extensions")) ∧
    objectPaths demoEnv true extAdded [c!"w", c!"root"] = .ok ⟨[], [], 3⟩ := by
  refine ⟨?_, by decide +kernel⟩
  unfold extAdded
  exact outcome_eq (by decide +kernel)

end Ocfl
