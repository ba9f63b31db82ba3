import Verif.Proofs.DepositOrder
import Verif.Props.StoreHistory

/-!
# C92: the order in which objects are added to a storage root
-/

namespace Ocfl

open Spec FS Prog Store

/-- **C92**: what is in a storage root depends only on its layout, on the version that it declares and on what is in
the objects that were added to it: not on the order in which they were added, on where the objects and the
storage root are, on what else there is, or on what happened in between. -/
theorem C92_same {E : Env} (hE : Libraries E) (hraw : Spec.HexDigests E.raw) (hcwd : ∀ w ∈ E.cwd, SafeName w)
    {reg : Dict Str LayoutObj} (hgood : ∀ n l, getLayout reg n = .ok l → GoodParams E.raw l) {enc : Str → Str} (henc : GoodEncoder enc)
    (hdot : ∀ i, '.' ∉ enc i) {root root' spec : Str} {l : LayoutObj}
    (hreg : ∃ l0, Dict.get? reg l.name = some l0 ∧ l0.name = l.name) {ds ds' es : List (FS × Path)} {s s' : FS}
    (h : Deposits E reg enc root spec l ds s) (h' : Deposits E reg enc root' spec l ds' s')
    (hperm : es.Perm ds') (hsame : List.Forall₂ SameFilesIn ds es) (q : List Str) :
    look s (absComps E.cwd root ++ q) = look s' (absComps E.cwd root' ++ q) := by
  have f := deposits_filled hE.json hE.word hraw hcwd hgood henc hdot hreg h
  have f' := deposits_filled hE.json hE.word hraw hcwd hgood henc hdot hreg h'
  have half : ∀ {xs ys : List (FS × Path)}, List.Forall₂ SameFilesIn xs ys → ∀ d ∈ xs, ∃ d' ∈ ys, SameFilesIn d d' := by
    intro xs ys h
    induction h with
    | nil => intro d hd; cases hd
    | cons hab _ ih =>
      intro d hd
      rcases List.mem_cons.mp hd with rfl | hd
      · exact ⟨_, by simp, hab⟩
      · obtain ⟨d', h1, h2⟩ := ih d hd
        exact ⟨d', by simp [h1], h2⟩
  have fwd : ∀ d ∈ ds, ∃ d' ∈ ds', SameFilesIn d d' := by
    intro d hd
    obtain ⟨d', h1, h2⟩ := half hsame d hd
    exact ⟨d', hperm.mem_iff.mp h1, h2⟩
  have bwd : ∀ d ∈ ds', ∃ d' ∈ ds, SameFilesIn d d' := by
    intro d hd
    obtain ⟨d', h1, h2⟩ := half (List.Forall₂.imp (fun _ _ h q b => (h q b).symm) (List.Forall₂.flip hsame)) d (hperm.mem_iff.mpr hd)
    exact ⟨d', h1, h2⟩
  have trans : ∀ {xs ys : List (FS × Path)} {a b : FS} {p p' : Path}, Filled E enc p spec l xs a → Filled E enc p' spec l ys b →
      (∀ d ∈ xs, ∃ d' ∈ ys, SameFilesIn d d') → ∀ q c, look a (p ++ q) = some (.file c) → look b (p' ++ q) = some (.file c) := by
    intro xs ys a b p p' fa fb hd q c hq
    rw [fa.files] at hq
    rw [fb.files]
    rcases hq with hq | ⟨d, hm, ws, r, hp, e, hl⟩
    · exact .inl hq
    · obtain ⟨d', hm', hs⟩ := hd d hm
      exact .inr ⟨d', hm', ws, r, hp.same hs, e, (hs r c).mp hl⟩
  have dirs : ∀ {xs ys : List (FS × Path)} {a b : FS} {p p' : Path}, Filled E enc p spec l xs a → Filled E enc p' spec l ys b →
      (∀ d ∈ xs, ∃ d' ∈ ys, SameFilesIn d d') → ∀ q, look a (p ++ q) = some .dir → look b (p' ++ q) = some .dir := by
    intro xs ys a b p p' fa fb hd q hq
    rcases fa.dirs q hq with rfl | ⟨t, c, ht⟩
    · rw [List.append_nil]; exact fb.dir
    · have ht0 : t ≠ [] := by
        rintro rfl
        rw [List.append_nil, hq] at ht
        cases ht
      have := trans fa fb hd _ _ ht
      rw [← List.append_assoc] at this
      exact FS.look_above fb.wf t ht0 this
  exact look_ext (fun b => ⟨trans f f' fwd q b, trans f' f bwd q b⟩) ⟨dirs f f' fwd q, dirs f' f bwd q⟩

theorem adds_facts {E : Env} (hE : Libraries E) (hraw : Spec.HexDigests E.raw) (hcwd : ∀ w ∈ E.cwd, SafeName w)
    {reg : Dict Str LayoutObj} (hgood : ∀ n l, getLayout reg n = .ok l → GoodParams E.raw l) {enc : Str → Str} (henc : GoodEncoder enc)
    (hdot : ∀ i, '.' ∉ enc i) {spec : Str} {l : LayoutObj}
    (hreg : ∃ l0, Dict.get? reg l.name = some l0 ∧ l0.name = l.name) {r : StorageRoot} (hlay : r.layout = none)
    {xs : List (Str × Str × Str)} {s s' : FS} (hx : Adds E reg enc r xs s s') :
    ∀ {ds : List (FS × Path)}, Deposits E reg enc r.root spec l ds s →
    (∀ x ∈ xs, ¬ absComps E.cwd r.root <+: absComps E.cwd x.1 ∧ ¬ absComps E.cwd x.1 <+: absComps E.cwd r.root) →
    (∀ x ∈ xs, ∀ ws, Below x.2.2 ws → ws.head? ≠ some c!"extensions" ∧ ∀ t, ws.head? ≠ some (c!"0=" ++ t)) →
    xs.Pairwise (fun x y => ∀ ws ws', Below x.2.2 ws → Below y.2.2 ws' → ws <+: ws' → ws = ws') →
    (xs = [] ∨ ∃ v, Ready E reg (absComps E.cwd r.root) v l s ∧ (r.specVersion = none ∨ r.specVersion = some v)) ∧
    ∃ ps : List ((Str × Str × Str) × List Str), ps.map Prod.fst = xs ∧ (∀ p ∈ ps, Addable E enc (absComps E.cwd r.root) l s p.1 p.2) ∧
      ps.Pairwise Beside ∧ CopiedAll E (absComps E.cwd r.root) ps s s' := by
  induction hx with
  | nil => exact fun _ _ _ _ => ⟨.inl rfl, [], rfl, by simp, .nil, by simp, by simp, by simp, fun _ _ => rfl⟩
  | @cons s s1 s' objdir i path xs done rest ih =>
    intro ds h hap hpl hpw
    have f := deposits_filled hE.json hE.word hraw hcwd hgood henc hdot hreg h
    obtain ⟨ws, a1, a2, _, _, a5, a6⟩ := f.add hE.json hraw hgood henc hdot hreg hlay done
    obtain ⟨inv, a7, a8⟩ := add_parsed done
    obtain ⟨ra, _, _, _, ca, _⟩ := add_copied hE.json f.wf (C54_layouts hraw henc hdot hgood (r := r) (by rw [hlay]; simp) f.wf) done
    obtain ⟨hw1, hw2⟩ := List.pairwise_cons.mp hpw
    obtain ⟨_, ps, e, h1, h2, h3⟩ := ih (.add h hlay rfl done) (fun x hx => hap x (by simp [hx])) (fun x hx => hpl x (by simp [hx])) hw2
    have h0 : ∀ p ∈ ps, Beside ((objdir, i, path), ws) p := by
      intro p hp
      have hno : ¬ p.2 <+: ws := fun hpre => by
        have := a6.above (absComps E.cwd r.root ++ p.2) ((List.prefix_append_right_inj _).mpr hpre)
        rw [(h1 p hp).absent] at this
        cases this
      refine ⟨fun hpre => hno ?_, hno⟩
      rw [hw1 p.1 (by rw [← e]; exact List.mem_map_of_mem hp) ws p.2 a1 (h1 p hp).below hpre]
      exact List.prefix_rfl
    refine ⟨.inr (f.ready hE.json hreg hlay ca), ((objdir, i, path), ws) :: ps, by rw [List.map_cons, e], ?_, List.pairwise_cons.mpr ⟨h0, h2⟩,
      h3.cons (p := ((objdir, i, path), ws)) a6 h0 (fun p hp => ⟨(h1 p hp).apart1, (h1 p hp).apart2⟩)⟩
    intro p hp
    rcases List.mem_cons.mp hp with rfl | hp
    · obtain ⟨b1, b2⟩ := hap (objdir, i, path) (by simp)
      obtain ⟨c1, c2⟩ := hpl (objdir, i, path) (by simp) ws a1
      exact ⟨a5, ⟨inv, a7, a8⟩, a2, a1, a6.absent, a6.clear, b1, b2, c1, c2⟩
    · exact (h1 p hp).before (x := (objdir, i, path)) f.wf a6

/-- **C92**: objects that can be added one after the other can be added in any other order as well, with the same
identifiers and paths, and then everything is as it would have been; if none of them goes into another, into the
extensions directory, or where declarations are. -/
theorem C92_partial {E : Env} (hE : Libraries E) (hraw : Spec.HexDigests E.raw) (hcwd : ∀ w ∈ E.cwd, SafeName w)
    {reg : Dict Str LayoutObj} (hgood : ∀ n l, getLayout reg n = .ok l → GoodParams E.raw l) {enc : Str → Str} (henc : GoodEncoder enc)
    (hdot : ∀ i, '.' ∉ enc i) {spec : Str} {l : LayoutObj}
    (hreg : ∃ l0, Dict.get? reg l.name = some l0 ∧ l0.name = l.name) {r : StorageRoot} (hlay : r.layout = none)
    {ds : List (FS × Path)} {s s' : FS} (h : Deposits E reg enc r.root spec l ds s)
    {xs ys : List (Str × Str × Str)} (hx : Adds E reg enc r xs s s') (hperm : ys.Perm xs)
    (hap : ∀ x ∈ xs, ¬ absComps E.cwd r.root <+: absComps E.cwd x.1 ∧ ¬ absComps E.cwd x.1 <+: absComps E.cwd r.root)
    (hpl : ∀ x ∈ xs, ∀ ws, Below x.2.2 ws → ws.head? ≠ some c!"extensions" ∧ ∀ t, ws.head? ≠ some (c!"0=" ++ t))
    (hpw : xs.Pairwise (fun x y => ∀ ws ws', Below x.2.2 ws → Below y.2.2 ws' → ws <+: ws' → ws = ws')) :
    ∃ t, Adds E reg enc r ys s t ∧ ∀ q, look t q = look s' q := by
  obtain ⟨hr, ps, rfl, h1, h2, h3⟩ := adds_facts hE hraw hcwd hgood henc hdot hreg hlay hx h hap hpl hpw
  obtain ⟨zs, hz, rfl⟩ := perm_map_inv hperm
  rcases hr with h0 | ⟨v, hr, hv⟩
  · have : ps = [] := List.map_eq_nil_iff.mp h0
    subst this
    have := hz.eq_nil
    subst this
    cases hx
    exact ⟨s, .nil, fun _ => rfl⟩
  · obtain ⟨t, ha, hc⟩ := hr.adds hlay hv (fun p hp => h1 p (hz.mem_iff.mp hp)) ((hz.pairwise_iff (fun h => ⟨h.2, h.1⟩)).mpr h2)
    exact ⟨t, ha, h3.unique hc (fun p => hz.mem_iff.symm)⟩

theorem adds_paths {E : Env} (hE : Libraries E) (hraw : Spec.HexDigests E.raw) (hcwd : ∀ w ∈ E.cwd, SafeName w)
    {reg : Dict Str LayoutObj} (hgood : ∀ n l, getLayout reg n = .ok l → GoodParams E.raw l) {enc : Str → Str} (henc : GoodEncoder enc)
    (hdot : ∀ i, '.' ∉ enc i) {spec : Str} {l : LayoutObj}
    (hreg : ∃ l0, Dict.get? reg l.name = some l0 ∧ l0.name = l.name) {r : StorageRoot} (hlay : r.layout = none)
    {xs : List (Str × Str × Str)} {s s' : FS} (hx : Adds E reg enc r xs s s') :
    ∀ {ds : List (FS × Path)}, Deposits E reg enc r.root spec l ds s → ∀ x ∈ xs, l.path E.raw enc x.2.1 = .ok x.2.2 ∧ x.2.1 ≠ [] := by
  induction hx with
  | nil => exact fun _ _ h => by cases h
  | @cons s s1 s' objdir i path xs done rest ih =>
    intro ds h x hx
    rcases List.mem_cons.mp hx with rfl | hx
    · have f := deposits_filled hE.json hE.word hraw hcwd hgood henc hdot hreg h
      obtain ⟨ws, a1, a2, a3, _⟩ := f.add hE.json hraw hgood henc hdot hreg hlay done
      exact ⟨a2, a3⟩
    · exact ih (.add h hlay rfl done) x hx

/-- **C92**: with layouts other than the tuple tree, objects that can be added one after the other can be added in any
other order, if none has the identifier `extensions`, and, in the flat layout, none an identifier that looks like a
declaration. -/
theorem C92_layouts {E : Env} (hE : Libraries E) (hraw : Spec.HexDigests E.raw) (hcwd : ∀ w ∈ E.cwd, SafeName w)
    {reg : Dict Str LayoutObj} (hgood : ∀ n l, getLayout reg n = .ok l → GoodParams E.raw l) {enc : Str → Str} (henc : GoodEncoder enc)
    (hdot : ∀ i, '.' ∉ enc i) {spec : Str} {l : LayoutObj} (htree : ∀ n, l ≠ .tupleTree n)
    (hreg : ∃ l0, Dict.get? reg l.name = some l0 ∧ l0.name = l.name) {r : StorageRoot} (hlay : r.layout = none)
    {ds : List (FS × Path)} {s s' : FS} (h : Deposits E reg enc r.root spec l ds s)
    {xs ys : List (Str × Str × Str)} (hx : Adds E reg enc r xs s s') (hperm : ys.Perm xs)
    (hap : ∀ x ∈ xs, ¬ absComps E.cwd r.root <+: absComps E.cwd x.1 ∧ ¬ absComps E.cwd x.1 <+: absComps E.cwd r.root)
    (hi : ∀ x ∈ xs, x.2.1 ≠ c!"extensions" ∧ (l = .flatDirect → ∀ t, x.2.1 ≠ c!"0=" ++ t)) :
    ∃ t, Adds E reg enc r ys s t ∧ ∀ q, look t q = look s' q := by
  have hp := adds_paths hE hraw hcwd hgood henc hdot hreg hlay hx h
  obtain ⟨k, hk⟩ := path_shape hraw (enc := enc) (deposits_filled hE.json hE.word hraw hcwd hgood henc hdot hreg h).good htree
  have shape : ∀ x ∈ xs, ∀ ws, Below x.2.2 ws → ws.length = k ∧ ws.head? ≠ some c!"extensions" ∧ ∀ t, ws.head? ≠ some (c!"0=" ++ t) := by
    intro x hx ws hb
    obtain ⟨h1, h2⟩ := hp x hx
    obtain ⟨k1, k2, k3⟩ := hk x.2.1 ws h2 hb.2.1 (by rw [← hb.2.2]; exact h1)
    exact ⟨k1, k2 (hi x hx).1, k3 (hi x hx).2⟩
  refine C92_partial hE hraw hcwd hgood henc hdot hreg hlay h hx hperm hap (fun x hx ws hb => (shape x hx ws hb).2) ?_
  refine List.Pairwise.imp_of_mem ?_ (List.pairwise_of_forall (R := fun _ _ => True) (fun _ _ => trivial))
  intro x y hx hy _ ws ws' h1 h2 hpre
  exact hpre.eq_of_length (by rw [(shape x hx ws h1).1, (shape y hy ws' h2).1])

/-! ## An example -/

/-- Two objects, of which the second has the identifier `i`, and a new storage root with the flat layout. -/
def pairFS (i : Str) : FS := (run (initializeRoot demoEnv defaultRegistry flatStore none none)
  (run (create demoEnv { demoObj with id := some i } c!"src" (some demoMeta) (some c!"obj2")) demoMade).1).1

def pairOne : FS := (run (add demoEnv defaultRegistry demoEnc anyStore c!"obj") (pairFS c!"info:y")).1

def pairBoth : FS := (run (add demoEnv defaultRegistry demoEnc anyStore c!"obj2") pairOne).1

theorem pair_made : Deposits demoEnv defaultRegistry demoEnc c!"root" c!"1.1" .flatDirect [] (pairFS c!"info:y") := by
  obtain ⟨r', h1, h2, h3⟩ := layout_made (x := run (initializeRoot demoEnv defaultRegistry flatStore none none)
    (run (create demoEnv { demoObj with id := some c!"info:y" } c!"src" (some demoMeta) (some c!"obj2")) demoMade).1)
    (l := .flatDirect) (v := c!"1.1") (by decide +kernel)
  exact .made ⟨by decide +kernel, by decide +kernel, by decide +kernel, by decide +kernel⟩ (r := flatStore) rfl rfl h1 h2 h3

theorem pair_adds : Adds demoEnv defaultRegistry demoEnc anyStore [(c!"obj", c!"info:x", c!"info:x"), (c!"obj2", c!"info:y", c!"info:y")]
    (pairFS c!"info:y") pairBoth :=
  .cons (s1 := pairOne) (outcome_eq (by decide +kernel)) (.cons (outcome_eq (by decide +kernel)) .nil)

/-- The two objects can be added in the other order. -/
example : ∃ t, Adds demoEnv defaultRegistry demoEnc anyStore [(c!"obj2", c!"info:y", c!"info:y"), (c!"obj", c!"info:x", c!"info:x")]
    (pairFS c!"info:y") t ∧ ∀ q, look t q = look pairBoth q :=
  C92_layouts demoLibraries demoRaw_hex demoEnv_cwd defaultRegistry_good demoEnc_good demoEnc_noDot (by simp)
    ⟨.flatDirect, rfl, rfl⟩ rfl pair_made pair_adds (List.Perm.swap _ _ _) (by decide +kernel) (by
      intro x hx
      simp only [List.mem_cons, List.not_mem_nil, or_false] at hx
      rcases hx with rfl | rfl
      all_goals
        refine ⟨by decide, fun _ t h => ?_⟩
        have := congrArg List.head? h
        cases this)

theorem pair_apart (x : List Str) : look (run (add demoEnv defaultRegistry demoEnc anyStore c!"obj2") (pairFS c!"info:y")).1
    (absComps demoEnv.cwd c!"obj" ++ x) = look (pairFS c!"info:y") (absComps demoEnv.cwd c!"obj" ++ x) :=
  same_below (p := absComps demoEnv.cwd c!"obj") (by decide +kernel) _ (List.prefix_append _ _)

/-- What is in the storage root does not depend on the order. -/
example (t : FS) (h : Adds demoEnv defaultRegistry demoEnc anyStore
    [(c!"obj2", c!"info:y", c!"info:y"), (c!"obj", c!"info:x", c!"info:x")] (pairFS c!"info:y") t) (q : List Str) :
    look t (absComps demoEnv.cwd c!"root" ++ q) = look pairBoth (absComps demoEnv.cwd c!"root" ++ q) := by
  cases h with
  | cons d1 h =>
    cases h with
    | cons d2 h =>
      cases h
      have e := congrArg Prod.fst d1
      dsimp only at e
      subst e
      refine C92_same demoLibraries demoRaw_hex demoEnv_cwd defaultRegistry_good demoEnc_good demoEnc_noDot ⟨.flatDirect, rfl, rfl⟩
        (.add (.add pair_made (r := anyStore) rfl rfl d1) (r := anyStore) rfl rfl d2)
        (.add (.add pair_made (r := anyStore) (objdir := c!"obj") (i := c!"info:x") (path := c!"info:x") (s' := pairOne) rfl rfl
          (outcome_eq (by decide +kernel))) (r := anyStore) (objdir := c!"obj2") (i := c!"info:y") (path := c!"info:y") rfl rfl
          (outcome_eq (by decide +kernel)))
        (List.Perm.swap _ _ _) (.cons (fun x b => ?_) (.cons (fun x b => ?_) .nil)) q
      · have e : look (pairFS c!"info:y") (absComps demoEnv.cwd c!"obj2" ++ x) = look pairOne (absComps demoEnv.cwd c!"obj2" ++ x) :=
          same_below (p := absComps demoEnv.cwd c!"obj2") (by decide +kernel) _ (List.prefix_append _ _)
        dsimp only
        rw [e]
      · dsimp only
        rw [pair_apart]

/-! ## Where the order matters -/

/-- **C92** fails for an object with an identifier that looks like a declaration: it can be added after another object, but the
other object cannot be added after it. -/
theorem C92_violated : (∃ s', Adds demoEnv defaultRegistry demoEnc anyStore [(c!"obj", c!"info:x", c!"info:x"), (c!"obj2", c!"0=x", c!"0=x")]
      (pairFS c!"0=x") s') ∧
    ∃ t, run (add demoEnv defaultRegistry demoEnc anyStore c!"obj2") (pairFS c!"0=x") = (t, .ok (c!"0=x", c!"0=x")) ∧
      run (add demoEnv defaultRegistry demoEnc anyStore c!"obj") t = (t, .error .storageRootException) :=
  ⟨⟨_, .cons (s1 := (run (add demoEnv defaultRegistry demoEnc anyStore c!"obj") (pairFS c!"0=x")).1) (outcome_eq (by decide +kernel))
      (.cons (outcome_eq (by decide +kernel)) .nil)⟩,
    (run (add demoEnv defaultRegistry demoEnc anyStore c!"obj2") (pairFS c!"0=x")).1, outcome_eq (by decide +kernel),
    demo_refused ⟨by decide +kernel, by decide +kernel, by decide +kernel, by decide +kernel⟩ (by decide +kernel)⟩

end Ocfl
