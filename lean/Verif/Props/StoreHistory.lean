import Verif.Proofs.StoreSound

/-!
# C78: a storage root from its making to its listing
-/

namespace Ocfl

open Spec FS Prog Store

section
variable {E : Env} {reg : Dict Str LayoutObj} {enc : Str → Str} {root spec : Str} {l : LayoutObj}
  {objs : List (List Str × Str)} {s : FS}

theorem perm_map_inv {α β : Type} {f : α → β} : ∀ {xs : List α} {ys : List β}, ys.Perm (xs.map f) → ∃ zs : List α, zs.Perm xs ∧ ys = zs.map f := by
  intro xs ys h
  generalize hm : xs.map f = ms at h
  induction h generalizing xs with
  | nil => exact ⟨[], by rw [List.map_eq_nil_iff.mp hm], rfl⟩
  | cons x _ ih =>
    cases xs with
    | nil => cases hm
    | cons a xs =>
      obtain ⟨zs, h1, h2⟩ := ih (List.cons.inj hm).2
      exact ⟨a :: zs, h1.cons a, by rw [h2, List.map_cons, (List.cons.inj hm).1]⟩
  | swap x y t =>
    match xs, hm with
    | a :: b :: xs, hm =>
      simp only [List.map_cons, List.cons.injEq] at hm
      obtain ⟨rfl, rfl, rfl⟩ := hm
      exact ⟨b :: a :: xs, List.Perm.swap _ _ _, rfl⟩
  | trans _ _ ih1 ih2 =>
    obtain ⟨zs, h1, h2⟩ := ih2 hm
    obtain ⟨zs', h3, h4⟩ := ih1 h2.symm
    exact ⟨zs', h3.trans h1, h4⟩

/-- The traversal gives the objects. -/
theorem Store.StoreSound.listed {base : Path} (h : StoreSound E reg enc base spec l objs s) {log : Bool}
    (hlog : log = true ∨ l.config = none ∨ l.name ∈ Store.registeredExtensions) :
    ∃ zs : List (List Str × Str), zs.Perm objs ∧ objectPaths E log s base = .ok ⟨zs.map (fun o => joinWith '/' o.1), [], 0⟩ := by
  obtain ⟨li, hl, hn, _, hp, he, hx⟩ := C53_exact E h.wf h.dir (log := log) (by
    rcases hlog with h1 | h1 | h1
    · exact .inl h1
    · exact .inr (fun w hw => absurd h1 (h.extensions w (by rw [hw]; simp)).2.2)
    · exact .inr (fun w hw => by rw [(h.extensions w (by rw [hw]; simp)).2.1]; exact h1))
  have hperm : li.paths.Perm (objs.map (fun o => joinWith '/' o.1)) := by
    rw [List.perm_ext_iff_of_nodup hn]
    · intro p
      rw [hp, List.mem_map]
      constructor
      · rintro ⟨ws, rfl, hr, hlo⟩
        obtain ⟨o, ho, rfl⟩ := h.found hr (.inl (loose_bearing hlo))
        exact ⟨o, ho, rfl⟩
      · rintro ⟨o, ho, rfl⟩
        exact ⟨o.1, rfl, h.reached ho, looseObjectDir_of (objectDir_of_valid (h.objects o ho).valid)⟩
    · refine List.Nodup.map_on ?_ h.nodup
      intro o ho o' ho' e
      have := joinWith_inj' (h.names o ho).2 (h.names o' ho').2 e
      exact h.apart o ho o' ho' (by rw [this]; exact List.prefix_rfl)
  obtain ⟨zs, h1, h2⟩ := perm_map_inv hperm
  refine ⟨zs, h1, ?_⟩
  have e1 : li.errors = [] := by
    rw [List.eq_nil_iff_forall_not_mem]
    intro p hm
    obtain ⟨ws, _, hr, hno, hf⟩ := (he p).mp hm
    obtain ⟨o, ho, rfl⟩ := h.found hr hf
    exact hno (looseObjectDir_of (objectDir_of_valid (h.objects o ho).valid))
  have e2 : li.extensionErrors = 0 := hx.mpr (fun w b hw => by
    have := (h.extensions w (by rw [hw]; simp)).1
    rw [hw] at this
    cases this)
  rw [hl, ← h2, ← e1, ← e2]

theorem Store.StoreSound.identified {base : Path} (h : StoreSound E reg enc base spec l objs s) : ∀ {zs : List (List Str × Str)},
    (∀ o ∈ zs, o ∈ objs) →
    identifiers E s base (zs.map (fun o => joinWith '/' o.1)) = .ok (zs.map (fun o => (joinWith '/' o.1, some o.2)))
  | [], _ => rfl
  | o :: zs, hm => by
    have ho := hm o (by simp)
    obtain ⟨inv, h1, h2⟩ := (h.objects o ho).parse
    rw [List.map_cons, List.map_cons]
    unfold identifiers idFromInventory
    rw [resolve_join _ (h.names o ho).2, h1]
    dsimp only
    rw [h.identified (fun x hx => hm x (by simp [hx])), h2]

/-- The layout that is used is that of the storage root. -/
theorem Store.StoreSound.layout_used {base : Path} (h : StoreSound E reg enc base spec l objs s)
    (hreg : ∃ l0, Dict.get? reg l.name = some l0 ∧ l0.name = l.name) {r r' : StorageRoot} (hlay : r.layout = none)
    (hc : checkStructure E reg s base r = (r', .ok ())) {l' : LayoutObj} (hl : (layoutOf reg r').2 = .ok (some l')) : l' = l := by
  obtain ⟨t, v, k1, k2, k3, k4, _⟩ := checkStructure_ok hc
  have hd := (declared_iff h.wf h.dir).mp ⟨t, k1, k2, k4⟩
  have ev : v = spec := by
    obtain ⟨b, _, hb, _⟩ := hd.declaration
    have := h.declared.one (c!"ocfl_" ++ v) (by
      rw [show c!"0=" ++ (c!"ocfl_" ++ v) = c!"0=ocfl_" ++ v from rfl, hb]; simp)
    exact List.append_cancel_left this
  subst ev
  rw [h.checks hreg hlay k3] at hc
  obtain ⟨rfl, _⟩ := Prod.mk.inj hc
  rw [layoutOf_some rfl] at hl
  exact ((Option.some.inj (Except.ok.inj hl))).symm

/-- Objects have identifiers. -/
theorem Store.StoreSound.id_ne {base : Path} (h : StoreSound E reg enc base spec l objs s) (hlib : E.lib.Lawful)
    {o : List Str × Str} (ho : o ∈ objs) : o.2 ≠ [] := by
  obtain ⟨inv, h1, h2⟩ := (h.objects o ho).parse
  obtain ⟨j, alg, m0, vs0, states, m, vs, style, n, hj, hrf, _⟩ := parse_readFrom hlib h1
  obtain ⟨cd, style, n, hr⟩ := hrf.rules
  obtain ⟨x, hx, hm⟩ := hr.id
  have e := (hrf.id x).mpr hm
  rw [h2] at e
  cases e
  exact hx

/-- **C78** (partial): a storage root that was made by `initialize` with a layout, and to which valid objects were
added, is valid with all objects in it, and all of them are counted; listing it gives exactly the objects that
were added, each once, with its path and its identifier; and the path of an identifier leads to the
object. Missing: that layouts always give free places, see `C78_place` and `C78_violated_declaration`; that
layouts are registered under the name that they write, see `C78_violated`; without a log, listing raises if the
layout has a configuration and is none of the two known extensions. -/
theorem C78_partial (hE : Libraries E) (hraw : Spec.HexDigests E.raw) (hcwd : ∀ w ∈ E.cwd, SafeName w)
    (hgood : ∀ n l, getLayout reg n = .ok l → GoodParams E.raw l) (henc : GoodEncoder enc) (hdot : ∀ i, '.' ∉ enc i)
    (hreg : ∃ l0, Dict.get? reg l.name = some l0 ∧ l0.name = l.name) (h : StoreHistory E reg enc root spec l objs s)
    {r : StorageRoot} (hroot : r.root = root) (hlay : r.layout = none) (hspec : r.specVersion = none ∨ r.specVersion = some spec)
    (ht : r.traversalErrors = 0) :
    (r.lax = false → ∀ check, ∃ r', validate E reg true check s r = (r', .ok ⟨true, objs.length, objs.length⟩)) ∧
    (r.log = true ∨ l.config = none ∨ l.name ∈ Store.registeredExtensions →
      ∃ out, (listObjects E reg s r).2 = .ok out ∧ out.Perm (objs.map (fun o => (joinWith '/' o.1, some o.2)))) ∧
    (r.layoutName = none → ∀ o ∈ objs, (objectPath E reg enc s r o.2).2 = .ok (joinWith '/' o.1)) := by
  subst hroot
  have hs := store_sound hE.json hE.word hraw hcwd hgood henc hdot hreg h
  refine ⟨fun hlax check => ?_, fun hlog => ?_, fun hname o ho => ?_⟩
  · obtain ⟨zs, hz, hl⟩ := hs.listed (log := true) (.inl rfl)
    have hg : goodObjects E { checkDigests := check, lax := r.lax } s (absComps E.cwd r.root) (zs.map (fun o => joinWith '/' o.1)) =
        .ok (zs.map (fun o => joinWith '/' o.1)).length := by
      apply goodObjects_all
      intro p hm
      obtain ⟨o, ho, rfl⟩ := List.mem_map.mp hm
      have ho := hz.mem_iff.mp ho
      rw [resolve_join _ (hs.names o ho).2]
      exact (Validator.validateAt_iff hE (by exact hlax) hs.wf (hs.objects o ho).dir).mpr
        (ValidObject.unchecked check (hs.objects o ho).valid)
    refine ⟨(validate E reg true check s r).1, Prod.ext rfl ?_⟩
    unfold validate
    dsimp only
    rw [openRoot_dir (r := { r with log := true }) hs.dir]
    dsimp only
    rw [hs.checks hreg (r := { r with log := true }) hlay hspec]
    dsimp only
    rw [hl]
    dsimp only
    rw [if_pos rfl, hg]
    dsimp only
    rw [List.length_map, hz.length_eq, ht]
    rfl
  · obtain ⟨zs, hz, hl⟩ := hs.listed hlog
    refine ⟨_, ?_, hz.map _⟩
    unfold listObjects
    rw [openRoot_dir hs.dir]
    dsimp only
    rw [hs.checks hreg hlay hspec]
    dsimp only
    rw [hl]
    exact hs.identified (fun o ho => hz.mem_iff.mp ho)
  · unfold objectPath
    have e : layoutOf reg r = (r, .ok none) := by
      unfold layoutOf
      rw [hlay, hname]
    rw [e]
    dsimp only
    rw [openRoot_dir hs.dir]
    dsimp only
    rw [hs.checks hreg hlay hspec]
    dsimp only
    rw [layoutOf_some rfl]
    exact hs.path o ho

end

/-! ## Where layouts put objects -/

theorem quotePlus_no_equals (i : Str) : '=' ∉ quotePlus i := by
  intro h
  unfold quotePlus at h
  rw [List.mem_flatMap] at h
  obtain ⟨c, _, h⟩ := h
  split at h
  · revert h; decide
  · split at h
    · rename_i hu
      simp at h; subst h; revert hu; decide
    · rw [List.mem_flatMap] at h
      obtain ⟨b, _, h⟩ := h
      have hb : b.toNat < 256 := b.toNat_lt
      have key : ∀ n, n < 16 → hexDigitUpper n ≠ '=' := by decide
      have k1 := key (b.toNat / 16) (by omega)
      have k2 := key (b.toNat % 16) (by omega)
      simp [pctUpper, Ne.symm k1, Ne.symm k2] at h

theorem encDir_no_equals {raw : Str → Bytes → Str} (hraw : Spec.HexDigests raw) (alg : Str) (b : Bytes) (i : Str) :
    '=' ∉ Layout.encapsulationDirectory i (raw alg b) := by
  have h1 : '=' ∉ Layout.encapsulate i := fun h => absurd (encapsulate_enc h) (by decide)
  have h2 : '=' ∉ raw alg b := fun h => absurd ((hraw alg b).1 _ h) (by decide)
  unfold Layout.encapsulationDirectory
  dsimp only
  split
  · simp only [List.mem_append, not_or]
    exact ⟨⟨fun h => h1 (List.mem_of_mem_take h), by decide⟩, h2⟩
  · exact h1

theorem encDir_extensions {i d : Str} (h : Layout.encapsulationDirectory i d = c!"extensions") : i = c!"extensions" := by
  unfold Layout.encapsulationDirectory at h
  dsimp only at h
  split at h
  · rename_i hl
    have := congrArg List.length h
    simp only [List.length_append, List.length_take] at this
    have e : (c!"extensions").length = 10 := rfl
    omega
  · exact encapsulate_inj (h.trans (by decide +kernel))

/-- Where a layout puts objects: how deep, and with which name first. -/
theorem path_shape {raw : Str → Bytes → Str} (hraw : Spec.HexDigests raw) {enc : Str → Str} {l : LayoutObj} (hl : GoodParams raw l)
    (htree : ∀ n, l ≠ .tupleTree n) : ∃ k, ∀ i ws, i ≠ [] → (∀ w ∈ ws, SafeName w) → l.path raw enc i = .ok (joinWith '/' ws) →
      ws.length = k ∧ (i ≠ c!"extensions" → ws.head? ≠ some c!"extensions") ∧
      ((l = .flatDirect → ∀ t, i ≠ c!"0=" ++ t) → ∀ t, ws.head? ≠ some (c!"0=" ++ t)) := by
  cases l with
  | tupleTree n => exact absurd rfl (htree n)
  | flatDirect =>
    refine ⟨1, fun i ws hi hs h => ?_⟩
    obtain ⟨e, hsafe⟩ := (C45 i _).mp h
    have := joinWith_inj' (p := ws) (q := [i]) hs (by simpa using hsafe) e
    subst this
    simp
  | flatQuoted =>
    refine ⟨1, fun i ws hi hs h => ?_⟩
    have h' : Layout.flatQuoted i = .ok (joinWith '/' ws) := h
    unfold Layout.flatQuoted at h'
    rw [if_neg hi] at h'
    have e := Except.ok.inj h'
    have hws : ws = [quotePlus i] := by
      cases ws with
      | nil => exact absurd (quotePlus_inj (t := []) e) hi
      | cons w ws =>
        cases ws with
        | nil => rw [← show w = quotePlus i from e.symm]
        | cons v ws =>
          exact absurd (by rw [e]; simp [joinWith]) (quotePlus_no_slash i)
    subst hws
    refine ⟨rfl, fun hne h => hne (quotePlus_inj (t := c!"extensions") ((Option.some.inj h).trans (by decide +kernel))), fun _ t h => ?_⟩
    exact quotePlus_no_equals i (by rw [Option.some.inj h]; simp)
  | hashNTuple alg ts nt =>
    refine ⟨nt + 1, fun i ws hi hs h => ?_⟩
    obtain ⟨tuples, h1, h2, h3, h4⟩ := hashNTuple_path hraw hl.1 hi
    have h' : Layout.hashNTuple raw alg ts nt i = .ok (joinWith '/' ws) := h
    rw [h4] at h'
    have := joinWith_inj' hs h3 (Except.ok.inj h').symm
    subst this
    have hhex : ∀ w ∈ tuples, ∀ c ∈ w, c ∈ c!"0123456789abcdef" := by
      intro w hw c hc
      obtain ⟨_, rest, e⟩ := h2
      exact (hraw alg _).1 c (by rw [e]; exact List.mem_append_left _ (List.mem_flatten.mpr ⟨w, hw, hc⟩))
    refine ⟨by simp [h1], fun hne h => ?_, fun _ t h => ?_⟩
    · cases tuples with
      | nil => exact hne (encDir_extensions (Option.some.inj h))
      | cons w tuples =>
        have := hhex w (by simp) 'x' (by rw [Option.some.inj h]; decide)
        revert this; decide
    · cases tuples with
      | nil => exact encDir_no_equals hraw alg _ i (by rw [Option.some.inj h]; simp)
      | cons w tuples =>
        have := hhex w (by simp) '=' (by rw [Option.some.inj h]; simp)
        revert this; decide
  | uuidQuadtree pfx =>
    refine ⟨8, fun i ws hi hs h => ?_⟩
    obtain ⟨gs, t, hlen, hg, _, _, e⟩ := uuidQuadtree_iff.mp h
    have := joinWith_inj' hs (fun w hm => group_safe (hg w hm)) e
    subst this
    cases ws with
    | nil => cases hlen
    | cons g gs =>
      have hg1 := hg g (by simp)
      refine ⟨hlen, fun _ h => ?_, fun _ t h => ?_⟩
      · have := hg1.1
        rw [Option.some.inj h] at this
        cases this
      · have := hg1.2 '=' (by rw [Option.some.inj h]; simp)
        revert this; decide

/-- Layouts other than the tuple tree give free places to all new objects, except to those with the identifier `extensions`,
and, in the flat layout, to those with an identifier that looks like a declaration. -/
theorem C78_place {E : Env} (hE : Libraries E) (hraw : Spec.HexDigests E.raw) (hcwd : ∀ w ∈ E.cwd, SafeName w)
    {reg : Dict Str LayoutObj} (hgood : ∀ n l, getLayout reg n = .ok l → GoodParams E.raw l) {enc : Str → Str} (henc : GoodEncoder enc)
    (hdot : ∀ i, '.' ∉ enc i) {root spec : Str} {l : LayoutObj} (hreg : ∃ l0, Dict.get? reg l.name = some l0 ∧ l0.name = l.name)
    {objs : List (List Str × Str)} {s s' : FS} (h : StoreHistory E reg enc root spec l objs s) (htree : ∀ n, l ≠ .tupleTree n)
    {r : StorageRoot} (hroot : r.root = root) (hlay : r.layout = none) {objdir i path : Str}
    (hadd : run (add E reg enc r objdir) s = (s', .ok (i, path))) (hi : i ≠ c!"extensions")
    (hd : l = .flatDirect → ∀ t, i ≠ c!"0=" ++ t) : ∃ ws, Below path ws ∧ FreePlace objs ws := by
  subst hroot
  have hs := store_sound hE.json hE.word hraw hcwd hgood henc hdot hreg h
  have hb := C54_layouts hraw henc hdot hgood (r := r) (by rw [hlay]; simp) hs.wf
  obtain ⟨r', l', ws, j, h1, h2, h3, h4, h5, h6, h7, hne, hsrc, hc⟩ := add_copied hE.json hs.wf hb hadd
  have hl := hs.layout_used hreg hlay h1 h2
  subst hl
  obtain ⟨k, hk⟩ := path_shape hraw (enc := enc) hs.good htree
  obtain ⟨k1, k2, k3⟩ := hk i ws hne h4.2.1 (by rw [← h4.2.2]; exact h3)
  refine ⟨ws, h4, k2 hi, k3 hd, fun o ho hp => ?_⟩
  have hone : o.2 ≠ [] := hs.id_ne hE.json ho
  obtain ⟨e1, _⟩ := hk o.2 o.1 hone (hs.names o ho).2 (hs.path o ho)
  have e := hp.eq_of_length (by rw [e1, k1])
  have hdir := (hs.objects o ho).dir
  rw [e, hc.absent] at hdir
  cases hdir

/-! ## Making a storage root -/

/-- `initialize` either raises and changes nothing, or the storage root was not there before and is there afterwards: with
a declaration of the version that was asked for, with a layout file that names the layout, with a configuration that
gives the parameters of the layout back when it is read, and with nothing else; and outside nothing is
changed. -/
theorem C78_initialize {E : Env} (hE : Libraries E) (hraw : Spec.HexDigests E.raw) (hcwd : ∀ w ∈ E.cwd, SafeName w) {s : FS} (hw : s.WF)
    {reg : Dict Str LayoutObj} (hgood : ∀ n l, getLayout reg n = .ok l → GoodParams E.raw l) {r : StorageRoot}
    (hlay : r.layout = none) (sv params : Option Str) :
    (∃ e, run (initializeRoot E reg r sv params) s = (s, .error e)) ∨
    ∃ s' r' spec, run (initializeRoot E reg r sv params) s = (s', .ok r') ∧ look s (absComps E.cwd r.root) = none ∧
      look s' (absComps E.cwd r.root) = some .dir ∧ (∀ q, ¬ absComps E.cwd r.root <+: q → look s' q = look s q) ∧
      (∀ v, sv = some v → spec = v) ∧ RootDeclared E s' (absComps E.cwd r.root) spec ∧
      (r.layoutName = none → r'.layout = none ∧ look s' (absComps E.cwd r.root ++ [c!"ocfl_layout.json"]) = none) ∧
      (∀ n, r.layoutName = some n → ∃ l0 l b d, getLayout reg n = .ok l0 ∧ r'.layout = some l ∧ l.name = l0.name ∧
        look s' (absComps E.cwd r.root ++ [c!"ocfl_layout.json"]) = some (.file b) ∧ E.lib.loadb b = some (.obj d) ∧
        Dict.get? d c!"extension" = some (.str l.name) ∧ l0.readParams E.lib E.raw s' (absComps E.cwd r.root) false = .ok l) ∧
      ∀ w q b, look s' (absComps E.cwd r.root ++ w :: q) = some (.file b) →
        w :: q = [c!"0=ocfl_" ++ spec] ∨ w :: q = [c!"ocfl_layout.json"] ∨
        ∃ l, r'.layout = some l ∧ w :: q = [c!"extensions", l.name, c!"config.json"] := by
  rcases initialize_total hE.json hE.word hraw hcwd hw hgood r (by rw [hlay]; simp) sv params with
    h | ⟨s', r', spec, h1, h2, h3, h4, h5, h6, h7, h8, h9⟩
  · exact .inl h
  · have hno : ∀ q, r'.layout = none → look s' (absComps E.cwd r.root ++ c!"ocfl_layout.json" :: q) = none := by
      intro q hn
      cases hx : look s' (absComps E.cwd r.root ++ c!"ocfl_layout.json" :: q) with
      | none => rfl
      | some n =>
        rcases h2.only _ q (by rw [hx]; simp) with ⟨_, e⟩ | ⟨l, e, _⟩
        · cases e
        · rw [hn] at e; cases e
    refine .inr ⟨s', r', spec, h1, h2.absent, h2.dir, h2.frame, h6, h2.declared hE.word h5, fun hn => ?_, fun n hn => ?_, fun w q b hq => ?_⟩
    · have := h9.mpr ⟨hlay, hn⟩
      exact ⟨this, hno [] this⟩
    · cases hl : r'.layout with
      | none => rw [(h9.mp hl).2] at hn; cases hn
      | some l =>
        obtain ⟨n', l0, k1, k2, k3⟩ := h8 l hl hlay
        rw [hn] at k1
        cases k1
        obtain ⟨d, d1, d2, _⟩ := layoutDocument_read hE.json l
        exact ⟨l0, l, _, d, k2, rfl, k3.symm, h2.layoutFile l hl, d1, d2, h2.params l hl l0 k3⟩
    · rcases h2.only w q (by rw [hq]; simp) with ⟨rfl, rfl⟩ | ⟨l, hl, ⟨rfl, rfl⟩ | ⟨_, h | ⟨_, h⟩⟩⟩
      · exact .inl rfl
      · exact .inr (.inl rfl)
      · exact .inr (.inr ⟨l, hl, h⟩)
      · rw [h] at hq; cases hq

/-- `initialize` makes a storage root with a known layout and with its default parameters wherever there is nothing yet and the
directory above is there. -/
theorem C78_makes {E : Env} (hE : Libraries E) (hraw : Spec.HexDigests E.raw) (hcwd : ∀ w ∈ E.cwd, SafeName w) {s : FS} (hw : s.WF)
    {reg : Dict Str LayoutObj} (hgood : ∀ n l, getLayout reg n = .ok l → GoodParams E.raw l) {r : StorageRoot}
    (hlay : r.layout = none) (hname : ∀ n, r.layoutName = some n → ∃ l, Dict.get? reg n = some l) {sv : Option Str}
    (hsv : ∀ v, sv = some v → v ∈ supported) (hcur : sv = none → r.specVersion = none)
    (habs : look s (absComps E.cwd r.root) = none) (hpar : look s (absComps E.cwd (osPathSplit r.root).1) = some .dir) :
    ∃ s' r', run (initializeRoot E reg r sv none) s = (s', .ok r') ∧ r'.specVersion = some (sv.getD c!"1.1") ∧
      ∀ n, r.layoutName = some n → r'.layout = Dict.get? reg n := by
  have hspec : ∃ v, checkSpecVersion sv c!"1.1" r.specVersion = (some v, .ok ()) ∧ v ∈ supported ∧ v = sv.getD c!"1.1" := by
    cases sv with
    | none =>
      refine ⟨c!"1.1", ?_, by decide, rfl⟩
      rw [hcur rfl]
      decide
    | some v =>
      refine ⟨v, ?_, hsv v rfl, rfl⟩
      unfold checkSpecVersion
      dsimp only
      rw [if_neg (by simp)]
      dsimp only
      exact if_pos (hsv v rfl)
  obtain ⟨v, hv, hm, ev⟩ := hspec
  have key : ∀ (r1 : StorageRoot) (layout : Option LayoutObj), r1.root = r.root → (∀ l, layout = some l → GoodParams E.raw l) →
      ∃ s', run (Prog.bind (writeRoot E r1 v layout) (fun _ => .ret (.ok { r1 with layout := layout, specVersion := some v }))) s =
        (s', .ok { r1 with layout := layout, specVersion := some v }) := by
    intro r1 layout hr1 hg
    rcases writeRoot_total hE.json hE.word hraw hcwd hw r1 hm layout hg with ⟨s', h1, _⟩ | ⟨_, h | h⟩
    · exact ⟨s', by rw [run_bind_ok h1]; rfl⟩
    · rw [hr1] at h; exact absurd habs h
    · rw [hr1] at h; exact absurd hpar h
  cases hn : r.layoutName with
  | none =>
    obtain ⟨s', h⟩ := key r none rfl (by simp)
    refine ⟨s', { r with layout := none, specVersion := some v }, ?_, by rw [← ev], by simp⟩
    unfold initializeRoot
    have e : layoutOf reg r = (r, .ok none) := by unfold layoutOf; rw [hlay, hn]
    rw [e]
    dsimp only
    rw [hv]
    exact h
  | some n =>
    obtain ⟨l, hl⟩ := hname n hn
    have hg : getLayout reg n = .ok l := by unfold getLayout; rw [hl]
    obtain ⟨s', h⟩ := key { r with layout := some l } (some l) rfl (by intro l' e; cases e; exact hgood n l hg)
    refine ⟨s', { r with layout := some l, specVersion := some v }, ?_, by rw [← ev], by rintro _ ⟨⟩; exact hl.symm⟩
    unfold initializeRoot
    have e : layoutOf reg r = ({ r with layout := some l }, .ok (some l)) := by unfold layoutOf; rw [hlay, hn]; dsimp only; rw [hg]
    rw [e]
    dsimp only [withParams, Except.map]
    rw [hv]
    exact h

/-! ## Examples -/

theorem layout_made {x : FS × Py StorageRoot} {l : LayoutObj} {v : Str}
    (h : (match x.2 with | .ok r' => decide (r'.layout = some l ∧ r'.specVersion = some v) | .error _ => false) = true) :
    ∃ r', x = (x.1, .ok r') ∧ r'.layout = some l ∧ r'.specVersion = some v := by
  obtain ⟨s, y⟩ := x
  cases y with
  | error e => cases h
  | ok r' =>
    have := of_decide_eq_true h
    exact ⟨r', rfl, this⟩

/-- The storage root of the examples is made, an object is added to it, and gets a second version there. -/
theorem demo_store1 : StoreHistory demoEnv defaultRegistry demoEnc c!"root" c!"1.1" .flatDirect [] storeFS := by
  obtain ⟨r', h1, h2, h3⟩ := layout_made (x := run (initializeRoot demoEnv defaultRegistry flatStore none none) demoMade)
    (l := .flatDirect) (v := c!"1.1") (by decide +kernel)
  exact .made (s := demoMade) demoMade_wf (r := flatStore) rfl rfl h1 h2 h3

theorem same_part {s s' : FS} (f : Path → Bool) (h : s'.filter (fun e => f e.1) = s.filter (fun e => f e.1)) (q : Path)
    (hq : f q = true) : look s' q = look s q := by
  unfold FS.look
  split_ifs
  · rfl
  · have h1 := get?_filter f q hq s'
    have h2 := get?_filter f q hq s
    rw [← h1, ← h2]
    exact congrArg (fun d => Dict.get? d q) h

theorem store_noCollision1 : NoCollision demoEnv.raw (InTrees [FileBelow demoFS (absComps demoEnv.cwd c!"src")]) :=
  NoCollision.mono store_noCollision (fun _ hb => InTrees.append (trees := [_]) hb)

theorem demo_store2 : StoreHistory demoEnv defaultRegistry demoEnc c!"root" c!"1.1" .flatDirect [([c!"info:x"], c!"info:x")] storeAdded := by
  have hv := (C74 demoLibraries demoEnv_cwd store_history1 store_noCollision1 (by decide) (cfg := {}) rfl).mpr (Or.inr (by decide))
  refine .add (r := anyStore) (objdir := c!"obj") demo_store1 rfl rfl ((C73 demoLibraries rfl storeFS_wf).mp hv).2
    (C77_full demoLibraries demoEnv_cwd store_history1 store_noCollision1 (by decide) rfl hv) demo_added (by decide)
    ⟨by decide, fun t h => ?_, by simp⟩
  have := congrArg (fun x : Option Str => (x.getD []).head?) h
  cases this

theorem demo_store3 : StoreHistory demoEnv defaultRegistry demoEnc c!"root" c!"1.1" .flatDirect [([c!"info:x"], c!"info:x")] storeGrown := by
  have hw : storeGrown.WF := by
    obtain ⟨_, _, hs⟩ := history_sound demoEnv_lawful demoRaw_hash demoWord_class demoEnv_cwd store_history3 store_noCollision (by decide)
    exact hs.wf
  have hv := (C74 demoLibraries demoEnv_cwd store_history3 store_noCollision (by decide) (cfg := {}) rfl).mpr (Or.inr (by decide))
  refine .update (o := ([c!"info:x"], c!"info:x")) (.elsewhere demo_store2 storeChanged_wf (same_below (by decide +kernel)))
    (by simp) hw (fun q h1 h2 => ?_) ((C73 demoLibraries rfl hw).mp hv).2 (by decide +kernel)
  refine same_part (fun q => (absComps demoEnv.cwd c!"root").isPrefixOf q && !(absComps demoEnv.cwd c!"root" ++ [c!"info:x"]).isPrefixOf q)
    (by decide +kernel) q ?_
  have e1 : (absComps demoEnv.cwd c!"root").isPrefixOf q = true := List.isPrefixOf_iff_prefix.mpr h1
  have e2 : (absComps demoEnv.cwd c!"root" ++ [c!"info:x"]).isPrefixOf q = false := by
    rw [Bool.eq_false_iff]
    exact fun h => h2 (List.isPrefixOf_iff_prefix.mp h)
  rw [e1, e2]
  rfl

example : (∃ r', validate demoEnv defaultRegistry true true storeGrown anyStore = (r', .ok ⟨true, 1, 1⟩)) ∧
    (listObjects demoEnv defaultRegistry storeGrown anyStore).2 = .ok [(c!"info:x", some c!"info:x")] := by
  obtain ⟨h1, h2, _⟩ := C78_partial demoLibraries demoRaw_hex demoEnv_cwd defaultRegistry_good demoEnc_good demoEnc_noDot
    ⟨.flatDirect, rfl, rfl⟩ demo_store3 (r := anyStore) rfl rfl (Or.inl rfl) rfl
  obtain ⟨out, h3, h4⟩ := h2 (Or.inr (Or.inl rfl))
  refine ⟨h1 rfl true, ?_⟩
  rw [h3, List.perm_singleton.mp h4]
  rfl

/-! ## Where the code does not do it -/

/-- A storage root with the tuple tree layout. -/
def treeStore : StorageRoot := { root := c!"root", layoutName := some c!"nnnn-tuple-tree" }

/-- **C78** fails for the tuple tree layout, which is registered as `nnnn-tuple-tree` but calls itself
`nnnn-tuple-tree-layout`: the storage root is made, but cannot be opened again, and is not valid. -/
theorem C78_violated : ∃ s', (∃ r', run (initializeRoot demoEnv defaultRegistry treeStore none none) demoFS = (s', .ok r') ∧
      r'.layout = some (.tupleTree 2)) ∧
    (listObjects demoEnv defaultRegistry s' anyStore).2 = .error .storageRootException ∧
    (validate demoEnv defaultRegistry true true s' anyStore).2 = .ok ⟨false, 0, 0⟩ := by
  refine ⟨(run (initializeRoot demoEnv defaultRegistry treeStore none none) demoFS).1, ?_, by decide +kernel, by decide +kernel⟩
  obtain ⟨r', h1, h2, _⟩ := layout_made (x := run (initializeRoot demoEnv defaultRegistry treeStore none none) demoFS)
    (l := .tupleTree 2) (v := c!"1.1") (by decide +kernel)
  exact ⟨r', h1, h2⟩

/-- An object with an identifier that looks like a declaration, and a storage root with the flat layout. -/
def declMade : FS := (run (initializeRoot demoEnv defaultRegistry flatStore none none)
  (run (create demoEnv { demoObj with id := some c!"0=x" } c!"src" (some demoMeta) (some c!"obj")) demoFS).1).1

/-- **C78** fails for an object with such an identifier: it is valid, and is added, but then the storage root cannot be opened any
more, and is not valid. -/
theorem C78_violated_declaration : (∃ es, Validator.validateObject demoEnv {} 0 declMade c!"obj" = .ok (true, es)) ∧
    ∃ s', run (add demoEnv defaultRegistry demoEnc anyStore c!"obj") declMade = (s', .ok (c!"0=x", c!"0=x")) ∧
      (listObjects demoEnv defaultRegistry s' anyStore).2 = .error .storageRootException ∧
      (validate demoEnv defaultRegistry true true s' anyStore).2 = .ok ⟨false, 0, 0⟩ :=
  ⟨accepted_object (by decide +kernel), _, outcome_eq (by decide +kernel), by decide +kernel, by decide +kernel⟩

end Ocfl
