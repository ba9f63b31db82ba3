import Verif.Spec.RootState
import Verif.Props.StorageLog

/-!
# C102: calls on one `StorageRoot` do not influence each other
-/

namespace Ocfl
open Spec FS Prog Store

theorem configures_again {raw : Str → Bytes → Str} {config : Dict Str Json} {l l' : LayoutObj} (h : Configures raw config l l') :
    Configures raw config l' l' ∧ l'.name = l.name := by
  cases h with
  | hashNTuple h1 h2 h3 h4 h5 h6 h7 h8 => exact ⟨.hashNTuple h1 h2 h3 h4 h5 h6 h7 h8, rfl⟩
  | tupleTree h1 h2 h3 h4 => exact ⟨.tupleTree h1 h2 h3 h4, rfl⟩
  | uuidQuadtree h1 h2 => exact ⟨.uuidQuadtree h1 h2, rfl⟩

/-- The layout is read again as it is. -/
theorem LayoutIs.read {E : Env} (hraw : Spec.HexDigests E.raw) {reg : Dict Str LayoutObj} {s : FS} {root : Path} {l' : LayoutObj}
    (h : LayoutIs E reg s root (some l')) :
    ∃ name l, parseLayoutFile E s root = .ok name ∧ Dict.get? reg name = some l ∧ l.readParams E.lib E.raw s root false = .ok l' ∧
      l'.readParams E.lib E.raw s root false = .ok l' ∧ ∃ b, look s (root ++ [c!"ocfl_layout.json"]) = some (.file b) := by
  cases h with
  | default h1 h2 h3 h4 h5 h6 =>
    have : l'.readParams E.lib E.raw s root false = .ok l' := by
      unfold LayoutObj.readParams
      rw [resolve_configFile, if_neg (by simp [exists_, h6])]
      rfl
    exact ⟨_, l', parseLayoutFile_iff.mpr ⟨_, _, _, h1, h2, h3, h4⟩, h5, this, this, _, h1⟩
  | @configured b c d config name desc l _ h1 h2 h3 h4 h5 h6 h7 h8 h9 =>
    obtain ⟨ha, hn⟩ := configures_again h9
    refine ⟨_, l, parseLayoutFile_iff.mpr ⟨_, _, _, h1, h2, h3, h4⟩, h5, ?_, ?_, _, h1⟩
    · unfold LayoutObj.readParams
      rw [resolve_configFile, if_pos (by simp [exists_, h6]), read_iff.mpr h6]
      dsimp only
      rw [h7]
      exact (C50_accepts hraw).mpr ⟨h8, h9⟩
    · unfold LayoutObj.readParams
      rw [resolve_configFile, hn, if_pos (by simp [exists_, h6]), read_iff.mpr h6]
      dsimp only
      rw [h7]
      exact (C50_accepts hraw).mpr ⟨by rw [hn]; exact h8, ha⟩

/-- The attributes of a `StorageRoot` that was used on a storage root of version `v` with the layout `lay` only. -/
structure UsedRoot (v : Str) (lay : Option LayoutObj) (r0 r : StorageRoot) : Prop where
  root : r.root = r0.root
  lax : r.lax = r0.lax
  traversal : r.traversalErrors = 0
  spec : r.specVersion = none ∨ r.specVersion = some v
  layout : (r.layout = none ∧ r.layoutName = none) ∨ (r.layout = lay ∧ lay ≠ none)

/-- The path of an object by a layout. -/
def pathBy (E : Env) (enc : Str → Str) (lay : Option LayoutObj) (i : Str) : Py Str :=
  match lay with
  | none => .error .attributeError
  | some l => l.path E.raw enc i

section
variable {E : Env} {reg : Dict Str LayoutObj} {enc : Str → Str} {s : FS} {v : Str} {lay : Option LayoutObj} {r0 r : StorageRoot}

theorem UsedRoot.checks (hraw : Spec.HexDigests E.raw) {base : Path} (hu : UsedRoot v lay r0 r) (h : Orderly E reg base v lay s) :
    ∃ r', checkStructure E reg s base r = (r', .ok ()) ∧ UsedRoot v lay r0 r' ∧ r'.layout = lay ∧ (lay = none → r'.layoutName = none) := by
  obtain ⟨t, h1, h2, h4⟩ := (declared_iff h.wf h.dir).mpr h.declared
  unfold checkStructure
  rw [h1]
  dsimp only
  rw [h2]
  dsimp only
  rw [if_neg (by rintro ⟨a, b⟩; rcases hu.spec with h | h <;> contradiction), h4]
  dsimp only
  unfold checkLayout
  rw [show resolve base Store.layoutFile = base ++ [c!"ocfl_layout.json"] from resolve_name base (by decide)]
  cases lay with
  | none =>
    have hl : look s (base ++ [c!"ocfl_layout.json"]) = none := by
      cases h.layout
      assumption
    rw [if_neg (by simp [exists_, hl])]
    rcases hu.layout with ⟨e1, e2⟩ | ⟨e1, e2⟩
    · exact ⟨_, rfl, ⟨hu.root, hu.lax, hu.traversal, .inr rfl, .inl ⟨e1, e2⟩⟩, e1, fun _ => e2⟩
    · exact absurd rfl e2
  | some l' =>
    obtain ⟨name, l, p1, p2, p3, p4, b, p5⟩ := LayoutIs.read hraw h.layout
    rw [if_pos (by simp [exists_, p5]), p1]
    dsimp only
    rw [if_neg (by unfold layoutIsSupported Dict.has; simp [p2])]
    unfold layoutOf
    dsimp only
    rcases hu.layout with ⟨e1, e2⟩ | ⟨e1, e2⟩
    · rw [e1]
      dsimp only
      unfold getLayout
      rw [p2]
      dsimp only
      rw [p3]
      exact ⟨_, rfl, ⟨hu.root, hu.lax, hu.traversal, .inr rfl, .inr ⟨rfl, by simp⟩⟩, rfl, fun e => by cases e⟩
    · rw [e1]
      dsimp only
      rw [p4]
      exact ⟨_, rfl, ⟨hu.root, hu.lax, hu.traversal, .inr rfl, .inr ⟨rfl, by simp⟩⟩, rfl, fun e => by cases e⟩

/-- The traversal of an orderly storage root finds no errors, with and without a log. -/
theorem Spec.Orderly.traversal {base : Path} (h : Orderly E reg base v lay s) : ∃ l, l.numErrors = 0 ∧ ∀ log, objectPaths E log s base = .ok l := by
  have hreg : ∀ w, look s (base ++ [c!"extensions", w]) = some .dir → w ∈ registeredExtensions := by
    intro w hw
    by_contra hn
    exact h.quiet _ (.extension hw hn)
  refine ⟨_, ?_, fun log => objectPaths_eq h.wf h.dir (.inr hreg)⟩
  have hl := traversalLog_eq (E := E) h.wf h.dir
  have := numErrors_log h.wf h.dir hl (objectPaths_eq h.wf h.dir (.inl rfl))
  rw [this, List.length_eq_zero_iff, List.filter_eq_nil_iff]
  intro line hm
  exact absurd ((mem_traversalLog h.wf h.dir hl).mp hm) (h.quiet line)

theorem UsedRoot.opens (hu : UsedRoot v lay r0 r) : openRoot E r s = openRoot E r0 s := by
  unfold openRoot
  rw [hu.root]

/-- The attributes left behind do not matter for the path of an object. -/
theorem UsedRoot.path (hraw : Spec.HexDigests E.raw) (hu : UsedRoot v lay r0 r)
    (h : Orderly E reg (absComps E.cwd r0.root) v lay s) (i : Str) :
    UsedRoot v lay r0 (objectPath E reg enc s r i).1 ∧ (objectPath E reg enc s r i).2 =
      pathBy E enc lay i := by
  have hopen : openRoot E r s = .ok (absComps E.cwd r0.root) := by
    rw [hu.opens]
    exact openRoot_dir h.dir
  obtain ⟨r', hc, hu', hl, hn⟩ := hu.checks hraw h
  unfold objectPath
  rcases hu.layout with ⟨e1, e2⟩ | ⟨e1, e2⟩
  · have : layoutOf reg r = (r, .ok none) := by
      unfold layoutOf
      rw [e1, e2]
    rw [this]
    dsimp only
    rw [hopen]
    dsimp only
    rw [hc]
    dsimp only
    cases lay with
    | none =>
      have : layoutOf reg r' = (r', .ok none) := by
        unfold layoutOf
        rw [hl, hn rfl]
      rw [this]
      exact ⟨hu', rfl⟩
    | some l =>
      have : layoutOf reg r' = (r', .ok (some l)) := by
        unfold layoutOf
        rw [hl]
      rw [this]
      exact ⟨hu', rfl⟩
  · cases lay with
    | none => exact absurd rfl e2
    | some l =>
      have : layoutOf reg r = (r, .ok (some l)) := by
        unfold layoutOf
        rw [e1]
      rw [this]
      exact ⟨hu, rfl⟩

/-- One call on a `StorageRoot` that has been used. -/
theorem UsedRoot.exec (hraw : Spec.HexDigests E.raw) (h0 : UsedRoot v lay r0 r0) (hu : UsedRoot v lay r0 r)
    (h : Orderly E reg (absComps E.cwd r0.root) v lay s) (c : RootCall) :
    UsedRoot v lay r0 (c.exec E reg enc r s).2.1 ∧ (c.exec E reg enc r s).1 = (c.exec E reg enc r0 s).1 ∧
      (c.exec E reg enc r s).2.2 = (c.exec E reg enc r0 s).2.2 := by
  have ho0 : openRoot E r0 s = .ok (absComps E.cwd r0.root) := openRoot_dir h.dir
  have ho : openRoot E r s = .ok (absComps E.cwd r0.root) := by rw [hu.opens, ho0]
  obtain ⟨r', hc, hu', hl, hn⟩ := hu.checks hraw h
  obtain ⟨r1, hc0, hu0, hl0, hn0⟩ := h0.checks hraw h
  obtain ⟨l, hz, hp⟩ := h.traversal
  cases c with
  | path i =>
    have a := hu.path (enc := enc) hraw h i
    have b := h0.path (enc := enc) hraw h i
    refine ⟨a.1, rfl, ?_⟩
    show RootReply.path _ = RootReply.path _
    rw [a.2, b.2]
  | list =>
    have e : ∀ {x y : StorageRoot}, UsedRoot v lay r0 y → openRoot E x s = .ok (absComps E.cwd r0.root) →
        checkStructure E reg s (absComps E.cwd r0.root) x = (y, .ok ()) →
        listObjects E reg s x = ({ y with traversalErrors := y.traversalErrors + 0 }, identifiers E s (absComps E.cwd r0.root) l.paths) := by
      intro x y _ h1 h2
      unfold listObjects
      rw [h1]
      dsimp only
      rw [h2]
      dsimp only
      rw [hp]
      dsimp only
      rw [hz]
    have ea := e hu' ho hc
    have eb := e hu0 ho0 hc0
    refine ⟨?_, rfl, ?_⟩
    · show UsedRoot v lay r0 (listObjects E reg s r).1
      rw [ea]
      exact ⟨hu'.root, hu'.lax, by simpa using hu'.traversal, hu'.spec, hu'.layout⟩
    · show RootReply.objects _ = RootReply.objects _
      rw [ea, eb]
  | validate vo check =>
    have hlog : ∀ {x : StorageRoot}, UsedRoot v lay r0 x → UsedRoot v lay r0 { x with log := true } :=
      fun hx => ⟨hx.root, hx.lax, hx.traversal, hx.spec, hx.layout⟩
    have e : ∀ {x : StorageRoot}, UsedRoot v lay r0 x → ∃ y, UsedRoot v lay r0 y ∧ Store.validate E reg vo check s x =
        (y, if vo then (match goodObjects E { checkDigests := check, lax := r0.lax } s (absComps E.cwd r0.root) l.paths with
          | .error e => .error e
          | .ok n => .ok ⟨true, l.paths.length, n⟩) else .ok ⟨true, 0, 0⟩) := by
      intro x hx
      have hx' := hlog hx
      obtain ⟨y, hy, huy, _⟩ := hx'.checks hraw h
      have hox : openRoot E { x with log := true } s = .ok (absComps E.cwd r0.root) := by rw [hx'.opens, ho0]
      refine ⟨{ y with traversalErrors := y.traversalErrors + l.numErrors }, ⟨huy.root, huy.lax, by simp [huy.traversal, hz], huy.spec, huy.layout⟩, ?_⟩
      unfold Store.validate
      dsimp only
      rw [hox]
      dsimp only
      rw [hy]
      dsimp only
      rw [hp]
      dsimp only
      rw [huy.lax, huy.traversal, hz]
      cases vo with
      | false => rfl
      | true =>
        rw [if_pos rfl, if_pos rfl]
        cases goodObjects E { checkDigests := check, lax := r0.lax } s (absComps E.cwd r0.root) l.paths <;> rfl
    obtain ⟨y, hy, ea⟩ := e hu
    obtain ⟨z, hz, eb⟩ := e h0
    refine ⟨?_, rfl, ?_⟩
    · show UsedRoot v lay r0 (Store.validate E reg vo check s r).1
      rw [ea]
      exact hy
    · show RootReply.report _ = RootReply.report _
      rw [ea, eb]
  | add objdir =>
    have hprog : run (add E reg enc r objdir) s = run (add E reg enc r0 objdir) s := by
      unfold add
      show run (match openRoot E r s with | .error e => _ | .ok base => _) s = run (match openRoot E r0 s with | .error e => _ | .ok base => _) s
      rw [ho, ho0]
      dsimp only
      rw [hc, hc0]
      dsimp only
      cases openObj E objdir s with
      | error e => rfl
      | ok src =>
        dsimp only
        cases parseInventory E src s with
        | error e => rfl
        | ok inv =>
          dsimp only
          cases inv.id with
          | none => rfl
          | some i =>
            dsimp only
            have a := hu'.path (enc := enc) hraw h i
            have b := hu0.path (enc := enc) hraw h i
            obtain ⟨x, hx⟩ : ∃ x, objectPath E reg enc s r' i = x := ⟨_, rfl⟩
            obtain ⟨y, hy⟩ : ∃ y, objectPath E reg enc s r1 i = y := ⟨_, rfl⟩
            rw [hx] at a ⊢
            rw [hy] at b ⊢
            obtain ⟨x1, x2⟩ := x
            obtain ⟨y1, y2⟩ := y
            have : x2 = y2 := a.2.trans b.2.symm
            subst this
            cases x2 <;> rfl
    refine ⟨?_, ?_, ?_⟩
    · show UsedRoot v lay r0 (afterAdd E reg enc r objdir s)
      unfold afterAdd
      rw [ho]
      dsimp only
      rw [hc]
      dsimp only
      cases openObj E objdir s with
      | error e => exact hu'
      | ok src =>
        dsimp only
        cases parseInventory E src s with
        | error e => exact hu'
        | ok inv => exact (hu'.path (enc := enc) hraw h _).1
    · show (run (add E reg enc r objdir) s).1 = (run (add E reg enc r0 objdir) s).1
      rw [hprog]
    · show RootReply.added _ = RootReply.added _
      rw [hprog]

end

/-- **C102** (partial): calls on one `StorageRoot`, made without a layout name, each have the effect and the result that they have on a new one, if the
storage root has the same version and layout whenever it is looked at and nothing is to be remarked on. In between objects and files may come and go.
Missing: see the theorems on violations. -/
theorem C102_partial {E : Env} (hraw : Spec.HexDigests E.raw) {reg : Dict Str LayoutObj} {enc : Str → Str} {v : Str} {lay : Option LayoutObj}
    {root : Str} {lax : Bool} {spec : Option Str} (hspec : spec = none ∨ spec = some v) {calls : List (RootCall × FS)}
    (h : ∀ c ∈ calls, Orderly E reg (absComps E.cwd root) v lay c.2) :
    rootCalls E reg enc { root := root, lax := lax, specVersion := spec } calls =
      freshRootCalls E reg enc { root := root, lax := lax, specVersion := spec } calls := by
  have h0 : UsedRoot v lay { root := root, lax := lax, specVersion := spec } { root := root, lax := lax, specVersion := spec } :=
    ⟨rfl, rfl, rfl, hspec, .inl ⟨rfl, rfl⟩⟩
  have key : ∀ (calls : List (RootCall × FS)) (r : StorageRoot), UsedRoot v lay { root := root, lax := lax, specVersion := spec } r →
      (∀ c ∈ calls, Orderly E reg (absComps E.cwd root) v lay c.2) →
      rootCalls E reg enc r calls = freshRootCalls E reg enc { root := root, lax := lax, specVersion := spec } calls := by
    intro calls
    induction calls with
    | nil => intro r _ _; rfl
    | cons c cs ih =>
      intro r hu hall
      obtain ⟨c, s⟩ := c
      obtain ⟨a1, a2, a3⟩ := UsedRoot.exec (enc := enc) hraw h0 hu (hall (c, s) (List.mem_cons_self ..)) c
      unfold rootCalls
      dsimp only
      rw [a2, a3, ih _ a1 (fun d hd => hall d (List.mem_cons_of_mem _ hd))]
      rfl
  exact key calls _ h0 h

/-! ## What is missing -/

/-- What a call returned, for comparing. -/
def RootReply.verdict : RootReply → Option Bool
  | .report (.ok rep) => some rep.valid
  | _ => none

/-- **C102** fails: errors of a traversal are never forgotten. A `StorageRoot` that has once validated a storage root with errors says of a storage root
in order that it is not valid. -/
theorem C102_violated :
    (rootCalls demoEnv defaultRegistry demoEnc anyStore [(.validate true true, faultyStore), (.validate true true, storeAdded)]).map
      (fun x => RootReply.verdict x.2) = [some false, some false] ∧
    (freshRootCalls demoEnv defaultRegistry demoEnc anyStore [(.validate true true, faultyStore), (.validate true true, storeAdded)]).map
      (fun x => RootReply.verdict x.2) = [some false, some true] :=
  ⟨by decide +kernel, by decide +kernel⟩

/-- A `StorageRoot` that was given the name of another layout than the storage root has. -/
def otherLayout : StorageRoot := { root := c!"root", layoutName := some c!"0003" }

/-- Where an object was put. -/
def RootReply.place : RootReply → Option Str
  | .added (.ok x) => some x.2
  | _ => none

/-- **C102** fails: after `object_path` has used the layout given by name, `add` puts objects where that layout wants them, though the storage root says
otherwise; a new `StorageRoot` with the same arguments puts the same object into its right place. -/
theorem C102_violated_layout :
    (rootCalls demoEnv defaultRegistry demoEnc otherLayout [(.path c!"info:x", storeFS), (.add c!"obj", storeFS)]).map (fun x => RootReply.place x.2) =
      [none, some (joinWith '/' [c!"000", c!"000", c!"000", c!"info%3ax"])] ∧
    (freshRootCalls demoEnv defaultRegistry demoEnc otherLayout [(.path c!"info:x", storeFS), (.add c!"obj", storeFS)]).map (fun x => RootReply.place x.2) =
      [none, some c!"info:x"] :=
  ⟨by decide +kernel, by decide +kernel⟩

/-- **C102** fails: without a log `list_objects` raises because of an extension, but not after `validate` was called. -/
theorem C102_violated_log :
    (rootCalls demoEnv defaultRegistry demoEnc anyStore [(.validate true true, quadFS), (.list, quadFS)]).map
      (fun x => match x.2 with | .objects r => isOk r | .report r => isOk r | _ => false) = [true, true] ∧
    (freshRootCalls demoEnv defaultRegistry demoEnc anyStore [(.validate true true, quadFS), (.list, quadFS)]).map
      (fun x => match x.2 with | .objects r => isOk r | .report r => isOk r | _ => false) = [true, false] :=
  ⟨by decide +kernel, by decide +kernel⟩

/-- A storage root whose structure is accepted has some layout or none. -/
theorem layoutIs_of {E : Env} {reg : Dict Str LayoutObj} {s : FS} {root : Path} (h : RootLayout E reg s root) : ∃ lay, LayoutIs E reg s root lay := by
  rcases h with h | ⟨b, d, name, desc, l, h1, h2, h3, h4, h5, h6 | ⟨c, config, l', h6, h7, h8, h9⟩⟩
  · exact ⟨none, .none h⟩
  · exact ⟨some l, .default h1 h2 h3 h4 h5 h6⟩
  · exact ⟨some l', .configured h1 h2 h3 h4 h5 h6 h7 h8 h9⟩

theorem orderly_demo {s : FS} (hw : s.WF) {n : Nat} (h1 : (validateFull demoEnv defaultRegistry true true false 100 s anyStore).2 = .ok ⟨⟨true, n, n⟩, [], []⟩)
    (h2 : (checkStructure demoEnv defaultRegistry s [c!"w", c!"root"] anyStore).1.layout = some .flatDirect)
    (h3 : (checkStructure demoEnv defaultRegistry s [c!"w", c!"root"] anyStore).1.specVersion = some c!"1.1")
    (h4 : isOk (checkStructure demoEnv defaultRegistry s [c!"w", c!"root"] anyStore).2 = true) (h5 : look s [c!"w", c!"root"] = some .dir) :
    Orderly demoEnv defaultRegistry [c!"w", c!"root"] c!"1.1" (some .flatDirect) s := by
  obtain ⟨r, hf⟩ := fullReport_eq h1
  have hq : ∀ line, ¬ Remark s [c!"w", c!"root"] line := by
    rcases C98 hw hf with ⟨code, _, h, _⟩ | ⟨_, _, h, _⟩
    · cases h
    · exact fun line hr => List.not_mem_nil ((h line).mpr hr)
  obtain ⟨r', hc⟩ : ∃ r', checkStructure demoEnv defaultRegistry s [c!"w", c!"root"] anyStore = (r', .ok ()) := by
    obtain ⟨u, hu⟩ := isOk_ok h4
    exact ⟨_, Prod.ext rfl hu⟩
  rw [hc] at h2 h3
  obtain ⟨⟨v, _, hv⟩, hl⟩ := (checkStructure_iff demoRaw_hex hw h5 (r := anyStore) rfl).mp ⟨r', hc⟩
  obtain ⟨lay, hlay⟩ := layoutIs_of hl
  have ho : Orderly demoEnv defaultRegistry [c!"w", c!"root"] v lay s := ⟨hw, h5, hv, hlay, hq⟩
  have hu : UsedRoot v lay anyStore anyStore := ⟨rfl, rfl, rfl, .inl rfl, .inl ⟨rfl, rfl⟩⟩
  obtain ⟨r1, hc1, hu1, hl1, _⟩ := hu.checks demoRaw_hex ho
  rw [hc] at hc1
  obtain ⟨rfl, _⟩ := Prod.mk.inj hc1
  have hlay' : lay = some .flatDirect := hl1.symm.trans h2
  have hv' : v = c!"1.1" := by
    rcases hu1.spec with h | h
    · rw [h] at h3; cases h3
    · exact Option.some.inj (h.symm.trans h3)
  rw [hlay', hv'] at ho
  exact ho

theorem storeFS_orderly : Orderly demoEnv defaultRegistry [c!"w", c!"root"] c!"1.1" (some .flatDirect) storeFS :=
  orderly_demo storeFS_wf (n := 0) (by decide +kernel) (by decide +kernel) (by decide +kernel) (by decide +kernel) (by decide +kernel)

theorem storeAdded_orderly : Orderly demoEnv defaultRegistry [c!"w", c!"root"] c!"1.1" (some .flatDirect) storeAdded :=
  orderly_demo storeAdded_wf (n := 1) (by decide +kernel) (by decide +kernel) (by decide +kernel) (by decide +kernel) (by decide +kernel)

theorem orderly_calls {a b : FS} {root : Path} {v : Str} {lay : Option LayoutObj} (ha : Orderly demoEnv defaultRegistry root v lay a)
    (hb : Orderly demoEnv defaultRegistry root v lay b) (calls : List (RootCall × Bool)) :
    ∀ c ∈ calls.map (fun c => (c.1, if c.2 then b else a)), Orderly demoEnv defaultRegistry root v lay c.2 := by
  intro c hc
  obtain ⟨d, _, rfl⟩ := List.mem_map.mp hc
  dsimp only
  split
  · exact hb
  · exact ha

theorem root_comps : [c!"w", c!"root"] = absComps demoEnv.cwd c!"root" := by decide +kernel

/-- The storage root is validated, an object is added, it is listed and validated again. -/
example : ∀ c ∈ [(RootCall.validate true true, false), (.path c!"info:x", false), (.add c!"obj", false), (.list, true), (.validate true true, true)].map
    (fun c => (c.1, if c.2 then storeAdded else storeFS)),
    Orderly demoEnv defaultRegistry [c!"w", c!"root"] c!"1.1" (some .flatDirect) c.2 :=
  orderly_calls storeFS_orderly storeAdded_orderly _

end Ocfl
