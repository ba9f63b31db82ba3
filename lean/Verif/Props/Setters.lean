import Verif.Spec.Setters
import Verif.Props.NewVersion
import Verif.Proofs.NewVersion

/-!
# C103: what is said about a new version
-/

namespace Ocfl
open Spec Ocfl.Inv NV

section
variable {inv : Inv} {h v : Str} {f g : VBlock → VBlock}

theorem setBlock_fields (inv : Inv) (h : Str) (f : VBlock → VBlock) :
    inv.setBlock h f = { inv with versions := (inv.setBlock h f).versions } := by
  unfold setBlock; split <;> rfl

theorem setBlock_some {b : VBlock} (hb : inv.versionData h = some b) :
    inv.setBlock h f = { inv with versions := some (Dict.set inv.versionsD h (f b)) } := by
  unfold setBlock; rw [hb]

theorem versionData_setBlock (inv : Inv) (h v : Str) (f : VBlock → VBlock) :
    (inv.setBlock h f).versionData v = if v = h then (inv.versionData h).map f else inv.versionData v := by
  unfold setBlock
  cases hb : inv.versionData h with
  | none =>
    dsimp only
    split
    · next e => subst e; rw [hb]; rfl
    · rfl
  | some b =>
    unfold versionData versionsD
    dsimp only [Option.getD_some]
    rw [Dict.get?_set]
    by_cases e : h = v
    · subst e; simp
    · rw [if_neg e, if_neg (fun e' => e e'.symm)]

theorem set_set_same {α β : Type} [DecidableEq α] (d : Dict α β) (k : α) (x y : β) : Dict.set (Dict.set d k x) k y = Dict.set d k y := by
  induction d with
  | nil => simp [Dict.set]
  | cons p d ih =>
    obtain ⟨a, b⟩ := p
    by_cases e : a = k
    · simp [e, Dict.set]
    · simp only [Dict.set, if_neg e, ih]

theorem setBlock_setBlock (inv : Inv) (h : Str) (f g : VBlock → VBlock) : (inv.setBlock h f).setBlock h g = inv.setBlock h (fun b => g (f b)) := by
  cases hb : inv.versionData h with
  | none => unfold setBlock; simp only [hb]
  | some b =>
    rw [setBlock_some (f := g) (b := f b) (by rw [versionData_setBlock, if_pos rfl, hb]; rfl), setBlock_some hb, setBlock_some hb]
    simp only [versionsD, Option.getD_some, set_set_same]

/-- A change of a block that has nothing to do with the state. -/
structure KeepsState (f : VBlock → VBlock) : Prop where
  state : ∀ b, (f b).state = b.state
  comm : ∀ b st, f { b with state := st } = { f b with state := st }

theorem setBlock_stateOf (hf : KeepsState f) (inv : Inv) (h v : Str) : (inv.setBlock h f).stateOf v = inv.stateOf v := by
  unfold stateOf
  rw [versionData_setBlock]
  by_cases e : v = h
  · subst e
    rw [if_pos rfl]
    cases inv.versionData v with
    | none => rfl
    | some b => simp only [Option.map_some, hf.state]
  · rw [if_neg e]

theorem setState_setBlock (hf : KeepsState f) (inv : Inv) (h : Str) (st : DigestMap) :
    (inv.setBlock h f).setState h st = (inv.setState h st).setBlock h f := by
  have e : ∀ i : Inv, i.setState h st = i.setBlock h (fun b => { b with state := some st }) := fun i => rfl
  rw [e, e, setBlock_setBlock, setBlock_setBlock]
  congr 1
  funext b
  exact (hf.comm b (some st)).symm

theorem stateAdd_setBlock (hf : KeepsState f) (inv : Inv) (h : Str) :
    (inv.setBlock h f).stateAddIfNotPresent h = ((inv.stateAddIfNotPresent h).1.setBlock h f, (inv.stateAddIfNotPresent h).2) := by
  unfold stateAddIfNotPresent
  rw [versionData_setBlock, if_pos rfl]
  cases hb : inv.versionData h with
  | none => rfl
  | some b =>
    simp only [Option.map_some, hf.state]
    cases b.state with
    | none => simp only [setState_setBlock hf]
    | some st => rfl

theorem setBlock_manifest (inv : Inv) (m : Option DigestMap) (h : Str) (f : VBlock → VBlock) :
    ({ inv with manifest := m } : Inv).setBlock h f = { inv.setBlock h f with manifest := m } := by
  unfold setBlock
  have : ({ inv with manifest := m } : Inv).versionData h = inv.versionData h := rfl
  rw [this]
  cases inv.versionData h <;> rfl

theorem manifest_setBlock (inv : Inv) (h : Str) (f : VBlock → VBlock) : (inv.setBlock h f).manifest = inv.manifest := by
  rw [setBlock_fields]

theorem manifestD_setBlock (inv : Inv) (h : Str) (f : VBlock → VBlock) : (inv.setBlock h f).manifestD = inv.manifestD := by
  unfold manifestD; rw [manifest_setBlock]

theorem contentPaths_setBlock (inv : Inv) (h : Str) (f : VBlock → VBlock) : (inv.setBlock h f).contentPaths = inv.contentPaths := by
  unfold contentPaths; rw [manifestD_setBlock]

theorem head_setBlock (inv : Inv) (h : Str) (f : VBlock → VBlock) : (inv.setBlock h f).head = inv.head := by
  rw [setBlock_fields]

theorem dir_setBlock (inv : Inv) (h : Str) (f : VBlock → VBlock) : (inv.setBlock h f).contentDirectoryToUse = inv.contentDirectoryToUse := by
  rw [setBlock_fields]; rfl

theorem alg_setBlock (inv : Inv) (h : Str) (f : VBlock → VBlock) : (inv.setBlock h f).digestAlgorithm = inv.digestAlgorithm := by
  rw [setBlock_fields]

theorem logical_setBlock (hf : KeepsState f) (inv : Inv) (h v : Str) : (inv.setBlock h f).logicalPaths v = inv.logicalPaths v := by
  unfold logicalPaths; rw [setBlock_stateOf hf]

theorem addManifest_setBlock (inv : Inv) (h : Str) (f : VBlock → VBlock) (d cp : Str) :
    (inv.setBlock h f).addFileToManifest d cp = ((inv.addFileToManifest d cp).1.setBlock h f, (inv.addFileToManifest d cp).2) := by
  unfold addFileToManifest
  rw [contentPaths_setBlock, manifestD_setBlock]
  split
  · rfl
  · split <;> simp only [setBlock_manifest]

theorem delete_setBlock (hf : KeepsState f) (inv : Inv) (h p : Str) :
    (inv.setBlock h f).deleteLogicalPath h p = ((inv.deleteLogicalPath h p).1.setBlock h f, (inv.deleteLogicalPath h p).2) := by
  unfold deleteLogicalPath
  rw [setBlock_stateOf hf]
  cases deleteFromState (inv.stateOf h) p with
  | none => rfl
  | some x =>
    obtain ⟨st, d, last⟩ := x
    dsimp only
    rw [setState_setBlock hf, manifest_setBlock]
    cases last with
    | false => rfl
    | true =>
      simp only [if_true]
      cases (inv.setState h st).manifest with
      | none => rfl
      | some m => simp only [setBlock_manifest]

end

/-- A call on the contents does not see what is said about the version, and leaves it alone. -/
theorem step_setBlock {E : NVEnv} {h : Str} {f : VBlock → VBlock} (hf : KeepsState f) {nv : NV} (hh : nv.inv.head = some h) (op : Op) :
    step E op { nv with inv := nv.inv.setBlock h f } =
      ({ (step E op nv).1 with inv := (step E op nv).1.inv.setBlock h f }, (step E op nv).2) := by
  cases op with
  | add src lp cp =>
    have hc : ({ nv with inv := nv.inv.setBlock h f } : NV).chooseContentPath E h src cp = nv.chooseContentPath E h src cp := by
      unfold chooseContentPath mapFilepath
      simp only [dir_setBlock, contentPaths_setBlock]
    show NV.add E src lp cp _ = _
    simp only [step]
    unfold NV.add
    simp only [head_setBlock, hh, hc]
    cases nv.chooseContentPath E h src cp with
    | error e => rfl
    | ok c =>
      dsimp only
      rw [logical_setBlock hf, alg_setBlock]
      by_cases hl : lp ∈ nv.inv.logicalPaths h
      · rw [if_pos hl, if_pos hl]
      · rw [if_neg hl, if_neg hl]
        cases E.srcDigest (nv.inv.digestAlgorithm.getD []) src with
        | error e => rfl
        | ok d =>
          dsimp only
          rw [stateAdd_setBlock hf]
          rcases nv.inv.stateAddIfNotPresent h with ⟨inv1, _ | st⟩
          · rfl
          · dsimp only
            rw [setState_setBlock hf]
            have hp : ((inv1.setState h (stateAppend st d lp)).setBlock h f).contentPathsForDigest d =
                (inv1.setState h (stateAppend st d lp)).contentPathsForDigest d := by
              unfold contentPathsForDigest; rw [manifestD_setBlock]
            rw [hp]
            have hw : ∀ ps, wantCopy { nv with inv := (inv1.setState h (stateAppend st d lp)).setBlock h f } h ps =
                wantCopy { nv with inv := inv1.setState h (stateAppend st d lp) } h ps := fun _ => rfl
            rw [hw]
            split
            · rw [addManifest_setBlock]
              rcases (inv1.setState h (stateAppend st d lp)).addFileToManifest d c with ⟨inv3, _ | _⟩ <;> rfl
            · rfl
  | delete lp =>
    show NV.delete lp _ = _
    simp only [step]
    unfold NV.delete
    simp only [head_setBlock, hh, delete_setBlock hf]
    rcases nv.inv.deleteLogicalPath h lp with ⟨inv1, _ | _⟩ <;> rfl
  | rename o n =>
    show NV.rename o n _ = _
    simp only [step]
    unfold NV.rename
    simp only [head_setBlock, hh, logical_setBlock hf]
    by_cases hl : n ∈ nv.inv.logicalPaths h
    · rw [if_pos hl, if_pos hl]
    · rw [if_neg hl, if_neg hl, delete_setBlock hf]
      rcases nv.inv.deleteLogicalPath h o with ⟨inv1, _ | d⟩
      · rfl
      · dsimp only
        rw [setBlock_stateOf hf, setState_setBlock hf]

/-- What one assignment makes of the block. -/
def describe1 : MetaOp → VBlock → VBlock
  | .created v, b => { b with created := some v }
  | .message v, b => { b with message := some v }
  | .userAddress v, b => { b with user := some { (b.user.getD {}) with address := some v } }
  | .userName v, b => { b with user := some { (b.user.getD {}) with name := some v } }

theorem describe1_keeps (m : MetaOp) : KeepsState (describe1 m) := by cases m <;> exact ⟨fun _ => rfl, fun _ _ => rfl⟩

theorem setMeta_eq {nv : NV} {h : Str} (hb : Building nv h) (m : MetaOp) :
    setMeta m nv = ({ nv with inv := nv.inv.setBlock h (describe1 m) }, .ok ()) := by
  have h1 := hb.block
  unfold setMeta
  rw [hb.head_eq]
  cases hv : nv.inv.versionData h with
  | none => rw [hv] at h1; cases h1
  | some b =>
    cases m with
    | created v => rfl
    | message v => rfl
    | userAddress v => simp only [setUserAddress, setUser, hv]; rfl
    | userName v => simp only [setUserName, setUser, hv]; rfl

theorem setBlock_building {nv : NV} {h : Str} (hb : Building nv h) {f : VBlock → VBlock} (hf : KeepsState f) :
    Building { nv with inv := nv.inv.setBlock h f } h where
  head_eq := by rw [head_setBlock]; exact hb.head_eq
  block := by rw [versionData_setBlock, if_pos rfl, Option.isSome_map]; exact hb.block
  stateKeys := by rw [setBlock_stateOf hf]; exact hb.stateKeys
  statePaths := by rw [setBlock_stateOf hf]; exact hb.statePaths
  manifestKeys := by rw [manifestD_setBlock]; exact hb.manifestKeys

theorem described_nil (b : VBlock) : described [] b = b := rfl

theorem lastSaid_isSome {pick : MetaOp → Option Str} {ms : List MetaOp} {b : Option Str}
    (h : b.isSome = true ∨ ∃ m ∈ ms, (pick m).isSome = true) : (lastSaid pick ms b).isSome = true := by
  induction ms generalizing b with
  | nil =>
    rcases h with h | ⟨m, hm, _⟩
    · exact h
    · cases hm
  | cons m ms ih =>
    unfold lastSaid
    apply ih
    rcases h with h | ⟨x, hx, h⟩
    · left
      cases pick m with
      | none => exact h
      | some v => rfl
    · rcases List.mem_cons.mp hx with rfl | hx
      · left
        cases hp : pick x with
        | none => rw [hp] at h; cases h
        | some v => rfl
      · exact .inr ⟨x, hx, h⟩

theorem lastSaid_none {pick : MetaOp → Option Str} {ms : List MetaOp} (h : ∀ m ∈ ms, pick m = none) (b : Option Str) : lastSaid pick ms b = b := by
  induction ms generalizing b with
  | nil => rfl
  | cons m ms ih =>
    unfold lastSaid
    rw [h m (by simp), Option.none_or]
    exact ih (fun m hm => h m (by simp [hm])) b

theorem user_said {ms : List MetaOp} (h : ms.any (fun m => (saidName m).isSome || (saidAddress m).isSome) = false) :
    (∀ m ∈ ms, saidName m = none) ∧ ∀ m ∈ ms, saidAddress m = none := by
  constructor <;> intro m hm <;> have := List.any_eq_false.mp h m hm <;> simp at this
  · exact this.1
  · exact this.2

theorem described_cons (m : MetaOp) (ms : List MetaOp) (b : VBlock) : described (m :: ms) b = described ms (describe1 m b) := by
  have e : ∀ u : Option User, (u.getD {}).name = u.bind (·.name) := fun u => by cases u <;> rfl
  have e' : ∀ u : Option User, (u.getD {}).address = u.bind (·.address) := fun u => by cases u <;> rfl
  unfold described
  rw [List.any_cons]
  cases hu : ms.any (fun m => (saidName m).isSome || (saidAddress m).isSome) with
  | true => cases m <;> simp [describe1, lastSaid, saidCreated, saidMessage, saidName, saidAddress, e, e']
  | false =>
    obtain ⟨h1, h2⟩ := user_said hu
    cases m with
    | created v => simp [describe1, lastSaid, saidCreated, saidMessage, saidName, saidAddress]
    | message v => simp [describe1, lastSaid, saidCreated, saidMessage, saidName, saidAddress]
    | userAddress v =>
      simp only [lastSaid, lastSaid_none h1, lastSaid_none h2]
      simp [describe1, saidCreated, saidMessage, saidName, saidAddress, e]
    | userName v =>
      simp only [lastSaid, lastSaid_none h1, lastSaid_none h2]
      simp [describe1, saidCreated, saidMessage, saidName, saidAddress, e']

theorem described_keeps (ms : List MetaOp) : KeepsState (described ms) := ⟨fun _ => rfl, fun _ _ => rfl⟩

theorem run_setBlock {E : NVEnv} {h : Str} {f : VBlock → VBlock} (hf : KeepsState f) (ops : List Op) {nv : NV} (hb : Building nv h) :
    run E ops { nv with inv := nv.inv.setBlock h f } = { run E ops nv with inv := (run E ops nv).inv.setBlock h f } := by
  induction ops generalizing nv with
  | nil => rfl
  | cons op ops ih =>
    unfold run
    rw [step_setBlock hf hb.head_eq]
    exact ih (step_building hb)

theorem set_get_same {α β : Type} [DecidableEq α] {d : Dict α β} {k : α} {x : β} (h : Dict.get? d k = some x) : Dict.set d k x = d := by
  induction d with
  | nil => cases h
  | cons p d ih =>
    obtain ⟨a, b⟩ := p
    rw [Dict.get?_cons] at h
    by_cases e : a = k
    · rw [if_pos e] at h
      cases h
      simp [Dict.set, e]
    · rw [if_neg e] at h
      simp only [Dict.set, if_neg e, ih h]

theorem replies_setBlock {E : NVEnv} {h : Str} {f : VBlock → VBlock} (hf : KeepsState f) (ops : List Op) {nv : NV} (hb : Building nv h) :
    (callAll E (ops.map .content) { nv with inv := nv.inv.setBlock h f }).2 = (callAll E (ops.map .content) nv).2 := by
  induction ops generalizing nv with
  | nil => rfl
  | cons op ops ih =>
    simp only [List.map_cons, callAll, Call.exec]
    rw [step_setBlock hf hb.head_eq, ih (step_building hb)]

theorem callAll_content (E : NVEnv) (ops : List Op) (nv : NV) : (callAll E (ops.map .content) nv).1 = run E ops nv := by
  induction ops generalizing nv with
  | nil => rfl
  | cons op ops ih => exact ih _

theorem callAll_eq {E : NVEnv} {h : Str} (calls : List Call) {nv : NV} (hb : Building nv h) :
    callAll E calls nv =
      ({ run E (contentOps calls) nv with inv := (run E (contentOps calls) nv).inv.setBlock h (described (saidOps calls)) },
       weave calls (callAll E ((contentOps calls).map .content) nv).2) := by
  induction calls generalizing nv with
  | nil =>
    have : nv.inv.setBlock h (described []) = nv.inv := by
      have h1 := hb.block
      cases hv : nv.inv.versionData h with
      | none => rw [hv] at h1; cases h1
      | some b =>
        rw [setBlock_some hv, described_nil]
        have : Dict.set nv.inv.versionsD h b = nv.inv.versionsD := set_get_same hv
        rw [this]
        unfold versionsD
        cases hvs : nv.inv.versions with
        | none => unfold versionData versionsD at hv; rw [hvs] at hv; cases hv
        | some vs =>
          have : (some (Option.getD (some vs) []) : Option (Dict Str VBlock)) = nv.inv.versions := by rw [hvs]; rfl
          rw [this]
    show (nv, []) = ({ nv with inv := nv.inv.setBlock h (described []) }, [])
    rw [this]
  | cons c cs ih =>
    cases c with
    | content op =>
      have := ih (step_building (E := E) (op := op) hb)
      unfold callAll
      simp only [Call.exec]
      rw [this]
      rfl
    | said m =>
      have := ih (setBlock_building hb (describe1_keeps m))
      conv_lhs => unfold callAll
      simp only [Call.exec, setMeta_eq hb]
      rw [this, run_setBlock (describe1_keeps m) _ hb, setBlock_setBlock]
      have hd : (fun b => described (saidOps cs) (describe1 m b)) = described (saidOps (.said m :: cs)) := by
        funext b; exact (described_cons m (saidOps cs) b).symm
      rw [hd, replies_setBlock (describe1_keeps m) _ hb, show contentOps (.said m :: cs) = contentOps cs from rfl]
      rfl

/-- **C103.** Whatever is said about a new version, at whatever time and in whatever order with the calls on its contents: all calls have the
outcomes and the effects that they have without that, and in the end the block of the version says, besides, of each property what was said last. -/
theorem C103 {E : NVEnv} {nv : NV} {head : Str} (hb : Building nv head) (calls : List Call) :
    let without := run E (contentOps calls) nv
    ∃ b, without.inv.versionData head = some b ∧
      (callAll E calls nv).1 =
        { without with inv := { without.inv with versions := some (Dict.set without.inv.versionsD head (described (saidOps calls) b)) } } ∧
      (callAll E calls nv).2 = weave calls (callAll E ((contentOps calls).map .content) nv).2 := by
  dsimp only
  have h1 := (run_building (E := E) (ops := contentOps calls) hb).block
  obtain ⟨b, hv⟩ := Option.isSome_iff_exists.mp h1
  refine ⟨b, hv, ?_, ?_⟩
  · rw [callAll_eq calls hb, setBlock_some hv]
  · rw [callAll_eq calls hb]

/-- **C103**, reading: the properties give what was said last. -/
theorem C103_read {E : NVEnv} {nv : NV} {head : Str} (hb : Building nv head) (calls : List Call) {v : Str} :
    let after := (callAll E calls nv).1.inv
    (lastSaid saidCreated (saidOps calls) none = some v → after.created head = some v) ∧
    (lastSaid saidMessage (saidOps calls) none = some v → after.message head = some v) ∧
    (lastSaid saidName (saidOps calls) none = some v → after.userName head = some v) ∧
    (lastSaid saidAddress (saidOps calls) none = some v → after.userAddress head = some v) := by
  dsimp only
  have h1 := (run_building (E := E) (ops := contentOps calls) hb).block
  obtain ⟨b, hv⟩ := Option.isSome_iff_exists.mp h1
  have hd : (callAll E calls nv).1.inv.versionData head = some (described (saidOps calls) b) := by
    rw [callAll_eq calls hb]
    dsimp only
    rw [versionData_setBlock, if_pos rfl, hv]
    rfl
  have key : ∀ (pick : MetaOp → Option Str) (ms : List MetaOp) (x y : Option Str), lastSaid pick ms none = some v →
      lastSaid pick ms x = some v := by
    have aux : ∀ (pick : MetaOp → Option Str) (ms : List MetaOp) (x y : Option Str), lastSaid pick ms (y.or x) = (lastSaid pick ms y).or x := by
      intro pick ms
      induction ms with
      | nil => intro x y; rfl
      | cons m ms ih =>
        intro x y
        unfold lastSaid
        rw [← ih, Option.or_assoc]
    intro pick ms x _ h
    have := aux pick ms x none
    rw [Option.none_or] at this
    rw [this, h]
    rfl
  have keyUser : ∀ (pick : MetaOp → Option Str) (hp : ∀ m, pick m ≠ none → (saidName m).isSome = true ∨ (saidAddress m).isSome = true),
      lastSaid pick (saidOps calls) none = some v →
      (saidOps calls).any (fun m => (saidName m).isSome || (saidAddress m).isSome) = true := by
    intro pick hp h
    by_contra hc
    rw [Bool.not_eq_true] at hc
    obtain ⟨n1, n2⟩ := user_said hc
    have : lastSaid pick (saidOps calls) none = none := lastSaid_none (fun m hm => by
      by_contra hne
      rcases hp m hne with h1 | h1
      · rw [n1 m hm] at h1; cases h1
      · rw [n2 m hm] at h1; cases h1) none
    rw [this] at h
    cases h
  refine ⟨fun h => ?_, fun h => ?_, fun h => ?_, fun h => ?_⟩
  · unfold created; rw [hd]; exact key _ _ _ none h
  · unfold message; rw [hd]; exact key _ _ _ none h
  · unfold userName; rw [hd]
    have hu := keyUser saidName (fun m hne => .inl (Option.isSome_iff_ne_none.mpr hne)) h
    simp only [described, hu, if_true, Option.bind_some]
    exact key _ _ _ none h
  · unfold userAddress; rw [hd]
    have hu := keyUser saidAddress (fun m hne => .inr (Option.isSome_iff_ne_none.mpr hne)) h
    simp only [described, hu, if_true, Option.bind_some]
    exact key _ _ _ none h

theorem says_described {ms : List MetaOp} {m : VMeta} (h : Says ms m) {c now : Str} (hc : m.created = some c) (hne : c ≠ []) (st : Option DigestMap) :
    described ms { state := st } = { (m.asDict now) with state := st } := by
  obtain ⟨h1, h2, h3, h4⟩ := h
  have hcr : (m.asDict now).created = some c := by
    unfold VMeta.asDict
    rw [hc]
    cases c with
    | nil => exact absurd rfl hne
    | cons a l => rfl
  unfold described
  simp only [Option.bind_none, h1, h2, h3, h4, hc]
  have hu : (ms.any (fun m => (saidName m).isSome || (saidAddress m).isSome) = true) ↔ (m.name.isSome = true ∨ m.address.isSome = true) := by
    rw [← h3, ← h4]
    constructor
    · intro h
      obtain ⟨x, hx, h⟩ := List.any_eq_true.mp h
      rw [Bool.or_eq_true] at h
      exact h.imp (fun h => lastSaid_isSome (.inr ⟨x, hx, h⟩)) (fun h => lastSaid_isSome (.inr ⟨x, hx, h⟩))
    · intro h
      by_contra hcon
      rw [Bool.not_eq_true] at hcon
      obtain ⟨n1, n2⟩ := user_said hcon
      rw [lastSaid_none n1, lastSaid_none n2] at h
      rcases h with h | h <;> cases h
  have hd : m.asDict now = ⟨some c, m.message, if m.name.isSome ∨ m.address.isSome then some ⟨m.name, m.address⟩ else none, none⟩ := by
    rw [← hcr]; rfl
  rw [hd]
  simp only [hu]

theorem addVersion_described {inv i0 : Inv} {st : Option DigestMap} {w : Option Nat} (h : inv.addVersion none none st w = .ok i0) {B : VBlock}
    (hB : B.state = none) :
    ∃ v, i0.head = some v ∧ i0.versionData v = some { state := st } ∧
      inv.addVersion none (some B) st w = .ok (i0.setBlock v (fun _ => { B with state := st })) := by
  unfold addVersion at h ⊢
  cases hv : inv.nextVersionDir w with
  | error e => simp [hv] at h
  | ok v =>
    simp only [hv, Option.getD_none, Option.getD_some] at h ⊢
    cases h
    have hd : ∀ b : VBlock, Inv.versionData { inv with versions := some (Dict.set inv.versionsD v b), head := some v } v = some b := by
      intro b
      unfold versionData versionsD
      exact Dict.get?_set_self _ _ _
    cases st with
    | none =>
      refine ⟨v, rfl, hd _, ?_⟩
      rw [setBlock_some (hd _)]
      simp only [versionsD, Option.getD_some, set_set_same]
      cases B; cases hB; rfl
    | some st =>
      refine ⟨v, rfl, hd _, ?_⟩
      rw [setBlock_some (hd _)]
      simp only [versionsD, Option.getD_some, set_set_same]

/-- The calls on a new version about which things are said, and those on one that was started with the same things said. -/
theorem callAll_described {E : NVEnv} {nv : NV} {head : Str} (hb : Building nv head) {st : Option DigestMap}
    (hblk : nv.inv.versionData head = some { state := st }) {calls : List Call} {m : VMeta} (hs : Says (saidOps calls) m)
    {c now : Str} (hc : m.created = some c) (hne : c ≠ []) :
    (callAll E calls nv).1 =
      run E (contentOps calls) { nv with inv := nv.inv.setBlock head (fun _ => { (m.asDict now) with state := st }) } := by
  have : nv.inv.setBlock head (fun _ => { (m.asDict now) with state := st }) = nv.inv.setBlock head (described (saidOps calls)) := by
    rw [setBlock_some hblk, setBlock_some hblk, says_described hs hc hne]
  rw [this, run_setBlock (described_keeps _) _ hb, callAll_eq calls hb]

/-- **C103**, first versions: to say something about a first version, at any time, is the same as to give it as metadata when the version is
started. -/
theorem C103_first {E : NVEnv} {identifier specVersion : Str} {alg cd : Option Str} {dedupe : Bool} {fixity : List Str} {norm : Option Str} {nv : NV}
    (h : firstVersion identifier specVersion alg cd none dedupe fixity norm = .ok nv) {calls : List Call} {m : VMeta}
    (hs : Says (saidOps calls) m) {c now : Str} (hc : m.created = some c) (hne : c ≠ []) :
    ∃ nv', firstVersion identifier specVersion alg cd (some (m.asDict now)) dedupe fixity norm = .ok nv' ∧
      (callAll E calls nv).1 = run E (contentOps calls) nv' := by
  obtain ⟨head, hb, -⟩ := firstVersion_building (metadata := none) rfl h
  have key : ∃ st, nv.inv.versionData head = some { state := st } ∧
      firstVersion identifier specVersion alg cd (some (m.asDict now)) dedupe fixity norm =
        .ok { nv with inv := nv.inv.setBlock head (fun _ => { (m.asDict now) with state := st }) } := by
    unfold firstVersion at h ⊢
    dsimp only at h ⊢
    generalize fixity.foldl (fun inv t => inv.addFixityType t none) (Inv.initManifestAndVersions
      { Inv.setSpecVersion { id := some identifier } specVersion with digestAlgorithm := alg }) = inv0 at h ⊢
    cases ha : inv0.addVersion none none none none with
    | error e => rw [ha] at h; cases h
    | ok i0 =>
      obtain ⟨v, hv, hd, he⟩ := addVersion_described ha (B := m.asDict now) rfl
      rw [ha] at h
      rw [he]
      dsimp only at h ⊢
      injection h with h
      have hhead := hb.head_eq
      subst h
      have hvh : v = head := by
        cases cd with
        | none => rw [← Option.some.injEq, ← hv, ← hhead]
        | some cd =>
          dsimp only at hhead
          split at hhead <;> rw [← Option.some.injEq, ← hv, ← hhead]
      subst hvh
      have hset : ∀ i : Inv, i.versions = i0.versions → i.versionData v = some { state := none } := by
        intro i hi
        unfold versionData versionsD at hd ⊢
        rw [hi]; exact hd
      refine ⟨none, ?_, ?_⟩
      · apply hset
        cases cd with
        | none => rfl
        | some cd => dsimp only; split <;> rfl
      · have hsb : ∀ i : Inv, i.versions = i0.versions → ∀ f, i.setBlock v f = { i with versions := some (Dict.set i0.versionsD v (f { state := none })) } := by
          intro i hi f
          rw [setBlock_some (hset i hi)]
          unfold versionsD
          rw [hi]
        rw [hsb i0 rfl]
        cases cd with
        | none =>
          dsimp only
          rw [hsb { i0 with digestAlgorithm := some (alg.getD c!"sha512") } rfl]
        | some cd =>
          dsimp only
          split
          · rw [hsb { i0 with digestAlgorithm := some (alg.getD c!"sha512") } rfl]
          · rw [hsb { i0 with digestAlgorithm := some (alg.getD c!"sha512"), contentDirectory := some cd } rfl]
  obtain ⟨st, hblk, hf⟩ := key
  exact ⟨_, hf, callAll_described hb hblk hs hc hne⟩

/-- **C103**, later versions: to say something about a new version, at any time, is the same as to give it as metadata when the version is
started. -/
theorem C103_next {E : NVEnv} {inv : Inv} {specVersion : Str} {norm : Option Str} {forwardDelta dedupe carry : Bool} {old : Option Str} {nv : NV}
    (hm : Dict.NK inv.manifestD) (hst : ∀ h, inv.head = some h → Dict.NK (inv.stateOf h) ∧ PathsUnique (inv.stateOf h))
    (h : nextVersion inv specVersion none norm forwardDelta dedupe carry old = .ok nv) {calls : List Call} {m : VMeta}
    (hs : Says (saidOps calls) m) {c now : Str} (hc : m.created = some c) (hne : c ≠ []) :
    ∃ nv', nextVersion inv specVersion (some (m.asDict now)) norm forwardDelta dedupe carry old = .ok nv' ∧
      (callAll E calls nv).1 = run E (contentOps calls) nv' := by
  obtain ⟨head, hb, -⟩ := nextVersion_building hm hst h
  have key : ∃ st, nv.inv.versionData head = some { state := st } ∧
      nextVersion inv specVersion (some (m.asDict now)) norm forwardDelta dedupe carry old =
        .ok { nv with inv := nv.inv.setBlock head (fun _ => { (m.asDict now) with state := st }) } := by
    have fin : ∀ (i : Inv) (state : DigestMap),
        (match i.addVersion none none (some state) none with
          | .error e => (.error e : Py NV)
          | .ok inv => .ok { inv := inv, norm := norm, forwardDelta := some forwardDelta, dedupe := dedupe, oldDigestAlgorithm := old }) = .ok nv →
        ∃ st, nv.inv.versionData head = some { state := st } ∧
          (match i.addVersion none (some (m.asDict now)) (some state) none with
            | .error e => (.error e : Py NV)
            | .ok inv => .ok { inv := inv, norm := norm, forwardDelta := some forwardDelta, dedupe := dedupe, oldDigestAlgorithm := old }) =
          .ok { nv with inv := nv.inv.setBlock head (fun _ => { (m.asDict now) with state := st }) } := by
      intro i state h
      cases ha : i.addVersion none none (some state) none with
      | error e => rw [ha] at h; cases h
      | ok i0 =>
        obtain ⟨v, hv, hd, he⟩ := addVersion_described ha (B := m.asDict now) rfl
        rw [ha] at h
        rw [he]
        dsimp only at h ⊢
        injection h with h
        have hhead := hb.head_eq
        subst h
        have hvh : v = head := by rw [← Option.some.injEq, ← hv, ← hhead]
        subst hvh
        exact ⟨some state, hd, rfl⟩
    unfold nextVersion at h ⊢
    dsimp only at h ⊢
    split at h
    · next hsv =>
      rw [if_pos hsv]
      cases hcur : inv.specVersion with
      | none => rw [hcur] at h; cases h
      | some cur =>
        rw [hcur] at h
        dsimp only at h ⊢
        split at h
        · cases h
        · next hlt => rw [if_neg hlt]; exact fin _ _ h
    · next hsv => rw [if_neg hsv]; exact fin _ _ h
  obtain ⟨st, hblk, hf⟩ := key
  exact ⟨_, hf, callAll_described hb hblk hs hc hne⟩

/-- **C103**, versions that do not exist: what is said about them through a `Version` is lost, without an exception for time and message. -/
theorem C103_lost {inv : Inv} {vdir : Str} (h : Dict.get? inv.versionsD vdir = none) (value : Str) :
    inv.setCreated vdir value = inv ∧ inv.setMessage vdir value = inv ∧
      inv.setUserName vdir value = (inv, .error .keyError) ∧ inv.setUserAddress vdir value = (inv, .error .keyError) := by
  have hv : inv.versionData vdir = none := h
  refine ⟨?_, ?_, ?_, ?_⟩
  · unfold setCreated setBlock; rw [hv]
  · unfold setMessage setBlock; rw [hv]
  · unfold setUserName setUser; rw [hv]
  · unfold setUserAddress setUser; rw [hv]

/-- Something is said before, between and after calls on the contents, and is corrected. -/
def exCalls : List Call :=
  [.said (.message c!"first"), .content (.add c!"x" c!"x" none), .said (.created c!"2020-01-01T00:00:00Z"), .content (.delete c!"missing"),
   .said (.userName c!"A"), .content (.rename c!"x" c!"y"), .said (.message c!"second")]

example : Building exNV c!"v2" ∧ (callAll exEnv exCalls exNV).2.map (·.isOk) = [true, true, true, false, true, true, true] ∧
    (callAll exEnv exCalls exNV).1.inv.message c!"v2" = some c!"second" ∧ (callAll exEnv exCalls exNV).1.inv.message c!"v1" = none :=
  ⟨exNV_building, by decide +kernel, by decide +kernel, by decide +kernel⟩

example : ∃ nv, firstVersion c!"obj" c!"1.1" none none none true [] none = .ok nv ∧
    Says (saidOps exCalls) { created := some c!"2020-01-01T00:00:00Z", message := some c!"second", name := some c!"A" } :=
  ⟨_, rfl, rfl, rfl, rfl, rfl⟩

example : ∃ nv, nextVersion { exInv with type := some c!"https://ocfl.io/1.1/spec/#inventory" } c!"1.1" none none true true true none = .ok nv ∧
    Dict.NK exInv.manifestD ∧ ∀ h, exInv.head = some h → Dict.NK (exInv.stateOf h) ∧ PathsUnique (exInv.stateOf h) := by
  refine ⟨_, rfl, by unfold Dict.NK; decide, ?_⟩
  intro h hh
  cases hh
  exact ⟨by unfold Dict.NK; decide, by unfold PathsUnique; decide⟩

example : Dict.get? exInv.versionsD c!"v9" = none := by decide

end Ocfl
