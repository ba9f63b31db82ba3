import Verif.Props.Document
import Verif.Model.DocumentVersion

/-!
# C106: a new version keeps what the library does not know
-/

namespace Ocfl
namespace Doc
open Spec

/-- A call on the document is the call on what the library sees. -/
def SameCall (r : NewVersion × Py Unit) (q : NV × Py Unit) : Prop := IsInventory r.1.doc ∧ r.1.view = q.1 ∧ r.2 = q.2

theorem view_of {doc : Json} {inv : Inv} (rest : NV) (h : Inv.ofJson doc = inv) : NewVersion.view ⟨doc, rest⟩ = { rest with inv := inv } := by
  unfold NewVersion.view
  rw [h]

theorem setState_stateOf {inv : Inv} {v : Str} {b : VBlock} {st : DigestMap} (hb : inv.versionData v = some b) (hst : b.state = some st) :
    inv.stateOf v = st := by
  simp [Inv.stateOf, hb, hst]

theorem add_same (E : NVEnv) (s l : Str) (c : Option Str) {x : NewVersion} (h : IsInventory x.doc) : SameCall (x.add E s l c) (x.view.add E s l c) := by
  unfold NewVersion.add NV.add
  cases x.view.inv.head with
  | none => exact ⟨h, rfl, rfl⟩
  | some head =>
    dsimp only
    cases x.view.chooseContentPath E head s c with
    | error e => exact ⟨h, rfl, rfl⟩
    | ok cp =>
      dsimp only
      by_cases hl : l ∈ x.view.inv.logicalPaths head
      · simp only [hl, if_true]; exact ⟨h, rfl, rfl⟩
      · simp only [hl, if_false]
        cases E.srcDigest (x.view.inv.digestAlgorithm.getD []) s with
        | error e => exact ⟨h, rfl, rfl⟩
        | ok digest =>
          dsimp only
          have hx : x.view.inv = Inv.ofJson x.doc := rfl
          rw [hx]
          obtain ⟨n1, n2, n3, n4⟩ := needState_agrees h head
          generalize needState head x.doc = N at n1 n2 n3 n4
          generalize (Inv.ofJson x.doc).stateAddIfNotPresent head = M at n2 n3 n4
          obtain ⟨doc1, o⟩ := N
          obtain ⟨inv1, q⟩ := M
          cases q with
          | error e =>
            cases o with
            | error e' => cases n3; exact ⟨n1, view_of _ n2, rfl⟩
            | ok u => cases n3
          | ok st =>
            cases o with
            | error e' => cases n3
            | ok u =>
              dsimp only at n1 n2 n4 ⊢
              obtain ⟨n5, b, st', hb, hst⟩ := n4 rfl
              rw [setState_stateOf hb hst] at n5
              cases n5
              have ha := stateAppend_agrees n1 head digest l hb hst
              rw [n2] at ha
              have hv : NewVersion.view ⟨stateAppend head digest l doc1, x.rest⟩ =
                  { x.view with inv := inv1.setState head (Inv.stateAppend st digest l) } := view_of x.rest ha.2
              rw [hv]
              split
              · have hm := addFileToManifest_agrees ha.1 digest cp
                rw [ha.2] at hm
                generalize addFileToManifest digest cp (stateAppend head digest l doc1) = N2 at hm
                generalize (inv1.setState head (Inv.stateAppend st digest l)).addFileToManifest digest cp = M2 at hm
                obtain ⟨doc3, o3⟩ := N2
                obtain ⟨inv3, q3⟩ := M2
                obtain ⟨m1, m2, m3⟩ := hm
                dsimp only at m1 m2 m3
                subst m3
                cases o3 with
                | error e => exact ⟨m1, view_of _ m2, rfl⟩
                | ok u => exact ⟨m1, view_of _ m2, rfl⟩
              · exact ⟨ha.1, hv, rfl⟩

theorem delete_same (l : Str) {x : NewVersion} (h : IsInventory x.doc) : SameCall (x.delete l) (x.view.delete l) := by
  unfold NewVersion.delete NV.delete
  cases x.view.inv.head with
  | none => exact ⟨h, rfl, rfl⟩
  | some head =>
    dsimp only
    have hx : x.view.inv = Inv.ofJson x.doc := rfl
    rw [hx]
    have hd := deleteLogicalPath_agrees h head l
    generalize deleteLogicalPath head l x.doc = N at hd
    generalize (Inv.ofJson x.doc).deleteLogicalPath head l = M at hd
    obtain ⟨doc1, o⟩ := N
    obtain ⟨inv1, q⟩ := M
    obtain ⟨m1, m2, m3⟩ := hd
    dsimp only at m1 m2 m3
    subst m3
    cases o with
    | error e => exact ⟨m1, view_of _ m2, rfl⟩
    | ok u => exact ⟨m1, view_of _ m2, rfl⟩

/-- After a path has been deleted there is a state. -/
theorem deleted_state {inv : Inv} {v path d : Str} (h : (inv.deleteLogicalPath v path).2 = .ok d) :
    ∃ b st, (inv.deleteLogicalPath v path).1.versionData v = some b ∧ b.state = some st := by
  unfold Inv.deleteLogicalPath at h ⊢
  cases hd : Inv.deleteFromState (inv.stateOf v) path with
  | none => rw [hd] at h; cases h
  | some r =>
    obtain ⟨st, digest, last⟩ := r
    have hb : ∃ b, inv.versionData v = some b := by
      cases hv : inv.versionData v with
      | none => simp [Inv.stateOf, hv, Inv.deleteFromState] at hd
      | some b => exact ⟨b, rfl⟩
    obtain ⟨b, hb⟩ := hb
    have h1 : (inv.setState v st).versionData v = some { b with state := some st } := by
      simp [Inv.setState, hb]
      simp [Inv.versionData, Inv.versionsD, Dict.get?_set_self]
    dsimp only
    split
    · split
      · exact ⟨_, st, h1, rfl⟩
      · exact ⟨_, st, h1, rfl⟩
    · exact ⟨_, st, h1, rfl⟩

theorem rename_same (o n : Str) {x : NewVersion} (h : IsInventory x.doc) : SameCall (x.rename o n) (x.view.rename o n) := by
  unfold NewVersion.rename NV.rename
  cases x.view.inv.head with
  | none => exact ⟨h, rfl, rfl⟩
  | some head =>
    dsimp only
    by_cases hl : n ∈ x.view.inv.logicalPaths head
    · simp only [hl, if_true]; exact ⟨h, rfl, rfl⟩
    · simp only [hl, if_false]
      have hx : x.view.inv = Inv.ofJson x.doc := rfl
      rw [hx]
      have hd := deleteLogicalPath_agrees h head o
      have hs := @deleted_state (Inv.ofJson x.doc) head o
      generalize deleteLogicalPath head o x.doc = N at hd
      generalize (Inv.ofJson x.doc).deleteLogicalPath head o = M at hd hs
      obtain ⟨doc1, r⟩ := N
      obtain ⟨inv1, q⟩ := M
      obtain ⟨m1, m2, m3⟩ := hd
      dsimp only at m1 m2 m3 hs
      subst m3
      cases r with
      | error e => exact ⟨m1, view_of _ m2, rfl⟩
      | ok d =>
        dsimp only
        obtain ⟨b, st, hb, hst⟩ := hs rfl
        rw [setState_stateOf hb hst]
        rw [← m2] at hb
        have ha := stateAppend_agrees m1 head d n hb hst
        rw [m2] at ha
        exact ⟨ha.1, view_of _ ha.2, rfl⟩

theorem setMeta_same (m : NV.MetaOp) {x : NewVersion} (h : IsInventory x.doc) : SameCall (x.setMeta m) (x.view.setMeta m) := by
  unfold NewVersion.setMeta NV.setMeta
  cases x.view.inv.head with
  | none => cases m <;> exact ⟨h, rfl, rfl⟩
  | some head =>
    dsimp only
    cases m with
    | created v => exact ⟨(tracks_block (tracks_created v) head _ h).1, view_of _ (tracks_block (tracks_created v) head _ h).2, rfl⟩
    | message v => exact ⟨(tracks_block (tracks_message v) head _ h).1, view_of _ (tracks_block (tracks_message v) head _ h).2, rfl⟩
    | userAddress v =>
      have := setUser_agrees h c!"address" head v (tracks_address v)
      exact ⟨this.1, view_of _ this.2.1, this.2.2⟩
    | userName v =>
      have := setUser_agrees h c!"name" head v (tracks_name v)
      exact ⟨this.1, view_of _ this.2.1, this.2.2⟩

theorem nvExec_same (E : NVEnv) (c : NV.Call) {x : NewVersion} (h : IsInventory x.doc) : SameCall (x.exec E c) (c.exec E x.view) := by
  cases c with
  | content op =>
    cases op with
    | add s l c => exact add_same E s l c h
    | delete l => exact delete_same l h
    | rename o n => exact rename_same o n h
  | said m => exact setMeta_same m h

/-! ## What is not known -/

theorem nvExec_keeps (E : NVEnv) (c : NV.Call) {x : NewVersion} (h : IsInventory x.doc) : RestKept x.doc (x.exec E c).1.doc := by
  cases c with
  | content op =>
    cases op with
    | add s l c =>
      show RestKept x.doc (x.add E s l c).1.doc
      unfold NewVersion.add
      split
      · exact RestKept.refl _
      · rename_i head _
        split
        · exact RestKept.refl _
        · split
          · exact RestKept.refl _
          · split
            · exact RestKept.refl _
            · rename_i digest _
              have n1 := (needState_agrees h head).1
              have n2 := needState_keeps h head
              split
              · rename_i doc1 e hn
                rw [hn] at n2
                exact n2
              · rename_i doc1 hn
                rw [hn] at n1 n2
                obtain ⟨k1, k2, k3, k4⟩ := needState_agrees h head
                rw [hn] at k4
                obtain ⟨-, b, st, hb, hst⟩ := k4 rfl
                have ha := stateAppend_agrees n1 head digest l hb hst
                have hk := RestKept.trans n2 (stateAppend_keeps n1 head digest l)
                dsimp only
                split
                · exact RestKept.trans hk (addFileToManifest_keeps ha.1 digest _)
                · exact hk
    | delete l =>
      show RestKept x.doc (x.delete l).1.doc
      unfold NewVersion.delete
      split
      · exact RestKept.refl _
      · rename_i head _
        have := deleteLogicalPath_keeps h head l
        split
        · rename_i hd; rw [hd] at this; exact this
        · rename_i hd; rw [hd] at this; exact this
    | rename o n =>
      show RestKept x.doc (x.rename o n).1.doc
      unfold NewVersion.rename
      split
      · exact RestKept.refl _
      · rename_i head _
        have := deleteLogicalPath_keeps h head o
        have h1 := (deleteLogicalPath_agrees h head o).1
        split
        · exact RestKept.refl _
        · split
          · rename_i hd; rw [hd] at this; exact this
          · rename_i hd; rw [hd] at this h1; exact RestKept.trans this (stateAppend_keeps h1 head _ n)
  | said m =>
    show RestKept x.doc (x.setMeta m).1.doc
    unfold NewVersion.setMeta
    split
    · cases m <;> exact RestKept.refl _
    · rename_i head _
      cases m with
      | created v => exact restKept_block h head (fun b hb => blockKept_put hb _ (by decide) (by decide))
      | message v => exact restKept_block h head (fun b hb => blockKept_put hb _ (by decide) (by decide))
      | userAddress v => exact setUser_keeps h (by decide) head v
      | userName v => exact setUser_keeps h (by decide) head v

theorem nvExecAll_same (E : NVEnv) (cs : List NV.Call) {x : NewVersion} (h : IsInventory x.doc) :
    IsInventory (NewVersion.execAll E cs x).1.doc ∧ (NewVersion.execAll E cs x).1.view = (NV.callAll E cs x.view).1 ∧
    (NewVersion.execAll E cs x).2 = (NV.callAll E cs x.view).2 ∧ RestKept x.doc (NewVersion.execAll E cs x).1.doc := by
  induction cs generalizing x with
  | nil => exact ⟨h, rfl, rfl, RestKept.refl _⟩
  | cons c cs ih =>
    have h1 := nvExec_same E c h
    have h2 := ih h1.1
    refine ⟨h2.1, ?_, ?_, RestKept.trans (nvExec_keeps E c h) h2.2.2.2⟩
    · show (NewVersion.execAll E cs (x.exec E c).1).1.view = (NV.callAll E cs (c.exec E x.view).1).1
      rw [h2.2.1, h1.2.1]
    · show (x.exec E c).2 :: (NewVersion.execAll E cs (x.exec E c).1).2 = (c.exec E x.view).2 :: (NV.callAll E cs (c.exec E x.view).1).2
      rw [h2.2.2.1, h1.2.1, h1.2.2]

/-- The start of a new version. -/
theorem nextVersion_same {doc : Json} (h : IsInventory doc) (spec : Str) (md : Option Json) (hm : ∀ b, md = some b → IsBlock b) (norm : Option Str)
    (fd dd cf : Bool) (old : Option Str) :
    (nextVersion doc spec md norm fd dd cf old).map NewVersion.view =
      NV.nextVersion (Inv.ofJson doc) spec (md.map VBlock.ofJson) norm fd dd cf old ∧
    ∀ x, nextVersion doc spec md norm fd dd cf old = .ok x → IsInventory x.doc ∧ RestKept doc x.doc := by
  have fin : ∀ (doc : Json), IsInventory doc → ∀ st : DigestMap, Dict.NK st →
      ((match addVersion none md (some st) none doc with
        | (_, .error e) => (.error e : Py NewVersion)
        | (doc, .ok ()) => .ok ⟨doc, { inv := {}, norm := norm, forwardDelta := some fd, dedupe := dd, oldDigestAlgorithm := old }⟩).map NewVersion.view =
       (match (Inv.ofJson doc).addVersion none (md.map VBlock.ofJson) (some st) none with
        | .error e => (.error e : Py NV)
        | .ok inv => .ok { inv := inv, norm := norm, forwardDelta := some fd, dedupe := dd, oldDigestAlgorithm := old })) ∧
      ∀ x, (match addVersion none md (some st) none doc with
        | (_, .error e) => (.error e : Py NewVersion)
        | (doc, .ok ()) => .ok ⟨doc, { inv := {}, norm := norm, forwardDelta := some fd, dedupe := dd, oldDigestAlgorithm := old }⟩) = .ok x →
        IsInventory x.doc ∧ RestKept doc x.doc := by
    intro doc h st hst
    have hk := exec_keeps h (c := .addVersion none md (some st) none) ⟨hm, fun m hh => by cases hh; exact hst⟩ trivial
    have hk' : RestKept doc (addVersion none md (some st) none doc).1 := hk
    rcases addVersion_agrees h none md (some st) none hm (fun m hh => by cases hh; exact hst) with ⟨inv', h1, h2⟩ | ⟨e, h1, h2⟩
    · rw [h1]
      generalize addVersion none md (some st) none doc = N at h2 hk'
      obtain ⟨doc1, o⟩ := N
      obtain ⟨a1, a2, a3⟩ := h2
      dsimp only at a1 a2 a3 hk'
      subst a3
      refine ⟨?_, fun x hx => ?_⟩
      · exact congrArg Except.ok (view_of _ a2)
      · cases hx; exact ⟨a1, hk'⟩
    · rw [h1, h2]
      exact ⟨rfl, fun x hx => by cases hx⟩
  have nk : ∀ {doc : Json}, IsInventory doc → Dict.NK (if cf = true then (match (Inv.ofJson doc).head with
      | none => []
      | some h => (Inv.ofJson doc).stateOf h) else []) := by
    intro doc h
    split
    · split
      · exact Dict.NK_nil
      · exact NK_stateOf h _
    · exact Dict.NK_nil
  unfold nextVersion NV.nextVersion
  dsimp only
  by_cases hc : some spec ≠ (Inv.ofJson doc).specVersion
  · simp only [if_pos hc]
    cases (Inv.ofJson doc).specVersion with
    | none => exact ⟨rfl, fun x hx => by cases hx⟩
    | some cur =>
      dsimp only
      by_cases hl : NV.strLt spec cur = true
      · simp only [if_pos hl]
        exact ⟨rfl, fun x hx => by cases hx⟩
      · simp only [if_neg hl]
        have hi : IsInventory (setSpecVersion spec doc) := tracks_text (k := c!"type") _ (by decide) _ h
        have hr : Inv.ofJson (setSpecVersion spec doc) = (Inv.ofJson doc).setSpecVersion spec := (read_text _ h).2.1
        have hf := fin _ hi _ (nk hi)
        rw [hr] at hf ⊢
        exact ⟨hf.1, fun x hx => ⟨(hf.2 x hx).1, RestKept.trans (restKept_put h _ (by decide) (by decide)) (hf.2 x hx).2⟩⟩
  · simp only [if_neg hc]
    exact fin _ h _ (nk h)

end Doc

open Spec

/-- **C106.** A new version is started on an inventory document and changed with any sequence of calls, whatever they raise: what the library sees of
the document, and what each call returned or raised, are as the record model says; the document is still an inventory; and what the library does not
know is kept in the inventory and in every version, none of which is lost. -/
theorem C106_new_version_keeps (E : NVEnv) {doc : Json} (h : IsInventory doc) (specVersion : Str) (metadata : Option Json)
    (hm : ∀ b, metadata = some b → IsBlock b) (norm : Option Str) (forwardDelta dedupe carry : Bool) (oldAlgorithm : Option Str) (cs : List NV.Call)
    {x : Doc.NewVersion} (hx : Doc.nextVersion doc specVersion metadata norm forwardDelta dedupe carry oldAlgorithm = .ok x) :
    NV.nextVersion (Inv.ofJson doc) specVersion (metadata.map VBlock.ofJson) norm forwardDelta dedupe carry oldAlgorithm = .ok x.view ∧
    (Doc.NewVersion.execAll E cs x).1.view = (NV.callAll E cs x.view).1 ∧ (Doc.NewVersion.execAll E cs x).2 = (NV.callAll E cs x.view).2 ∧
    IsInventory (Doc.NewVersion.execAll E cs x).1.doc ∧ RestKept doc (Doc.NewVersion.execAll E cs x).1.doc := by
  obtain ⟨h1, h2⟩ := Doc.nextVersion_same h specVersion metadata hm norm forwardDelta dedupe carry oldAlgorithm
  obtain ⟨h3, h4⟩ := h2 x hx
  obtain ⟨a, b, c, d⟩ := Doc.nvExecAll_same E cs h3
  refine ⟨?_, b, c, a, Doc.RestKept.trans h4 d⟩
  rw [← h1, hx]
  rfl

/-- **C106.** Starting a new version raises on the document what it raises on what the library sees of it. -/
theorem C106_refused {doc : Json} (h : IsInventory doc) (specVersion : Str) (metadata : Option Json) (hm : ∀ b, metadata = some b → IsBlock b)
    (norm : Option Str) (forwardDelta dedupe carry : Bool) (oldAlgorithm : Option Str) (e : PyErr) :
    Doc.nextVersion doc specVersion metadata norm forwardDelta dedupe carry oldAlgorithm = .error e ↔
    NV.nextVersion (Inv.ofJson doc) specVersion (metadata.map VBlock.ofJson) norm forwardDelta dedupe carry oldAlgorithm = .error e := by
  obtain ⟨h1, _⟩ := Doc.nextVersion_same h specVersion metadata hm norm forwardDelta dedupe carry oldAlgorithm
  rw [← h1]
  cases Doc.nextVersion doc specVersion metadata norm forwardDelta dedupe carry oldAlgorithm <;> simp [Except.map]

namespace Doc

/-- A second version of an inventory with things in it that the library does not know. -/
def strangeVersion : Py NewVersion := nextVersion (put c!"type" (.str c!"https://ocfl.io/1.0/spec/#inventory") strange) c!"1.1" none none true true true none

/-- It is started, and changed by calls of which some are refused; what the library does not know is still there. -/
example : ((strangeVersion.map (fun x =>
      let r := NewVersion.execAll ⟨fun _ p => .ok p, id⟩
        [.content (.add c!"f" c!"b" none), .content (.add c!"g" c!"b" none), .content (.rename c!"a" c!"c"), .content (.delete c!"x"),
          .said (.userName c!"B")] x
      (r.2, r.1.view.inv.head, r.1.view.inv.stateOf c!"v2", (r.1.doc.field c!"note").isSome,
        ((versionBlock r.1.doc c!"v1").bind (·.field c!"colour")).isSome))) : Py _) =
    .ok ([.ok (), .error .newVersionException, .ok (), .error .newVersionException, .ok ()], some c!"v2", [(c!"f", [c!"b"]), (c!"AB", [c!"c"])], true,
      true) := rfl

example : IsInventory (put c!"type" (.str c!"https://ocfl.io/1.0/spec/#inventory") strange) := tracks_text (k := c!"type") _ (by decide) _ strange_ok

end Doc
end Ocfl
