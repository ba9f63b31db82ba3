import Verif.Proofs.Document

/-!
# C105: an inventory is the document that was read

In the code an inventory is the parsed JSON document, whatever is in it. The methods that change it change the members the library knows, as the
record model says, and leave everything else in it alone.
-/

namespace Ocfl
namespace Doc
open Spec

/-- One call. -/
theorem exec_agrees {doc : Json} (h : IsInventory doc) {c : Call} (hc : GoodArguments c) :
    Agrees (c.exec doc) (recordCall (Inv.ofJson doc) c) := by
  cases c with
  | setId v => exact ⟨tracks_text (k := c!"id") v (by decide) _ h, (read_text v h).1, rfl⟩
  | setSpecVersion v =>
    exact ⟨tracks_text (k := c!"type") (c!"https://ocfl.io/" ++ v ++ c!"/spec/#inventory") (by decide) _ h, (read_text _ h).2.1, rfl⟩
  | setDigestAlgorithm v => exact ⟨tracks_text (k := c!"digestAlgorithm") v (by decide) _ h, (read_text v h).2.2.1, rfl⟩
  | setHead v => exact ⟨tracks_text (k := c!"head") v (by decide) _ h, (read_text v h).2.2.2.2, rfl⟩
  | setContentDirectory v => exact ⟨tracks_text (k := c!"contentDirectory") v (by decide) _ h, (read_text v h).2.2.2.1, rfl⟩
  | setManifest m => exact ⟨(tracks_manifest hc _ h).1, (tracks_manifest hc _ h).2, rfl⟩
  | addVersion v m s w =>
    simp only [Call.exec, recordCall]
    rcases addVersion_agrees h v m s w hc.1 hc.2 with ⟨inv', h1, h2⟩ | ⟨e, h1, h2⟩
    · rw [h1]
      exact ⟨h2.1, h2.2.1, by rw [h2.2.2]; rfl⟩
    · rw [h1, h2]
      exact ⟨h, rfl, rfl⟩
  | addFileToManifest d p =>
    have := addFileToManifest_agrees h d p
    exact ⟨this.1, this.2.1, congrArg noResult this.2.2⟩
  | addFixityType a m => exact ⟨(addFixityType_agrees h a m hc).1, (addFixityType_agrees h a m hc).2, rfl⟩
  | addFixityData a d p =>
    have := addFixityData_agrees h a d p
    simp only [Call.exec, recordCall]
    cases hx : (Inv.ofJson doc).addFixityData a d p with
    | error e => rw [hx] at this; exact ⟨this.1, this.2.1, by rw [this.2.2]; rfl⟩
    | ok i => rw [hx] at this; exact ⟨this.1, this.2.1, by rw [this.2.2]; rfl⟩
  | normalizeDigests a =>
    have := normalizeDigests_agrees h a
    exact ⟨this.1, this.2.1, congrArg noResult this.2.2⟩
  | setCreated v x => exact ⟨(tracks_block (tracks_created x) v doc h).1, (tracks_block (tracks_created x) v doc h).2, rfl⟩
  | setMessage v x => exact ⟨(tracks_block (tracks_message x) v doc h).1, (tracks_block (tracks_message x) v doc h).2, rfl⟩
  | setState v st => exact ⟨(tracks_block (tracks_state hc) v doc h).1, (tracks_block (tracks_state hc) v doc h).2, rfl⟩
  | setUserName v x =>
    have := setUser_agrees h c!"name" v x (tracks_name x)
    exact ⟨this.1, this.2.1, congrArg noResult this.2.2⟩
  | setUserAddress v x =>
    have := setUser_agrees h c!"address" v x (tracks_address x)
    exact ⟨this.1, this.2.1, congrArg noResult this.2.2⟩
  | addFile v d l c b => exact addFile_agrees h v d l c b
  | deleteLogicalPath v p =>
    have := deleteLogicalPath_agrees h v p
    exact ⟨this.1, this.2.1, congrArg (Except.map some) this.2.2⟩

theorem addFileToManifest_keeps {doc : Json} (h : IsInventory doc) (digest path : Str) : RestKept doc (addFileToManifest digest path doc).1 := by
  have hn := restKept_need h (k := c!"manifest") (by decide)
  have h1 := (tracks_needManifest doc h).1
  unfold addFileToManifest
  split
  · exact RestKept.refl doc
  · dsimp only
    split
    · exact RestKept.trans hn (restKept_within h1 _ (by decide) (by decide))
    · exact RestKept.trans hn (restKept_within h1 _ (by decide) (by decide))

theorem needState_keeps {doc : Json} (h : IsInventory doc) (v : Str) : RestKept doc (needState v doc).1 := by
  unfold needState
  split
  · exact restKept_block h v (fun b hb => blockKept_need hb (by decide))
  · exact RestKept.refl doc

theorem stateAppend_keeps {doc : Json} (h : IsInventory doc) (v digest path : Str) : RestKept doc (stateAppend v digest path doc) := by
  unfold stateAppend
  split
  · exact restKept_block h v (fun b hb => blockKept_within hb _ (by decide) (by decide))
  · exact restKept_block h v (fun b hb => blockKept_within hb _ (by decide) (by decide))

theorem addFile_keeps {doc : Json} (h : IsInventory doc) (v digest path : Str) (cp : Option Str) (dedupe : Bool) :
    RestKept doc (addFile v digest path cp dedupe doc).1 := by
  have tail : ∀ {doc1 : Json} {r : Option Str}, IsInventory doc1 → RestKept doc doc1 →
      RestKept doc (match needState v doc1 with
        | (doc2, .error e) => ((doc2, .error e) : Json × Py (Option Str))
        | (doc2, .ok ()) => (stateAppend v digest path doc2, .ok r)).1 := by
    intro doc1 r h1 k1
    have n1 := (needState_agrees h1 v).1
    have n2 := needState_keeps h1 v
    generalize needState v doc1 = N at n1 n2
    obtain ⟨doc2, o⟩ := N
    cases o with
    | error e => exact RestKept.trans k1 n2
    | ok u => exact RestKept.trans k1 (RestKept.trans n2 (stateAppend_keeps n1 v digest path))
  unfold addFile
  by_cases hl : path ∈ (Inv.ofJson doc).logicalPaths v
  · simp only [hl, if_true]
    exact RestKept.refl doc
  · simp only [hl, if_false]
    by_cases hc : (Inv.ofJson doc).contentPathsForDigest digest = [] ∨ dedupe = false
    · simp only [hc, if_true]
      cases makeUnusedFilepath (osPathJoin (osPathJoin v (Inv.ofJson doc).contentDirectoryToUse) (cp.getD path)) (Inv.ofJson doc).contentPaths with
      | none => exact RestKept.refl doc
      | some c =>
        simp only
        have ha := (addFileToManifest_agrees h digest c).1
        have hk := addFileToManifest_keeps h digest c
        generalize addFileToManifest digest c doc = N at ha hk
        obtain ⟨doc1, o⟩ := N
        cases o with
        | error e => exact hk
        | ok u => exact tail ha hk
    · simp only [hc, if_false]
      exact tail h (RestKept.refl doc)

theorem versionBlock_none {doc : Json} (h : IsInventory doc) {v : Str} (hv : Dict.get? (Inv.ofJson doc).versionsD v = none) : versionBlock doc v = none := by
  unfold versionBlock
  unfold Inv.versionsD Inv.ofJson at hv
  dsimp only at hv
  cases hvs : doc.field c!"versions" with
  | none => rfl
  | some vs =>
    obtain ⟨d, rfl, _, _⟩ := versions_record h hvs
    rw [hvs] at hv
    simp only [Option.map_some, Option.getD_some, get?_blocksOf] at hv
    simp only [Option.bind_some, field_obj]
    cases hg : Dict.get? d v with
    | none => rfl
    | some b => rw [hg] at hv; cases hv

theorem versionBlock_need {doc : Json} (h : IsInventory doc) {v : Str} (hv : versionBlock doc v = none) :
    versionBlock (need c!"versions" doc) v = none := by
  obtain ⟨d, rfl, _, _⟩ := h
  unfold versionBlock at *
  rw [field_need, if_pos rfl]
  cases hg : (Json.obj d).field c!"versions" with
  | none => rfl
  | some x => rw [hg] at hv; exact hv

theorem addVersion_keeps {doc : Json} (h : IsInventory doc) {v : Str} (hv : versionBlock doc v = none) (md : Option Json) (st : Option DigestMap)
    (w : Option Nat) (hm : ∀ b, md = some b → IsBlock b) (hs : ∀ m, st = some m → Dict.NK m) :
    RestKept doc (addVersion (some v) md st w doc).1 := by
  have hb : IsBlock (md.getD (.obj [])) := by
    cases md with
    | none => exact isRecord_empty _
    | some b => exact hm b rfl
  have hn := tracks_needVersions doc h
  have h1 := tracks_withinVersions (tracks_put VBlock.ofJson v hb) _ hn.1
  have k1 := RestKept.trans (restKept_need h (k := c!"versions") (by decide)) (restKept_newVersion hn.1 (versionBlock_need h hv) (md.getD (.obj [])))
  unfold addVersion
  cases st with
  | none => exact RestKept.trans k1 (restKept_put h1.1 _ (by decide) (by decide))
  | some m =>
    have h2 := tracks_block (tracks_state (hs m rfl)) v _ h1.1
    exact RestKept.trans k1 (RestKept.trans (restKept_block h1.1 v (fun b hb => blockKept_put hb _ (by decide) (by decide)))
      (restKept_put h2.1 _ (by decide) (by decide)))

theorem normalizeLoop_keeps (alg : Str) (vs : List Str) : ∀ {doc : Json}, IsInventory doc →
    RestKept doc (vs.foldl (fun doc v => block v (within c!"state" (normalizeBlock alg)) doc) doc) := by
  induction vs with
  | nil => exact fun h => RestKept.refl _
  | cons v vs ih =>
    intro doc h
    have t := tracks_block (tracks_withinState (tracks_normalize alg)) v doc h
    exact RestKept.trans (restKept_block h v (fun b hb => blockKept_within hb _ (by decide) (by decide))) (ih t.1)

theorem normalizeDigests_keeps {doc : Json} (h : IsInventory doc) (alg : Str) : RestKept doc (normalizeDigests alg doc).1 := by
  have k1 : RestKept doc (within c!"manifest" (normalizeBlock alg) doc) := restKept_within h _ (by decide) (by decide)
  have t1 := tracks_withinManifest (tracks_normalize alg) doc h
  unfold normalizeDigests
  dsimp only
  split
  · exact k1
  · exact RestKept.trans k1 (normalizeLoop_keeps alg _ t1.1)

theorem deleteLogicalPath_keeps {doc : Json} (h : IsInventory doc) (v path : Str) : RestKept doc (deleteLogicalPath v path doc).1 := by
  unfold deleteLogicalPath
  dsimp only
  split
  · exact RestKept.refl doc
  · rename_i digest _
    split
    · exact restKept_block h v (fun b hb => blockKept_within hb _ (by decide) (by decide))
    · have t := tracks_block (tracks_withinState (tracks_del digest)) v doc h
      have k : RestKept doc (block v (within c!"state" (del digest)) doc) :=
        restKept_block h v (fun b hb => blockKept_within hb _ (by decide) (by decide))
      split
      · exact k
      · exact RestKept.trans k (restKept_within t.1 _ (by decide) (by decide))

theorem setUser_keeps {doc : Json} (h : IsInventory doc) {key : Str} (hk : key ∈ userKeys) (v x : Str) : RestKept doc (setUser key v x doc).1 := by
  unfold setUser
  split
  · exact restKept_block h v (fun b hb => blockKept_user hb _ hk)
  · exact RestKept.refl doc

theorem exec_keeps {doc : Json} (h : IsInventory doc) {c : Call} (hc : GoodArguments c) (hr : ReplacesNone doc c) : RestKept doc (c.exec doc).1 := by
  cases c with
  | setId v => exact restKept_put h _ (by decide) (by decide)
  | setSpecVersion v => exact restKept_put h _ (by decide) (by decide)
  | setDigestAlgorithm v => exact restKept_put h _ (by decide) (by decide)
  | setHead v => exact restKept_put h _ (by decide) (by decide)
  | setContentDirectory v => exact restKept_put h _ (by decide) (by decide)
  | setManifest m => exact restKept_put h _ (by decide) (by decide)
  | addVersion v m s w =>
    cases v with
    | some v => exact addVersion_keeps h hr m s w hc.1 hc.2
    | none =>
      show RestKept doc (addVersion none m s w doc).1
      cases hn : (Inv.ofJson doc).nextVersionDir w with
      | error e => simp only [addVersion, hn]; exact RestKept.refl doc
      | ok v =>
        rw [addVersion_next hn]
        exact addVersion_keeps h (versionBlock_none h (nextVersionDir_new hn)) m s w hc.1 hc.2
  | addFileToManifest d p => exact addFileToManifest_keeps h d p
  | addFixityType a m =>
    exact RestKept.trans (restKept_need h (k := c!"fixity") (by decide)) (restKept_within (tracks_needFixity doc h).1 _ (by decide) (by decide))
  | addFixityData a d p =>
    show RestKept doc (addFixityData a d p doc).1
    unfold addFixityData
    split
    · exact RestKept.refl doc
    · split
      · exact restKept_within h _ (by decide) (by decide)
      · exact restKept_within h _ (by decide) (by decide)
  | normalizeDigests a => exact normalizeDigests_keeps h a
  | setCreated v x => exact restKept_block h v (fun b hb => blockKept_put hb _ (by decide) (by decide))
  | setMessage v x => exact restKept_block h v (fun b hb => blockKept_put hb _ (by decide) (by decide))
  | setState v st => exact restKept_block h v (fun b hb => blockKept_put hb _ (by decide) (by decide))
  | setUserName v x => exact setUser_keeps h (by decide) v x
  | setUserAddress v x => exact setUser_keeps h (by decide) v x
  | addFile v d l c b => exact addFile_keeps h v d l c b
  | deleteLogicalPath v p => exact deleteLogicalPath_keeps h v p

end Doc

open Spec Doc

/-- **C105.** Any sequence of calls on an inventory, whatever they return or raise, does to the document what the record model says it does to what
the library knows of it: what is read of the document afterwards, and what each call returned or raised, are the same. -/
theorem C105_calls_on_the_document (cs : List Doc.Call) {doc : Json} (h : IsInventory doc) (hc : ∀ c ∈ cs, GoodArguments c) :
    IsInventory (execAll cs doc).1 ∧ Inv.ofJson (execAll cs doc).1 = (recordCalls cs (Inv.ofJson doc)).1 ∧
    (execAll cs doc).2 = (recordCalls cs (Inv.ofJson doc)).2 := by
  induction cs generalizing doc with
  | nil => exact ⟨h, rfl, rfl⟩
  | cons c cs ih =>
    have h1 := exec_agrees h (hc c List.mem_cons_self)
    have h2 := ih h1.1 (fun x hx => hc x (List.mem_cons_of_mem _ hx))
    refine ⟨h2.1, ?_, ?_⟩
    · show Inv.ofJson (execAll cs (c.exec doc).1).1 = (recordCalls cs (recordCall (Inv.ofJson doc) c).1).1
      rw [h2.2.1, h1.2.1]
    · show (c.exec doc).2 :: (execAll cs (c.exec doc).1).2 =
        (recordCall (Inv.ofJson doc) c).2 :: (recordCalls cs (recordCall (Inv.ofJson doc) c).1).2
      rw [h2.2.2, h1.2.1, h1.2.2]

/-- **C105.** What the library does not know is kept by any sequence of calls, in the inventory, in every version and in its user block, as long
as `add_version` is not told to replace a version. -/
theorem C105_rest_kept_partial (cs : List Doc.Call) {doc : Json} (h : IsInventory doc) (hc : ∀ c ∈ cs, GoodArguments c) (hr : ReplaceNone cs doc) :
    RestKept doc (execAll cs doc).1 := by
  induction cs generalizing doc with
  | nil => exact RestKept.refl doc
  | cons c cs ih =>
    have h1 := exec_agrees h (hc c List.mem_cons_self)
    exact RestKept.trans (exec_keeps h (hc c List.mem_cons_self) hr.1) (ih h1.1 (fun x hx => hc x (List.mem_cons_of_mem _ hx)) hr.2)

/-- **C105.** The version that `add_version()` adds is never one that is there: no number of an existing version is used again. -/
theorem C105_next_is_new {inv : Inv} {w : Option Nat} {v : Str} (h : inv.nextVersionDir w = .ok v) : v ∉ Dict.keys inv.versionsD :=
  (Dict.get?_eq_none_iff _ _).mp (nextVersionDir_new h)

/-! ## Examples -/

namespace Doc

/-- An inventory with things in it that the library does not know. -/
def strange : Json := .obj [
  (c!"id", .str c!"x"), (c!"note", .num c!"7"), (c!"head", .str c!"v1"),
  (c!"manifest", .obj [(c!"AB", .arr [.str c!"v1/content/a"])]),
  (c!"versions", .obj [(c!"v1", .obj [(c!"colour", .str c!"red"),
    (c!"user", .obj [(c!"name", .str c!"A"), (c!"orcid", .str c!"0")]), (c!"state", .obj [(c!"AB", .arr [.str c!"a"])])])])]

def someCalls : List Call :=
  [.normalizeDigests c!"sha512", .addVersion none none (some [(c!"ab", [c!"a"])]) none, .addFile c!"v2" c!"cd" c!"b" none true,
    .setUserAddress c!"v1" c!"mailto:a@b", .deleteLogicalPath c!"v2" c!"a", .addFixityData c!"md5" c!"00" c!"v1/content/a"]

theorem isRecord_of_all {P : Str → Json → Prop} {d : Dict Str Json} (hd : Dict.NK d) (h : ∀ e ∈ d, P e.1 e.2) : IsRecord P (.obj d) :=
  ⟨d, rfl, hd, fun k v hv => h (k, v) (Dict.mem_of_get? hv)⟩

theorem strange_ok : IsInventory strange := by
  refine isRecord_of_all (by decide) ?_
  simp only [List.forall_mem_cons, List.not_mem_nil, false_imp_iff, implies_true, and_true]
  refine ⟨⟨fun _ => ⟨_, rfl⟩, ?_⟩, ⟨fun h => absurd h (by decide), ?_⟩, ⟨fun _ => ⟨_, rfl⟩, ?_⟩, ⟨fun h => absurd h (by decide), ?_⟩,
    ⟨fun h => absurd h (by decide), ?_⟩⟩
  · exact ⟨fun h => absurd h (by decide), fun h => absurd h (by decide), fun h => absurd h (by decide)⟩
  · exact ⟨fun h => absurd h (by decide), fun h => absurd h (by decide), fun h => absurd h (by decide)⟩
  · exact ⟨fun h => absurd h (by decide), fun h => absurd h (by decide), fun h => absurd h (by decide)⟩
  · refine ⟨fun _ => isDigestMap_toJson (m := [(c!"AB", [c!"v1/content/a"])]) (by decide), fun h => absurd h (by decide), fun h => absurd h (by decide)⟩
  · refine ⟨fun h => absurd h (by decide), fun _ => ?_, fun h => absurd h (by decide)⟩
    refine isRecord_of_all (by decide) ?_
    simp only [List.forall_mem_cons, List.not_mem_nil, false_imp_iff, implies_true, and_true]
    refine isRecord_of_all (by decide) ?_
    simp only [List.forall_mem_cons, List.not_mem_nil, false_imp_iff, implies_true, and_true]
    refine ⟨⟨fun h => absurd h (by decide), fun h => absurd h (by decide), fun h => absurd h (by decide)⟩,
      ⟨fun h => absurd h (by decide), fun _ => ?_, fun h => absurd h (by decide)⟩,
      ⟨fun h => absurd h (by decide), fun h => absurd h (by decide), fun _ => isDigestMap_toJson (m := [(c!"AB", [c!"a"])]) (by decide)⟩⟩
    refine isRecord_of_all (by decide) ?_
    simp only [List.forall_mem_cons, List.not_mem_nil, false_imp_iff, implies_true, and_true]
    exact ⟨fun _ => ⟨_, rfl⟩, fun h => absurd h (by decide)⟩

theorem someCalls_ok : (∀ c ∈ someCalls, GoodArguments c) ∧ ReplaceNone someCalls strange := by
  refine ⟨?_, ?_⟩
  · intro c hc
    simp only [someCalls, List.mem_cons, List.not_mem_nil, or_false] at hc
    rcases hc with rfl | rfl | rfl | rfl | rfl | rfl
    · trivial
    · exact ⟨fun b h => (by cases h), fun st h => (by cases h; decide)⟩
    · trivial
    · trivial
    · trivial
    · trivial
  · exact ⟨trivial, trivial, trivial, trivial, trivial, trivial, trivial⟩

/-- The calls meet the hypotheses of the theorems; what the library does not know is still there afterwards, and the last call raised. -/
example : IsInventory strange ∧ (∀ c ∈ someCalls, GoodArguments c) ∧ ReplaceNone someCalls strange ∧
    (execAll someCalls strange).2 = [.ok none, .ok none, .ok (some c!"v2/content/b"), .ok none, .ok c!"ab", .error .keyError] ∧
    (execAll someCalls strange).1.field c!"note" = some (.num c!"7") ∧
    ((versionBlock (execAll someCalls strange).1 c!"v1").bind (·.field c!"colour")) = some (.str c!"red") ∧
    (Inv.ofJson (execAll someCalls strange).1).manifest = some [(c!"ab", [c!"v1/content/a"]), (c!"cd", [c!"v2/content/b"])] ∧
    (Inv.ofJson (execAll someCalls strange).1).head = some c!"v2" :=
  ⟨strange_ok, someCalls_ok.1, someCalls_ok.2, by decide +kernel, rfl, rfl, by decide +kernel, by decide +kernel⟩

end Doc

/-- **C105.** It is lost when `add_version` is told to add a version that is there: the block is replaced, and no exception is raised. -/
theorem C105_violated_replaced : IsInventory strange ∧ (∀ c ∈ [Doc.Call.addVersion (some c!"v1") none none none], GoodArguments c) ∧
    (execAll [.addVersion (some c!"v1") none none none] strange).2 = [.ok none] ∧
    ¬ RestKept strange (execAll [.addVersion (some c!"v1") none none none] strange).1 := by
  refine ⟨strange_ok, ?_, by decide +kernel, fun h => ?_⟩
  · intro c hc
    rw [List.mem_singleton] at hc
    subst hc
    exact ⟨fun b h => (by cases h), fun st h => (by cases h)⟩
  · obtain ⟨b', hb, hk⟩ := h.2 c!"v1" _ rfl
    have hb' : b' = .obj [] := (Option.some.inj hb).symm
    subst hb'
    have := hk.1 c!"colour" (by decide)
    cases this

/-- The next version of an inventory with versions of different forms. -/
example : Inv.nextVersionDir { versions := some [(c!"v3", {}), (c!"v00004", {})] } none = .ok c!"v00005" := by decide +kernel

end Ocfl
