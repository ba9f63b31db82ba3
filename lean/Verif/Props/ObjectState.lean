import Verif.Spec.ObjectState
import Verif.Props.ExampleObject

/-!
# C101: calls on one `Object` do not influence each other
-/

namespace Ocfl
open Spec FS Prog

/-- The attributes are those given to the constructor, but for the two that are set when an object is read. -/
def UsedAttrs (o o' : Obj) : Prop := ∃ v d, o' = { o with specVersion := v, contentDirectory := d }

theorem UsedAttrs.self (o : Obj) : UsedAttrs o o := ⟨o.specVersion, o.contentDirectory, rfl⟩

theorem afterParse_used {E : Env} {o o' : Obj} (h : UsedAttrs o o') (objdir : Str) (s : FS) : UsedAttrs o (afterParse E o' objdir s) := by
  obtain ⟨v, d, rfl⟩ := h
  unfold afterParse
  split
  · exact ⟨v, d, rfl⟩
  · exact ⟨_, d, rfl⟩

theorem after_used {E : Env} {o o' : Obj} (h : UsedAttrs o o') (c : ObjCall) (s : FS) : UsedAttrs o (c.after E o' s) := by
  cases c with
  | create | build | validate => exact h
  | extract | extractFile => exact afterParse_used h _ _
  | update =>
    simp only [ObjCall.after]
    split
    · exact afterParse_used h _ _
    · exact h
  | tree =>
    simp only [ObjCall.after]
    split
    · exact h
    · obtain ⟨v, d, rfl⟩ := h
      split
      · exact ⟨_, _, rfl⟩
      · exact ⟨_, _, rfl⟩

theorem after_same {E : Env} {o : Obj} {c : ObjCall} (h : ¬ Reads c) (s : FS) : c.after E o s = o := by
  cases c with
  | create | build | validate => rfl
  | extract | extractFile | update | tree => exact absurd trivial h

theorem exec_used {E : Env} {o o' : Obj} (h : UsedAttrs o o') {c : ObjCall} (hm : ¬ Makes c) (s : FS) : c.exec E o' s = c.exec E o s := by
  obtain ⟨v, d, rfl⟩ := h
  cases c with
  | create | build => exact absurd trivial hm
  | extract | extractFile | update | tree | validate => rfl

theorem calls_used {E : Env} {o : Obj} : ∀ (calls : List ObjCall) {o' : Obj} (s : FS), UsedAttrs o o' → (∀ c ∈ calls, ¬ Makes c) →
    (objCalls E o' calls s).1 = (freshCalls E o calls s).1 ∧ (objCalls E o' calls s).2.2 = (freshCalls E o calls s).2
  | [], _, _, _, _ => ⟨rfl, rfl⟩
  | c :: cs, o', s, h, hm => by
    unfold objCalls freshCalls
    dsimp only
    rw [exec_used h (hm c (List.mem_cons_self ..)) s]
    obtain ⟨h1, h2⟩ := calls_used (E := E) cs (c.exec E o s).1 (after_used (E := E) h c s) (fun d hd => hm d (List.mem_cons_of_mem _ hd))
    rw [h1, h2]
    exact ⟨rfl, rfl⟩

/-- **C101** (partial): in any sequence of calls on one `Object`, as long as no object is made after another one was read, each call
does and returns what it does and returns on a new `Object` with the same arguments. Missing: `create` and `build` after other calls, see
`C101_violated`. -/
theorem C101_partial {E : Env} {o : Obj} : ∀ {calls : List ObjCall}, calls.Pairwise (fun d c => ¬ (Reads d ∧ Makes c)) → ∀ s : FS,
    (objCalls E o calls s).1 = (freshCalls E o calls s).1 ∧ (objCalls E o calls s).2.2 = (freshCalls E o calls s).2
  | [], _, _ => ⟨rfl, rfl⟩
  | c :: cs, h, s => by
    obtain ⟨h1, h2⟩ := List.pairwise_cons.mp h
    by_cases hr : Reads c
    · have hm : ∀ d ∈ cs, ¬ Makes d := fun d hd hmk => h1 d hd ⟨hr, hmk⟩
      obtain ⟨e1, e2⟩ := calls_used (E := E) cs (c.exec E o s).1 (after_used (E := E) (UsedAttrs.self o) c s) hm
      unfold objCalls freshCalls
      dsimp only
      rw [e1, e2]
      exact ⟨rfl, rfl⟩
    · obtain ⟨e1, e2⟩ := C101_partial (E := E) (o := o) h2 (c.exec E o s).1
      unfold objCalls freshCalls
      dsimp only
      rw [after_same hr, e1, e2]
      exact ⟨rfl, rfl⟩

/-- **C101**, what calls leave behind: whatever is called, on whatever objects, nothing but the version and the content directory of the `Object` ever
changes. So a later call does what it does on a new `Object` with the same arguments, these two apart. -/
theorem C101_attributes {E : Env} {o : Obj} : ∀ (calls : List ObjCall) {o' : Obj} (s : FS), (∃ v d, o' = { o with specVersion := v, contentDirectory := d }) →
    ∃ v d, (objCalls E o' calls s).2.1 = { o with specVersion := v, contentDirectory := d }
  | [], _, _, h => h
  | c :: cs, o', s, h => by
    unfold objCalls
    exact C101_attributes cs _ (after_used (E := E) h c s)

/-- A working directory with an object of version 1.0. -/
def oldObjectFS : FS := (run (create demoEnv { demoObj with specVersion := c!"1.0" } c!"src" (some demoMeta) (some c!"old")) demoFS).1

/-- Extract the object, then make another one. -/
def extractCreate : List ObjCall := [.extract c!"old" c!"head" c!"out", .create c!"src" (some demoMeta) (some c!"obj")]

/-- The same with the new object first, and then all other calls. -/
def createExtract : List ObjCall :=
  [.create c!"src" (some demoMeta) (some c!"obj"), .extract c!"old" c!"head" c!"out", .validate c!"obj" true, .tree c!"old",
    .update c!"obj" (some c!"out") (some demoMeta) false, .extractFile c!"obj" c!"head" c!"one" c!"a.txt"]

/-- **C101** fails: an `Object` that is to make objects of version 1.1 makes one of version 1.0 after it has extracted one. -/
theorem C101_violated : ∃ b, look (objCalls demoEnv demoObj extractCreate oldObjectFS).1 [c!"w", c!"obj", c!"0=ocfl_object_1.0"] = some (.file b) ∧
    look (objCalls demoEnv demoObj extractCreate oldObjectFS).1 [c!"w", c!"obj", c!"0=ocfl_object_1.1"] = none ∧
    look (freshCalls demoEnv demoObj extractCreate oldObjectFS).1 [c!"w", c!"obj", c!"0=ocfl_object_1.1"] ≠ none ∧ demoObj.specVersion = c!"1.1" :=
  ⟨utf8 c!"ocfl_object_1.0\n", by decide +kernel, by decide +kernel, by decide +kernel, rfl⟩

/-- The content directory goes from one object to another with `tree`. -/
theorem C101_violated_tree : look (objCalls demoEnv demoObj [.create c!"src" (some demoMeta) (some c!"obj"), .tree c!"old", .create c!"src" (some demoMeta) (some c!"two")]
      (run (create demoEnv { demoObj with contentDirectory := c!"data" } c!"src" (some demoMeta) (some c!"old")) demoFS).1).1
        [c!"w", c!"two", c!"v1", c!"data"] = some .dir ∧ demoObj.contentDirectory = c!"content" :=
  ⟨by decide +kernel, rfl⟩

/-- Was there no exception? -/
def ObjReply.fine : ObjReply → Bool
  | .inventory r => isOk r
  | .metadata r => isOk r
  | .text r => isOk r
  | .verdict r => isOk r

example : createExtract.Pairwise (fun d c => ¬ (Reads d ∧ Makes c)) ∧ (objCalls demoEnv demoObj createExtract oldObjectFS).2.2.map ObjReply.fine = List.replicate 6 true := by
  constructor
  · simp [createExtract, Reads, Makes]
  · decide +kernel

end Ocfl
