import Verif.Proofs.RecipeBuild
import Verif.Props.History
import Verif.Props.ObjectValidation

/-!
# C91: the same steps give the same object

Two objects that were made by the same steps, from the same files with the same settings and metadata, have
the same files with the same content, wherever they are, wherever the files came from, in whatever order the
directories list them, and whatever else happened in between.
-/

namespace Ocfl

open Spec FS Prog Ocfl.Inv

theorem forall₂_snoc {α : Type} {R : α → α → Prop} {l l' : List α} {a a' : α} (h : List.Forall₂ R (l ++ [a]) (l' ++ [a'])) :
    List.Forall₂ R l l' ∧ R a a' := by
  rw [← List.forall₂_reverse_iff] at h
  simp only [List.reverse_append, List.reverse_cons, List.reverse_nil, List.nil_append, List.cons_append, List.forall₂_cons] at h
  exact ⟨List.forall₂_reverse_iff.mp h.2, h.1⟩

theorem forall₂_flatten {α : Type} {R : α → α → Prop} {l l' : List (List α)} (h : List.Forall₂ (List.Forall₂ R) l l') :
    List.Forall₂ R l.flatten l'.flatten := by
  induction h with
  | nil => exact .nil
  | cons h1 _ ih => exact List.rel_append h1 ih

theorem Spec.Step.Same.trees {a b : Step} (h : Step.Same a b) : List.Forall₂ SameTree a.trees b.trees := by
  cases h with
  | create f => exact .cons f .nil
  | build _ f => exact f
  | update f => exact .cons f .nil

theorem treesOf_same {l l' : List Step} (h : List.Forall₂ Step.Same l l') : List.Forall₂ SameTree (treesOf l) (treesOf l') := by
  refine forall₂_flatten ?_
  rw [List.forall₂_map_left_iff, List.forall₂_map_right_iff]
  exact h.imp (fun _ _ h => h.trees)

theorem inTrees_same {l l' : List Tree} (h : List.Forall₂ SameTree l l') {b : Bytes} (hb : InTrees l' b) : InTrees l b := by
  induction h with
  | nil => exact hb
  | cons h1 _ ih =>
    obtain ⟨t, ht, r, hr⟩ := hb
    rw [List.mem_cons] at ht
    rcases ht with rfl | ht
    · exact ⟨_, List.mem_cons_self, r, (h1 r b).mpr hr⟩
    · obtain ⟨t', ht', hr'⟩ := ih ⟨t, ht, r, hr⟩
      exact ⟨t', List.mem_cons_of_mem _ ht', hr'⟩

theorem EqualFiles.trans {s s' s'' : FS} {p p' p'' : Path} (h : EqualFiles s p s' p') (h' : EqualFiles s' p' s'' p'') : EqualFiles s p s'' p'' :=
  fun r b => (h r b).trans (h' r b)

theorem EqualFiles.symm {s s' : FS} {p p' : Path} (h : EqualFiles s p s' p') : EqualFiles s' p' s p := fun r b => (h r b).symm

theorem EqualFiles.outside {s s' : FS} {p : Path} (h : ∀ q, p <+: q → look s' q = look s q) : EqualFiles s p s' p := by
  intro r b
  unfold FileBelow
  rw [h _ (List.prefix_append _ _)]

theorem EqualFiles.copied {s s' : FS} {p p' : Path} (h : SameFiles s p s' p') : EqualFiles s p s' p' := by
  intro r b
  unfold FileBelow
  rw [h.files]

/-- C91. -/
theorem C91 {E : Env} (hE : Libraries E) (hcwd : ∀ w ∈ E.cwd, SafeName w) {base base' : Path} {steps steps' : List Step} {s s' : FS}
    (h : Recipe E base steps s) (h' : Recipe E base' steps' s') (hsame : List.Forall₂ Step.Same steps steps')
    (hno : NoCollision E.raw (InTrees (treesOf steps))) (hlen : (treesOf steps).length ≤ 99999) (r : Path) (b : Bytes) :
    FileBelow s base r b ↔ FileBelow s' base' r b := by
  suffices H : EqualFiles s base s' base' from H r b
  induction h generalizing base' steps' s' with
  | @create base o srcdir objdir metadata s t inv wf settings block base_eq vacant nonempty names done =>
    induction h' with
    | create wf' settings' block' base_eq' vacant' nonempty' names' done' =>
      subst base_eq base_eq'
      rw [List.forall₂_cons] at hsame
      cases hsame.1 with
      | create files => exact create_same hE.hash hE.word hcwd settings block wf wf' vacant vacant' files done done'
    | build =>
      rw [List.forall₂_cons] at hsame
      cases hsame.1
    | elsewhere before wf same ih => exact (ih hsame).trans (.outside same)
    | copied before wf same ih => exact (ih hsame).trans (.copied same)
    | update before =>
      exact absurd (List.forall₂_nil_left_iff.mp (forall₂_snoc (l := []) hsame).1) before.ne_nil
  | @build base o srcdir objdir metadata s t inv n wf settings sources blocks base_eq vacant apart nonempty names done =>
    induction h' with
    | create =>
      rw [List.forall₂_cons] at hsame
      cases hsame.1
    | @build base' o' srcdir' objdir' metadata' s' t' inv' n' wf' settings' sources' blocks' base_eq' vacant' apart' nonempty' names' done' =>
      subst base_eq base_eq'
      rw [List.forall₂_cons] at hsame
      have htrees : treesOf [Step.build o metadata (versionTrees s (absComps E.cwd srcdir) n)] = versionTrees s (absComps E.cwd srcdir) n := by
        simp [treesOf, Step.trees]
      rw [htrees] at hno
      cases hsame.1 with
      | build hb files =>
        have hn := files.length_eq
        rw [versionTrees_length, versionTrees_length] at hn
        subst hn
        rw [versionTrees_length] at hb
        refine build_same hE.hash hE.word hcwd settings wf wf' sources sources' blocks hb vacant vacant' apart apart' nonempty nonempty' names names'
          ?_ hno done done'
        intro k hk
        unfold versionTrees at files
        rw [List.forall₂_map_left_iff, List.forall₂_map_right_iff, List.forall₂_same] at files
        exact files k (List.mem_range.mpr hk)
    | elsewhere before wf same ih => exact (ih hsame).trans (.outside same)
    | copied before wf same ih => exact (ih hsame).trans (.copied same)
    | update before =>
      exact absurd (List.forall₂_nil_left_iff.mp (forall₂_snoc (l := []) hsame).1) before.ne_nil
  | elsewhere before wf same ih => exact EqualFiles.trans (EqualFiles.symm (.outside same)) (ih h' hsame hno hlen)
  | copied before wf same ih => exact EqualFiles.trans (EqualFiles.symm (.copied same)) (ih h' hsame hno hlen)
  | @update base steps o srcdir objdir metadata abort s t inv before algorithm block base_eq names done ih =>
    rw [treesOf_append] at hno hlen
    have hstep : (treesOf [Step.update o metadata (FileBelow s (absComps E.cwd srcdir))]).length = 1 := rfl
    rw [List.length_append, hstep] at hlen
    have hno1 := NoCollision.mono hno (fun b hb => InTrees.append hb)
    obtain ⟨dv, recs, hs⟩ := history_sound hE.json hE.hash hE.word hcwd before.history hno1 (by omega)
    induction h' with
    | create =>
      exact absurd (List.forall₂_nil_right_iff.mp (forall₂_snoc (l' := []) hsame).1) before.ne_nil
    | build =>
      exact absurd (List.forall₂_nil_right_iff.mp (forall₂_snoc (l' := []) hsame).1) before.ne_nil
    | elsewhere before wf same ih => exact (ih hsame).trans (.outside same)
    | copied before wf same ih => exact (ih hsame).trans (.copied same)
    | update before' algorithm' block' base_eq' names' done' _ =>
      subst base_eq base_eq'
      obtain ⟨h1, h2⟩ := forall₂_snoc hsame
      cases h2 with
      | update files =>
        have hl := (treesOf_same h1).length_eq
        have hno1' : NoCollision E.raw (InTrees _) := NoCollision.mono hno1 (fun b hb => inTrees_same (treesOf_same h1) hb)
        obtain ⟨dv', recs', hs'⟩ := history_sound hE.json hE.hash hE.word hcwd before'.history hno1' (by omega)
        exact update_same hE.json hE.hash algorithm block hs hs' hno1 hno1' hlen (by omega)
          (ih before' h1 hno1 (by omega)) files done done'

/-! ## Two objects made by the same two steps -/

/-- The files below a directory are below the other directory too. -/
def coversBelow (s : FS) (dir : Path) (s' : FS) (dir' : Path) : Bool :=
  s.all (fun e => match e.2 with
    | .dir => true
    | .file b => !(dir.isPrefixOf e.1) || decide (FS.look s' (dir' ++ e.1.drop dir.length) = some (.file b)))

theorem coversBelow_spec {s s' : FS} {dir dir' : Path} (h : coversBelow s dir s' dir' = true) (r : Path) (b : Bytes)
    (hf : FileBelow s dir r b) : FileBelow s' dir' r b := by
  obtain ⟨h1, h2⟩ := hf
  unfold FS.look at h2
  rw [if_neg (by simp [h1])] at h2
  have := List.all_eq_true.mp h _ (Dict.mem_of_get? h2)
  dsimp only at this
  rw [List.drop_left, Bool.or_eq_true, decide_eq_true_eq] at this
  rcases this with h' | h'
  · rw [List.isPrefixOf_iff_prefix.mpr (List.prefix_append _ _)] at h'
    cases h'
  · exact ⟨h1, h'⟩

theorem sameTree_of {s s' : FS} {dir dir' : Path} (h : coversBelow s dir s' dir' = true) (h' : coversBelow s' dir' s dir = true) :
    SameTree (FileBelow s dir) (FileBelow s' dir') :=
  fun r b => ⟨coversBelow_spec h r b, coversBelow_spec h' r b⟩

/-- The files of `demoFS` in another directory, listed in another order, with another file beside them. -/
def mirrorFS : FS :=
  [([c!"w"], .dir), ([c!"w", c!"note"], .file [7]), ([c!"w", c!"in"], .dir), ([c!"w", c!"in", c!"d"], .dir),
    ([c!"w", c!"in", c!"d", c!"c"], .file [1, 2, 3]), ([c!"w", c!"in", c!"d", c!"b"], .file [4]),
    ([c!"w", c!"in", c!"a.txt"], .file [1, 2, 3])]

theorem mirrorFS_wf : mirrorFS.WF where
  nk := by decide
  noRoot := by decide
  parent := by decide
  names := by decide

/-- An object made from them, and the same change of a file. -/
def mirrorChanged : FS :=
  Dict.set (run (create demoEnv demoObj c!"in" (some demoMeta) (some c!"other")) mirrorFS).1 [c!"w", c!"in", c!"a.txt"] (.file [9])

/-- The same update. -/
def mirrorUpdate : Prog (Option Inv) :=
  addVersionWithContent demoEnv { demoObj with digestAlgorithm := c!"sha512" } c!"other" (some c!"in") (some demoMeta) false

def mirrorGrown : FS := (run mirrorUpdate mirrorChanged).1

theorem mirror_recipe : Recipe demoEnv (absComps demoEnv.cwd c!"other")
    [.create demoObj (some demoMeta) (FileBelow mirrorFS (absComps demoEnv.cwd c!"in")),
      .update { demoObj with digestAlgorithm := c!"sha512" } (some demoMeta) (FileBelow mirrorChanged (absComps demoEnv.cwd c!"in"))] mirrorGrown := by
  obtain ⟨inv, hr⟩ := succeeded_ok (r := run (create demoEnv demoObj c!"in" (some demoMeta) (some c!"other")) mirrorFS) (by decide +kernel)
  have h1 : Recipe demoEnv (absComps demoEnv.cwd c!"other") _ _ := .create mirrorFS_wf demoObj_good demoMeta_good rfl (vacant_of mirrorFS_wf (by decide +kernel))
    ⟨[c!"a.txt"], [1, 2, 3], by decide, by decide +kernel⟩ (fun h => by cases h) hr
  have hw : mirrorChanged.WF := ⟨by decide +kernel, by decide +kernel, by decide +kernel, by decide +kernel⟩
  have h2 := Recipe.elsewhere (s' := mirrorChanged) h1 hw (by
    intro q hq
    unfold mirrorChanged
    rw [FS.look_set (by decide), if_neg]
    rintro rfl
    exact absurd hq (by decide +kernel))
  have hs : (match (run mirrorUpdate mirrorChanged).2 with | .ok (some _) => true | _ => false) = true := by decide +kernel
  cases hr : run mirrorUpdate mirrorChanged with
  | mk s' r =>
    rw [hr] at hs
    cases r with
    | error e => cases hs
    | ok r =>
      cases r with
      | none => cases hs
      | some inv =>
        have he : mirrorGrown = s' := by unfold mirrorGrown; rw [hr]
        rw [he]
        exact .update h2 (Or.inl rfl) demoMeta_good rfl (fun h => by cases h) hr

theorem demo_recipe : Recipe demoEnv (absComps demoEnv.cwd c!"obj")
    [.create demoObj (some demoMeta) (FileBelow demoFS (absComps demoEnv.cwd c!"src")),
      .update { demoObj with digestAlgorithm := c!"sha512" } (some demoMeta) (FileBelow demoChanged (absComps demoEnv.cwd c!"src"))] demoGrown := by
  obtain ⟨inv, hr⟩ := succeeded_ok (r := run (create demoEnv demoObj c!"src" (some demoMeta) (some c!"obj")) demoFS) (by decide +kernel)
  have h1 : Recipe demoEnv (absComps demoEnv.cwd c!"obj") _ _ := .create demoFS_wf demoObj_good demoMeta_good rfl (vacant_of demoFS_wf (by decide +kernel))
    ⟨[c!"a.txt"], [1, 2, 3], by decide, by decide +kernel⟩ (fun h => by cases h) hr
  have h2 := Recipe.elsewhere (s' := demoChanged) h1 demoChanged_wf demo_apart
  have hs : (match (run demoRehash demoChanged).2 with | .ok (some _) => true | _ => false) = true := by decide +kernel
  cases hr : run demoRehash demoChanged with
  | mk s' r =>
    rw [hr] at hs
    cases r with
    | error e => cases hs
    | ok r =>
      cases r with
      | none => cases hs
      | some inv =>
        have he : demoGrown = s' := by unfold demoGrown; rw [hr]
        rw [he]
        exact .update h2 (Or.inl rfl) demoMeta_good rfl (fun h => by cases h) hr

/-- The two objects are alike, and there is something in them. -/
example : (∀ r b, FileBelow demoGrown (absComps demoEnv.cwd c!"obj") r b ↔ FileBelow mirrorGrown (absComps demoEnv.cwd c!"other") r b) ∧
    FileBelow mirrorGrown (absComps demoEnv.cwd c!"other") [c!"v2", c!"content", c!"a.txt"] [9] := by
  refine ⟨fun r b => C91 demoLibraries demoEnv_cwd demo_recipe mirror_recipe
    (.cons (.create (sameTree_of (by decide +kernel) (by decide +kernel))) (.cons (.update (sameTree_of (by decide +kernel) (by decide +kernel))) .nil))
    demo_noCollision (by decide) r b, by decide, by decide +kernel⟩

end Ocfl
