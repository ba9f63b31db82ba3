import Verif.Proofs.StartVersion

/-!
# Plain calls queue files only in the directory of the new version
-/

namespace Ocfl

open Spec FS Prog Ocfl.Inv

namespace NV

/-- What plain calls keep. -/
structure Confined (nv0 : NV) (head : Str) (nv : NV) : Prop where
  head_eq : nv.inv.head = some head
  contentDirectory : nv.inv.contentDirectory = nv0.inv.contentDirectory
  algorithm : nv.inv.digestAlgorithm = nv0.inv.digestAlgorithm
  old : nv.oldDigestAlgorithm = nv0.oldDigestAlgorithm
  queue : QueueInside head nv.filesToCopy

theorem Confined.step {EN : NVEnv} (hx : HexNames EN.md5hex) {nv0 nv : NV} {head : Str} (hh : SafeName head)
    (hcd : ContentDirName nv0.inv.contentDirectoryToUse) (h : Confined nv0 head nv) {op : NV.Op} (hop : PlainCall op) :
    Confined nv0 head (NV.step EN op nv).1 := by
  rcases step_cases EN op nv with ⟨_, he⟩ | ⟨_, head', hhd, heff⟩
  · rw [he]; exact h
  · have hcd' : nv.inv.contentDirectoryToUse = nv0.inv.contentDirectoryToUse := by
      unfold contentDirectoryToUse; rw [h.contentDirectory]
    have hhe : head' = head := by rw [h.head_eq] at hhd; exact (Option.some.inj hhd).symm
    subst hhe
    refine ⟨by rw [heff.head]; exact h.head_eq, by rw [heff.contentDirectory]; exact h.contentDirectory,
      by rw [heff.digestAlgorithm]; exact h.algorithm, by rw [heff.settings.2.2.2]; exact h.old, ?_⟩
    revert heff hop
    generalize (NV.step EN op nv).1 = nv'
    intro hop heff
    cases heff with
    | delete _ _ => exact h.queue
    | rename _ _ _ => exact h.queue
    | @add src l c cp d b hc _ _ _ =>
      have hcp : ∃ ws, ws ≠ [] ∧ (∀ w ∈ ws, SafeName w) ∧ cp = pathOf (head' :: ws) := by
        cases c with
        | none =>
          obtain ⟨r, hne, hs, hr⟩ := hop
          obtain ⟨v, k, hv, _, hcp, _⟩ := mapFilepath_cand (show nv.mapFilepath EN head' src = .ok cp from hc)
          rw [hr, ← joinWith_eq_pathOf] at hv
          rw [vpath_segs hh (by rw [hcd']; exact hcd) hx hne hs hv] at hcp
          obtain ⟨n1, n2⟩ := nameSegs_safe (norm := nv.norm) hx hne hs
          have := cand_path (xs := head' :: cdSegs nv.inv.contentDirectoryToUse) n1 k
          rw [List.cons_append, List.cons_append] at this
          rw [this] at hcp
          obtain ⟨c1, c2⟩ := candSegs_safe n1 n2 k
          refine ⟨_, ?_, ?_, by rw [hcp, joinWith_eq_pathOf]⟩
          · simp [c1]
          · intro w hw
            rcases List.mem_append.mp hw with hw | hw
            · exact cdSegs_safe (by rw [hcd']; exact hcd) w hw
            · exact c2 w hw
        | some c =>
          obtain ⟨ws, hne, hs, hws⟩ := hop
          unfold chooseContentPath at hc
          dsimp only at hc
          split at hc
          · cases hc
          · rename_i hst
            split at hc
            · cases hc
            · cases hc
              have hst : startsWith cp (head' ++ c!"/" ++ nv.inv.contentDirectoryToUse ++ c!"/") = true := by simpa using hst
              rw [startsWith_iff] at hst
              obtain ⟨t, ht⟩ := hst
              have e1 : splitOn '/' cp = ws := by
                rw [hws, ← joinWith_eq_pathOf, splitOn_joinWith hne (fun w hw => (hs w hw).2.2.2)]
              have e2 : splitOn '/' cp = head' :: splitOn '/' (nv.inv.contentDirectoryToUse ++ c!"/" ++ t) := by
                rw [ht]
                have : head' ++ c!"/" ++ nv.inv.contentDirectoryToUse ++ c!"/" ++ t =
                    head' ++ '/' :: (nv.inv.contentDirectoryToUse ++ c!"/" ++ t) := by simp
                rw [this, splitOn_append_sep hh.2.2.2]
              rw [e1] at e2
              refine ⟨splitOn '/' (nv.inv.contentDirectoryToUse ++ c!"/" ++ t), splitOn_ne_nil _ _, ?_, by rw [← e2]; exact hws⟩
              intro w hw
              refine hs w ?_
              rw [e2]
              exact List.mem_cons_of_mem _ hw
      unfold afterAdd
      simp only
      split
      · intro e he
        rcases Dict.mem_set_imp he with he | he
        · exact h.queue e he
        · subst he; exact hcp
      · exact h.queue

theorem Confined.run {EN : NVEnv} (hx : HexNames EN.md5hex) {nv0 : NV} {head : Str} (hh : SafeName head)
    (hcd : ContentDirName nv0.inv.contentDirectoryToUse) : ∀ {ops : List NV.Op} {nv : NV}, (∀ op ∈ ops, PlainCall op) →
    Confined nv0 head nv → Confined nv0 head (NV.run EN ops nv)
  | [], nv, _, h => h
  | c :: ops, nv, hop, h =>
    Confined.run (nv := (NV.step EN c nv).1) hx hh hcd (fun c' ho => hop c' (by simp [ho])) (h.step hx hh hcd (hop c (by simp)))

theorem Confined.addAll {EN : NVEnv} (hx : HexNames EN.md5hex) {nv0 : NV} {head : Str} (hh : SafeName head)
    (hcd : ContentDirName nv0.inv.contentDirectoryToUse) : ∀ {ps : List Str} {nv : NV}, (∀ p ∈ ps, PlainPath p) →
    Confined nv0 head nv → Confined nv0 head (nv.addAll EN ps).1
  | [], nv, _, h => h
  | p :: ps, nv, hp, h => by
    have h1 := h.step hx hh hcd (op := .add p p none) (hp p (by simp))
    unfold NV.addAll
    have h1 : Confined nv0 head (nv.add EN p p none).1 := h1
    split
    · rename_i nv1 e he
      rw [he] at h1; exact h1
    · rename_i nv1 he
      rw [he] at h1
      exact Confined.addAll hx hh hcd (fun q hq => hp q (by simp [hq])) h1

end NV

/-- A new version just started queues nothing; its name is that of the next version. -/
theorem Started.confined {E : Env} {o : Obj} {objdir srcdir : Str} {newAlg : Option Str} {fixity : Option (List Str)}
    {metadata : Option VBlock} {carry : Bool} {s : FS} {base src : Path} {nv : NV} {inv0 : Inv} {alg : Str} {m : DigestMap}
    {vs : Dict Str VBlock} {style : Option Nat} {n : Nat} {inv1 : Inv}
    (h : Started E o objdir srcdir newAlg fixity metadata carry s base src nv inv0 alg m vs style n inv1) :
    NV.Confined nv (styleName style (n + 1)) nv ∧ ContentDirName nv.inv.contentDirectoryToUse ∧
      nv.oldDigestAlgorithm = some alg ∧ '/' ∉ alg ∧ nv.inv.digestAlgorithm = some (newAlg.getD alg) := by
  obtain ⟨_, type, _, hnv⟩ := nextVersion_ok h.numbered h.next
  obtain ⟨he, _⟩ := changeDigest_ok h.change
  rw [changeFixity_eq] at he
  have hcd : nv.inv.contentDirectory = inv0.contentDirectory := by
    rw [hnv]; simp only [withVersion]; rw [he]
  have halg : nv.inv.digestAlgorithm = some (newAlg.getD alg) := by
    rw [hnv]; simp only [withVersion]; rw [he]
  refine ⟨⟨by rw [hnv]; rfl, rfl, rfl, rfl, by rw [hnv]; intro e he; cases he⟩, ?_, by rw [hnv], ?_, halg⟩
  · unfold contentDirectoryToUse ContentDirName
    rw [hcd]
    cases hc : inv0.contentDirectory with
    | none => decide
    | some cd => exact h.parsed.good.contentDirectory cd hc
  · rcases h.parsed.good.algName with h | h <;> (rw [h]; decide)

end Ocfl
