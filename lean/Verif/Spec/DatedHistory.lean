import Verif.Spec.History

/-!
# Specification: what was said about each version
-/

namespace Ocfl.Spec

open Ocfl FS

/-- As `History`: the object directory at `base` of an object with the identifier `id`, with the tree and the metadata that
each version was made from. -/
inductive DatedHistory (E : Env) : Path → Str → List (Tree × VBlock) → FS → Prop where
  | create {base : Path} {id : Str} {o : Obj} {srcdir objdir : Str} {block : VBlock} {s s' : FS} {inv : Inv} (wf : s.WF) (settings : GoodSettings o)
      (block_ok : GoodMeta (some block)) (id_eq : o.id = some id) (base_eq : absComps E.cwd objdir = base) (vacant : Vacant s base)
      (nonempty : ∃ r b, FileBelow s (absComps E.cwd srcdir) r b) (names : NamesAllowed o (FileBelow s (absComps E.cwd srcdir)))
      (done : Prog.run (Ocfl.create E o srcdir (some block) (some objdir)) s = (s', .ok inv)) :
      DatedHistory E base id [(FileBelow s (absComps E.cwd srcdir), block)] s'
  | build {base : Path} {id : Str} {o : Obj} {srcdir objdir : Str} {metadata : Nat → VBlock} {s s' : FS} {inv : Option Inv} {n : Nat} (wf : s.WF)
      (settings : GoodSettings o) (sources : VersionSources s (absComps E.cwd srcdir) n)
      (blocks : ∀ k < n, GoodMeta (some (metadata (k + 1)))) (id_eq : o.id = some id) (base_eq : absComps E.cwd objdir = base)
      (vacant : Vacant s base) (apart : ¬ absComps E.cwd srcdir <+: base)
      (nonempty : ∃ r b, FileBelow s (absComps E.cwd srcdir ++ [c!"v1"]) r b)
      (names : ∀ t ∈ versionTrees s (absComps E.cwd srcdir) n, NamesAllowed o t)
      (done : Prog.run (Ocfl.build E o srcdir metadata (some objdir)) s = (s', .ok inv)) :
      DatedHistory E base id ((versionTrees s (absComps E.cwd srcdir) n).zip ((List.range n).map (fun k => metadata (k + 1)))) s'
  | elsewhere {base : Path} {id : Str} {versions : List (Tree × VBlock)} {s s' : FS} (before : DatedHistory E base id versions s) (wf : s'.WF)
      (same : ∀ q, base <+: q → look s' q = look s q) : DatedHistory E base id versions s'
  | copied {src base : Path} {id : Str} {versions : List (Tree × VBlock)} {s s' : FS} (before : DatedHistory E src id versions s)
      (wf : s'.WF) (same : SameFiles s src s' base) : DatedHistory E base id versions s'
  | update {base : Path} {id : Str} {versions : List (Tree × VBlock)} {o : Obj} {srcdir objdir : Str} {block : VBlock} {abort : Bool} {s s' : FS} {inv : Inv}
      (before : DatedHistory E base id versions s) (algorithm : o.digestAlgorithm = c!"sha512" ∨ o.digestAlgorithm = c!"sha256")
      (block_ok : GoodMeta (some block)) (base_eq : absComps E.cwd objdir = base)
      (names : NamesAllowed o (FileBelow s (absComps E.cwd srcdir)))
      (done : Prog.run (addVersionWithContent E o objdir (some srcdir) (some block) abort) s = (s', .ok (some inv))) :
      DatedHistory E base id (versions ++ [(FileBelow s (absComps E.cwd srcdir), block)]) s'

theorem DatedHistory.history {E : Env} {base : Path} {id : Str} {versions : List (Tree × VBlock)} {s : FS}
    (h : DatedHistory E base id versions s) : History E base (versions.map Prod.fst) s := by
  induction h with
  | create wf settings block_ok _ base_eq vacant nonempty names done => exact .create wf settings block_ok base_eq vacant nonempty names done
  | build wf settings sources blocks _ base_eq vacant apart nonempty names done =>
    rw [List.map_fst_zip (by simp [versionTrees])]
    exact .build wf settings sources blocks base_eq vacant apart nonempty names done
  | elsewhere _ wf same ih => exact .elsewhere ih wf same
  | copied _ wf same ih => exact .copied ih wf same
  | update _ algorithm block_ok base_eq names done ih =>
    rw [List.map_append]
    exact .update ih algorithm block_ok base_eq names done

end Ocfl.Spec
