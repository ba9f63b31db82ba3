import Verif.Spec.History

/-!
# Specification: objects that keep each content once
-/

namespace Ocfl.Spec

open FS

/-- A file with these bytes deeper in the object than the version directories: a content file. The inventories, the
sidecars and the declaration are not so deep. -/
def ContentFile (s : FS) (base : Path) (p : Path) (b : Bytes) : Prop := 3 ≤ p.length ∧ look s (base ++ p) = some (.file b)

/-- The same as `History`, where the settings `dedupe` and `forward_delta` were left on. -/
inductive ThriftyHistory (E : Env) : Path → List Tree → FS → Prop where
  | create {base : Path} {o : Obj} {srcdir objdir : Str} {metadata : Option VBlock} {s s' : FS} {inv : Inv} (wf : s.WF) (settings : GoodSettings o)
      (dedupe : o.dedupe = true)
      (block : GoodMeta metadata) (base_eq : absComps E.cwd objdir = base) (vacant : Vacant s base)
      (nonempty : ∃ r b, FileBelow s (absComps E.cwd srcdir) r b) (names : NamesAllowed o (FileBelow s (absComps E.cwd srcdir)))
      (done : Prog.run (Ocfl.create E o srcdir metadata (some objdir)) s = (s', .ok inv)) :
      ThriftyHistory E base [FileBelow s (absComps E.cwd srcdir)] s'
  | build {base : Path} {o : Obj} {srcdir objdir : Str} {metadata : Nat → VBlock} {s s' : FS} {inv : Option Inv} {n : Nat} (wf : s.WF)
      (settings : GoodSettings o) (dedupe : o.dedupe = true) (forwardDelta : o.forwardDelta = true)
      (sources : VersionSources s (absComps E.cwd srcdir) n)
      (blocks : ∀ k < n, GoodMeta (some (metadata (k + 1)))) (base_eq : absComps E.cwd objdir = base) (vacant : Vacant s base)
      (apart : ¬ absComps E.cwd srcdir <+: base)
      (nonempty : ∃ r b, FileBelow s (absComps E.cwd srcdir ++ [c!"v1"]) r b)
      (names : ∀ t ∈ versionTrees s (absComps E.cwd srcdir) n, NamesAllowed o t)
      (done : Prog.run (Ocfl.build E o srcdir metadata (some objdir)) s = (s', .ok inv)) :
      ThriftyHistory E base (versionTrees s (absComps E.cwd srcdir) n) s'
  | elsewhere {base : Path} {trees : List Tree} {s s' : FS} (before : ThriftyHistory E base trees s) (wf : s'.WF)
      (same : ∀ q, base <+: q → look s' q = look s q) : ThriftyHistory E base trees s'
  | copied {src base : Path} {trees : List Tree} {s s' : FS} (before : ThriftyHistory E src trees s) (wf : s'.WF)
      (same : SameFiles s src s' base) : ThriftyHistory E base trees s'
  | update {base : Path} {trees : List Tree} {o : Obj} {srcdir objdir : Str} {metadata : Option VBlock} {abort : Bool} {s s' : FS} {inv : Inv}
      (before : ThriftyHistory E base trees s) (algorithm : o.digestAlgorithm = c!"sha512" ∨ o.digestAlgorithm = c!"sha256")
      (dedupe : o.dedupe = true) (forwardDelta : o.forwardDelta = true)
      (block : GoodMeta metadata) (base_eq : absComps E.cwd objdir = base)
      (names : NamesAllowed o (FileBelow s (absComps E.cwd srcdir)))
      (done : Prog.run (addVersionWithContent E o objdir (some srcdir) metadata abort) s = (s', .ok (some inv))) :
      ThriftyHistory E base (trees ++ [FileBelow s (absComps E.cwd srcdir)]) s'

end Ocfl.Spec
