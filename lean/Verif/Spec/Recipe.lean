import Verif.Spec.History
import Mathlib.Data.List.Forall2

/-!
# Specification: the steps an object was made by

What was asked for at each step, without the places: where the object is, where the files came from, and
what else was in the file system.
-/

namespace Ocfl.Spec

open Ocfl FS

/-- A step in the making of an object. -/
inductive Step where
  /-- The object is created from a tree. -/
  | create (o : Obj) (metadata : Option VBlock) (t : Tree)
  /-- The object is built from trees, one for each version. -/
  | build (o : Obj) (metadata : Nat → VBlock) (ts : List Tree)
  /-- A version is added from a tree. -/
  | update (o : Obj) (metadata : Option VBlock) (t : Tree)

/-- The trees that a step adds. -/
def Step.trees : Step → List Tree
  | .create _ _ t => [t]
  | .build _ _ ts => ts
  | .update _ _ t => [t]

/-- All the trees, one for each version. -/
def treesOf (steps : List Step) : List Tree := (steps.map Step.trees).flatten

/-- The same files. -/
def SameTree (t t' : Tree) : Prop := ∀ r b, t r b ↔ t' r b

/-- Two steps ask for the same: they are of the same kind, with the same settings, metadata and files. -/
inductive Step.Same : Step → Step → Prop where
  | create {o : Obj} {metadata : Option VBlock} {t t' : Tree} (files : SameTree t t') : Same (.create o metadata t) (.create o metadata t')
  | build {o : Obj} {metadata metadata' : Nat → VBlock} {ts ts' : List Tree} (blocks : ∀ k < ts.length, metadata (k + 1) = metadata' (k + 1))
      (files : List.Forall₂ SameTree ts ts') : Same (.build o metadata ts) (.build o metadata' ts')
  | update {o : Obj} {metadata : Option VBlock} {t t' : Tree} (files : SameTree t t') : Same (.update o metadata t) (.update o metadata t')

/-- The object directory at `base` after the steps. In between, anything may have happened elsewhere, and the
object may have been copied to another directory, where it goes on. -/
inductive Recipe (E : Env) : Path → List Step → FS → Prop where
  | create {base : Path} {o : Obj} {srcdir objdir : Str} {metadata : Option VBlock} {s s' : FS} {inv : Inv} (wf : s.WF) (settings : GoodSettings o)
      (block : GoodMeta metadata) (base_eq : absComps E.cwd objdir = base) (vacant : Vacant s base)
      (nonempty : ∃ r b, FileBelow s (absComps E.cwd srcdir) r b) (names : NamesAllowed o (FileBelow s (absComps E.cwd srcdir)))
      (done : Prog.run (Ocfl.create E o srcdir metadata (some objdir)) s = (s', .ok inv)) :
      Recipe E base [.create o metadata (FileBelow s (absComps E.cwd srcdir))] s'
  | build {base : Path} {o : Obj} {srcdir objdir : Str} {metadata : Nat → VBlock} {s s' : FS} {inv : Option Inv} {n : Nat} (wf : s.WF)
      (settings : GoodSettings o) (sources : VersionSources s (absComps E.cwd srcdir) n)
      (blocks : ∀ k < n, GoodMeta (some (metadata (k + 1)))) (base_eq : absComps E.cwd objdir = base) (vacant : Vacant s base)
      (apart : ¬ absComps E.cwd srcdir <+: base)
      (nonempty : ∃ r b, FileBelow s (absComps E.cwd srcdir ++ [c!"v1"]) r b)
      (names : ∀ t ∈ versionTrees s (absComps E.cwd srcdir) n, NamesAllowed o t)
      (done : Prog.run (Ocfl.build E o srcdir metadata (some objdir)) s = (s', .ok inv)) :
      Recipe E base [.build o metadata (versionTrees s (absComps E.cwd srcdir) n)] s'
  | elsewhere {base : Path} {steps : List Step} {s s' : FS} (before : Recipe E base steps s) (wf : s'.WF)
      (same : ∀ q, base <+: q → look s' q = look s q) : Recipe E base steps s'
  | copied {src base : Path} {steps : List Step} {s s' : FS} (before : Recipe E src steps s) (wf : s'.WF)
      (same : SameFiles s src s' base) : Recipe E base steps s'
  | update {base : Path} {steps : List Step} {o : Obj} {srcdir objdir : Str} {metadata : Option VBlock} {abort : Bool} {s s' : FS} {inv : Inv}
      (before : Recipe E base steps s) (algorithm : o.digestAlgorithm = c!"sha512" ∨ o.digestAlgorithm = c!"sha256")
      (block : GoodMeta metadata) (base_eq : absComps E.cwd objdir = base)
      (names : NamesAllowed o (FileBelow s (absComps E.cwd srcdir)))
      (done : Prog.run (addVersionWithContent E o objdir (some srcdir) metadata abort) s = (s', .ok (some inv))) :
      Recipe E base (steps ++ [.update o metadata (FileBelow s (absComps E.cwd srcdir))]) s'

end Ocfl.Spec
