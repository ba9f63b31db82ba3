import Verif.Spec.Update
import Verif.Spec.Digest
import Verif.Spec.Object

/-!
# Specification: objects made and updated from file trees
-/

namespace Ocfl.Spec

open Ocfl FS

/-- The files of a tree, by relative path. -/
abbrev Tree := Path → Bytes → Prop

/-- The files below a directory, by relative path. -/
def FileBelow (s : FS) (dir : Path) (r : Path) (b : Bytes) : Prop :=
  r ≠ [] ∧ look s (dir ++ r) = some (.file b)

/-- The logical paths and digests of a source directory. -/
def SourceLists (E : Env) (s : FS) (src : Path) (alg d p : Str) : Prop :=
  ∃ r b, FileBelow s src r b ∧ p = pathOf r ∧ fileDigest E.raw alg b = some d

/-- A file is in one of the trees. -/
def InTrees (trees : List Tree) (b : Bytes) : Prop := ∃ t ∈ trees, ∃ r, t r b

/-- The digests of the files are different if the files are. -/
def NoCollision (raw : Str → Bytes → Str) (files : Bytes → Prop) : Prop :=
  ∀ alg, alg = c!"sha512" ∨ alg = c!"sha256" → ∀ b b', files b → files b' → raw alg b = raw alg b' → b = b'

/-- What is asked of metadata: a time stamp, and a name if a user is given. -/
structure GoodMeta (metadata : Option VBlock) : Prop where
  created : ∃ b, metadata = some b ∧ ∃ t, b.created = some t ∧ Timestamp t
  user : ∀ b u, metadata = some b → b.user = some u → ∃ n, u.name = some n
  noState : ∀ b, metadata = some b → b.state = none

/-- Settings of an `Object` that new objects can be made with. -/
structure GoodSettings (o : Obj) : Prop where
  id : o.id ≠ some []
  specVersion : o.specVersion ∈ supported
  algorithm : o.digestAlgorithm = c!"sha512" ∨ o.digestAlgorithm = c!"sha256"
  contentDirectory : SafeName o.contentDirectory
  fixity : ∀ l, o.fixity = some l → ∀ t ∈ l, KnownAlg t

/-- Without path normalisation, no file name may contain a newline. -/
def NamesAllowed (o : Obj) (t : Tree) : Prop := o.norm = none → ∀ r b, t r b → ∀ w ∈ r, '\n' ∉ w

/-- In `s'` the directory `p'` has the files that `p` has in `s`, and no directories that `p` does not have. -/
structure SameFiles (s : FS) (p : Path) (s' : FS) (p' : Path) : Prop where
  files : ∀ q b, look s' (p' ++ q) = some (.file b) ↔ look s (p ++ q) = some (.file b)
  dirs : ∀ q, look s' (p' ++ q) = some .dir → look s (p ++ q) = some .dir

/-- A directory in `src` is a source of version number `m`. -/
def VersionSource (s : FS) (src : Path) (w : Str) (m : Nat) : Prop := look s (src ++ [w]) = some .dir ∧ VersionNo w m

/-- The directories in `src` that have names of versions are `v1`, ..., `v<n>`. -/
def VersionSources (s : FS) (src : Path) (n : Nat) : Prop :=
  ∀ w, (∃ m, VersionSource s src w m) ↔ ∃ k < n, w = unpaddedName (k + 1)

/-- The trees in the directories `v1`, ..., `v<n>`. -/
def versionTrees (s : FS) (src : Path) (n : Nat) : List Tree :=
  (List.range n).map (fun k => FileBelow s (src ++ [unpaddedName (k + 1)]))

/-- The object directory at `base` after an object was created there from the first tree and a version
was added from each of the other trees, with any settings each time. Several versions may also have been
built at once to begin with. In between, anything may have happened elsewhere, and the object may have been
copied to another directory, where it goes on. -/
inductive History (E : Env) : Path → List Tree → FS → Prop where
  | create {base : Path} {o : Obj} {srcdir objdir : Str} {metadata : Option VBlock} {s s' : FS} {inv : Inv} (wf : s.WF) (settings : GoodSettings o)
      (block : GoodMeta metadata) (base_eq : absComps E.cwd objdir = base) (vacant : Vacant s base)
      (nonempty : ∃ r b, FileBelow s (absComps E.cwd srcdir) r b) (names : NamesAllowed o (FileBelow s (absComps E.cwd srcdir)))
      (done : Prog.run (Ocfl.create E o srcdir metadata (some objdir)) s = (s', .ok inv)) :
      History E base [FileBelow s (absComps E.cwd srcdir)] s'
  | build {base : Path} {o : Obj} {srcdir objdir : Str} {metadata : Nat → VBlock} {s s' : FS} {inv : Option Inv} {n : Nat} (wf : s.WF)
      (settings : GoodSettings o) (sources : VersionSources s (absComps E.cwd srcdir) n)
      (blocks : ∀ k < n, GoodMeta (some (metadata (k + 1)))) (base_eq : absComps E.cwd objdir = base) (vacant : Vacant s base)
      (apart : ¬ absComps E.cwd srcdir <+: base)
      (nonempty : ∃ r b, FileBelow s (absComps E.cwd srcdir ++ [c!"v1"]) r b)
      (names : ∀ t ∈ versionTrees s (absComps E.cwd srcdir) n, NamesAllowed o t)
      (done : Prog.run (Ocfl.build E o srcdir metadata (some objdir)) s = (s', .ok inv)) :
      History E base (versionTrees s (absComps E.cwd srcdir) n) s'
  | elsewhere {base : Path} {trees : List Tree} {s s' : FS} (before : History E base trees s) (wf : s'.WF)
      (same : ∀ q, base <+: q → look s' q = look s q) : History E base trees s'
  | copied {src base : Path} {trees : List Tree} {s s' : FS} (before : History E src trees s) (wf : s'.WF)
      (same : SameFiles s src s' base) : History E base trees s'
  | update {base : Path} {trees : List Tree} {o : Obj} {srcdir objdir : Str} {metadata : Option VBlock} {abort : Bool} {s s' : FS} {inv : Inv}
      (before : History E base trees s) (algorithm : o.digestAlgorithm = c!"sha512" ∨ o.digestAlgorithm = c!"sha256")
      (block : GoodMeta metadata) (base_eq : absComps E.cwd objdir = base)
      (names : NamesAllowed o (FileBelow s (absComps E.cwd srcdir)))
      (done : Prog.run (addVersionWithContent E o objdir (some srcdir) metadata abort) s = (s', .ok (some inv))) :
      History E base (trees ++ [FileBelow s (absComps E.cwd srcdir)]) s'

end Ocfl.Spec
