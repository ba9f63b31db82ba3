import Verif.Spec.History
import Verif.Spec.Together
import Verif.Model.Validator

/-!
# Specification: work on different objects

Calls of the library that work on directories of their own, with what each of them asks for when it begins.
-/

namespace Ocfl.Spec

open Ocfl FS

/-- A call of the library. -/
inductive Job where
  /-- An object is created from a source directory. -/
  | create (o : Obj) (srcdir : Str) (metadata : Option VBlock) (objdir : Str)
  /-- A version is added to an object from a source directory. -/
  | update (o : Obj) (objdir srcdir : Str) (metadata : Option VBlock) (abort : Bool)
  /-- A version of an object is extracted. -/
  | extract (objdir version dstdir : Str)

/-- What a call gives back. -/
def Job.Result : Job → Type
  | .create .. => Inv
  | .update .. => Option Inv
  | .extract .. => VMeta

/-- What a call does. -/
def Job.prog (E : Env) : (j : Job) → Prog j.Result
  | .create o srcdir metadata objdir => Ocfl.create E o srcdir metadata (some objdir)
  | .update o objdir srcdir metadata abort => Ocfl.addVersionWithContent E o objdir (some srcdir) metadata abort
  | .extract objdir version dstdir => Ocfl.extract E objdir version dstdir

/-- The directory that is written to. -/
def Job.home (E : Env) : Job → Path
  | .create _ _ _ objdir => absComps E.cwd objdir
  | .update _ objdir _ _ _ => absComps E.cwd objdir
  | .extract _ _ dstdir => absComps E.cwd dstdir

/-- The directory that is read besides. -/
def Job.source (E : Env) : Job → Path
  | .create _ srcdir _ _ => absComps E.cwd srcdir
  | .update _ _ srcdir _ _ => absComps E.cwd srcdir
  | .extract objdir _ _ => absComps E.cwd objdir

/-- What a call needs when it begins. A new object needs a vacant place in a directory; an object that gets a version or is
read must have been made by the library, and if digest algorithms that are not part of OCFL are allowed then it must be valid
without them too. -/
inductive Job.Ready (E : Env) (s : FS) : Job → Prop
  | create {o : Obj} {srcdir : Str} {metadata : Option VBlock} {objdir : Str} (settings : GoodSettings o) (block : GoodMeta metadata)
      (parent : look s (absComps E.cwd (osPathSplit objdir).1) = some .dir) (vacant : Vacant s (absComps E.cwd objdir)) :
      Ready E s (.create o srcdir metadata objdir)
  | update {o : Obj} {objdir srcdir : Str} {metadata : Option VBlock} {abort : Bool} {trees : List Tree}
      (history : History E (absComps E.cwd objdir) trees s) (algorithm : o.digestAlgorithm = c!"sha512" ∨ o.digestAlgorithm = c!"sha256")
      (block : GoodMeta metadata) (names : NamesAllowed o (FileBelow s (absComps E.cwd srcdir)))
      (apart : NoCollision E.raw (InTrees (trees ++ [FileBelow s (absComps E.cwd srcdir)]))) (few : trees.length + 1 ≤ 99999)
      (lax : o.lax = true → ∃ es, Validator.validateObject E { checkDigests := false } 0 s objdir = .ok (true, es)) :
      Ready E s (.update o objdir srcdir metadata abort)
  | extract {objdir version dstdir : Str} {trees : List Tree} (history : History E (absComps E.cwd objdir) trees s)
      (apart : NoCollision E.raw (InTrees trees)) (few : trees.length ≤ 99999)
      (parent : look s (absComps E.cwd (osPathSplit (osNormpath dstdir)).1) = some .dir) (vacant : Vacant s (absComps E.cwd dstdir))
      (out : ¬ absComps E.cwd objdir <+: absComps E.cwd dstdir) :
      Ready E s (.extract objdir version dstdir)

/-- Neither directory is in the other one. -/
def NotNested (p q : Path) : Prop := ¬ p <+: q ∧ ¬ q <+: p

/-- No call writes where another one reads or writes. -/
def Separate {ι : Type} (E : Env) (jobs : ι → Job) : Prop :=
  ∀ i j, i ≠ j → NotNested ((jobs i).home E) ((jobs j).home E) ∧ NotNested ((jobs i).home E) ((jobs j).source E)

end Ocfl.Spec
