import Verif.Spec.History

/-!
# Specification: a series of updates
-/

namespace Ocfl.Spec

open FS

/-- One update after the other, each with its own `Object`, source directory and metadata. The first exception ends the
series. This is a client of the library. -/
def updateAll (E : Env) (objdir : Str) : List (Obj × Str × Option VBlock) → Prog Unit
  | [] => .ret (.ok ())
  | (o, srcdir, metadata) :: rest =>
    Prog.bind (addVersionWithContent E o objdir (some srcdir) metadata false) (fun _ => updateAll E objdir rest)

/-- What is asked of one update: settings that the library supports, and a source directory that exists and is apart from
the object. -/
structure GoodUpdate (E : Env) (objdir : Str) (s : FS) (u : Obj × Str × Option VBlock) : Prop where
  algorithm : u.1.digestAlgorithm = c!"sha512" ∨ u.1.digestAlgorithm = c!"sha256"
  lax : u.1.lax = false
  norm : u.1.norm = none ∨ u.1.norm = some c!"md5" ∨ u.1.norm = some c!"uri"
  block : GoodMeta u.2.2
  isDir : look s (absComps E.cwd u.2.1) = some .dir
  names : NamesAllowed u.1 (FileBelow s (absComps E.cwd u.2.1))
  outside : ¬ absComps E.cwd objdir <+: absComps E.cwd u.2.1
  around : ¬ absComps E.cwd u.2.1 <+: absComps E.cwd objdir

/-- The trees of the sources. -/
def sourceTrees (E : Env) (s : FS) (us : List (Obj × Str × Option VBlock)) : List Tree := us.map (fun u => FileBelow s (absComps E.cwd u.2.1))

/-- An object is created and then updated any number of times. This is a client of the library. -/
def life (E : Env) (o : Obj) (srcdir objdir : Str) (metadata : Option VBlock) (us : List (Obj × Str × Option VBlock)) : Prog Unit :=
  Prog.bind (create E o srcdir metadata (some objdir)) (fun _ => updateAll E objdir us)

end Ocfl.Spec
