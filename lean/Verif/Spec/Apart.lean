import Verif.Spec.History

/-!
# Taking an object apart
-/

namespace Ocfl.Spec

open Ocfl FS

/-- A client that extracts the versions `v1`, ..., `v<n>` of the object in `objdir` one after the other, each to
the directory of its name in `dstdir`: `extract(objdir, "v1", dstdir/v1)`, and so on (`ocfl/object.py` lines
703-745, which is also what `ocfl.py extract --objver` calls). -/
def takeApart (E : Env) (objdir dstdir : Str) : Nat → Prog Unit
  | 0 => Prog.ret (.ok ())
  | n + 1 => Prog.bind (takeApart E objdir dstdir n) (fun _ =>
      Prog.bind (extract E objdir (unpaddedName (n + 1)) (osPathJoin dstdir (unpaddedName (n + 1)))) (fun _ => Prog.ret (.ok ())))

end Ocfl.Spec
