import Verif.Model.Together
import Mathlib.Logic.Function.Basic

/-!
# Any number of programs at the same time

Not in `/repo`: how the operating system runs processes. In each step one of the programs looks at the file
system or performs one operation, or a file that is being written holds a first part of its new content, or
other processes change something.
Simplification: reading one file is one step, as in `Model/Together.lean`.
-/

namespace Ocfl
namespace Concurrent

/-- `Many R P s P' s'`: the programs `P`, started on `s`, may have come to `P'`, with the file system `s'`, while
other processes did what `R` allows. -/
inductive Many {ι : Type} [DecidableEq ι] {α : ι → Type} (R : FS → FS → Prop) (P : ∀ i, Prog (α i)) (s : FS) : (∀ i, Prog (α i)) → FS → Prop
  | here : Many R P s P s
  | step {P1 : ∀ i, Prog (α i)} {s1 s2 : FS} (i : ι) {p : Prog (α i)} :
      Many R P s P1 s1 → Step (P1 i) s1 p s2 → Many R P s (Function.update P1 i p) s2
  | other {P1 : ∀ i, Prog (α i)} {s1 s2 : FS} : Many R P s P1 s1 → R s1 s2 → Many R P s P1 s2

end Concurrent
end Ocfl
