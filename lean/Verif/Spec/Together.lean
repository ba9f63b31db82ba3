import Verif.Spec.FS

/-!
# Work elsewhere

What other processes may do while an object is read and updated.
-/

namespace Ocfl.Spec

/-- Only things that are neither in nor above one of the directories are changed. -/
def Elsewhere (dirs : List Path) (s s' : FS) : Prop :=
  (s.WF → s'.WF) ∧ ∀ d ∈ dirs, ∀ x, x <+: d ∨ d <+: x → FS.look s' x = FS.look s x

end Ocfl.Spec
