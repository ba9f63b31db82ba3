import Verif.Spec.State
import Verif.Model.NewVersion

/-!
# Specification: a new version as a finite map from logical paths to digests

The model is used here only for the type of calls (`NV.Op`) and for the inputs of a call.
-/

namespace Ocfl.Spec

open Ocfl

/-- The effect of a call on the finite map from logical paths to digests, given the digests of
the source files; `none` when it is undefined. -/
def absStep (dig : Str → Option Str) : NV.Op → (Str → Option Str) → Option (Str → Option Str)
  | .add s l _, f => (dig s).bind (mapInsert f l)
  | .delete l, f => mapDelete f l
  | .rename o n, f => mapRename f o n

/-- The effect of a sequence of calls, each marked as accepted or refused. -/
def absRun (dig : Str → Option Str) : List (NV.Op × Bool) → (Str → Option Str) → Option (Str → Option Str)
  | [], f => some f
  | (op, true) :: rest, f => (absStep dig op f).bind (absRun dig rest)
  | (_, false) :: rest, f => absRun dig rest f

/-- The argument checks of `add`: an explicit content path must lie in the content directory of
the new version and must be unused; without one the normalisation must be known (and 'uri'
cannot be applied to the empty path). -/
def AddArgsOK (norm : Option Str) (head contentDir : Str) (used : List Str) (src : Str) : Option Str → Prop
  | some cp => (∃ rest, cp = head ++ c!"/" ++ contentDir ++ c!"/" ++ rest) ∧ cp ∉ used
  | none => norm = none ∨ norm = some c!"md5" ∨ (norm = some c!"uri" ∧ src ≠ [])

/-- The check of the arguments of a call that is not about the map. -/
def ArgsOK (norm : Option Str) (head contentDir : Str) (used : List Str) : NV.Op → Prop
  | .add s _ c => AddArgsOK norm head contentDir used s c
  | .delete _ => True
  | .rename _ _ => True

/-- `p` lies in the directory `dir`. -/
def InDir (dir p : Str) : Prop := ∃ rest, p = dir ++ c!"/" ++ rest

instance (dir p : Str) : Decidable (InDir dir p) :=
  decidable_of_iff (startsWith p (dir ++ c!"/") = true)
    (by
      unfold startsWith InDir
      rw [List.isPrefixOf_iff_prefix]
      constructor
      · rintro ⟨t, rfl⟩; exact ⟨t, rfl⟩
      · rintro ⟨t, rfl⟩; exact ⟨t, rfl⟩)

/-- `p` is an absolute path. -/
def IsAbs (p : Str) : Prop := ∃ rest, p = '/' :: rest

/-- A plain directory name: not empty and without separator. -/
def PlainName (s : Str) : Prop := s ≠ [] ∧ '/' ∉ s

end Ocfl.Spec

namespace Ocfl.Spec

/-- A new version under construction: `head` names it, its block exists, the digests of its
state and of the manifest are the (distinct) keys of a dictionary, and each logical path of the
state occurs once. Every `NewVersion` made by the library from an inventory satisfies this, see
`firstVersion_building` and `nextVersion_building`. -/
structure Building (nv : NV) (head : Str) : Prop where
  head_eq : nv.inv.head = some head
  block : (nv.inv.versionData head).isSome = true
  stateKeys : Dict.NK (nv.inv.stateOf head)
  statePaths : PathsUnique (nv.inv.stateOf head)
  manifestKeys : Dict.NK nv.inv.manifestD

/-- The outcomes of a sequence of calls, each together with its call: accepted or refused. -/
def outcomes (E : NVEnv) : List NV.Op → NV → List (NV.Op × Bool)
  | [], _ => []
  | op :: ops, nv => (op, (NV.step E op nv).2.isOk) :: outcomes E ops (NV.step E op nv).1

/-- `P` holds before every call of a sequence. -/
def Always (E : NVEnv) (P : NV → NV.Op → Prop) : List NV.Op → NV → Prop
  | [], _ => True
  | op :: ops, nv => P nv op ∧ Always E P ops (NV.step E op nv).1

end Ocfl.Spec
