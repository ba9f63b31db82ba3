import Verif.Py.Basic

/-!
# Specification: digest-to-paths maps as finite maps from paths to digests

A manifest or state block is a dictionary from digests to lists of paths. What a user sees is
the relation "path `p` has digest `d`".
-/

namespace Ocfl.Spec

open Ocfl

/-- Path `p` is listed for digest `d` in the block `m`. -/
def Lists (m : List (Str × List Str)) (d p : Str) : Prop := ∃ ps, (d, ps) ∈ m ∧ p ∈ ps

/-- All paths listed in the block `m`, with repetitions. -/
def listed (m : List (Str × List Str)) : List Str := (m.map Prod.snd).flatten

/-- Every path is listed once. -/
def PathsUnique (m : List (Str × List Str)) : Prop := (listed m).Nodup

/-- The block `m` describes the finite map `f` from paths to digests. -/
def Represents (m : List (Str × List Str)) (f : Str → Option Str) : Prop :=
  ∀ p d, Lists m d p ↔ f p = some d

/-- Abstract insertion, deletion and renaming on finite maps; `none` when not allowed. -/
def mapInsert (f : Str → Option Str) (p d : Str) : Option (Str → Option Str) :=
  if (f p).isSome then none else some (fun q => if q = p then some d else f q)

def mapDelete (f : Str → Option Str) (p : Str) : Option (Str → Option Str) :=
  if (f p).isSome then some (fun q => if q = p then none else f q) else none

def mapRename (f : Str → Option Str) (p p' : Str) : Option (Str → Option Str) :=
  if (f p).isSome ∧ (f p').isNone then
    some (fun q => if q = p' then f p else if q = p then none else f q)
  else none

end Ocfl.Spec
