import Verif.Model.StorageRoot
import Verif.Spec.ValidObject
import Verif.Spec.FS
import Verif.Spec.Layout

/-!
# Specification: a storage root and the objects that were added to it
-/

namespace Ocfl.Spec

open Ocfl FS

/-- The directory of each version that the inventory of the object in `base` names has a file somewhere in it. -/
def VersionsFull (E : Env) (s : FS) (base : Path) : Prop :=
  ∀ j vs, StoredJson E.lib s (base ++ [c!"inventory.json"]) j → Member j c!"versions" (.obj vs) →
    ∀ v ∈ vs.map Prod.fst, ∃ q b, look s (base ++ v :: q) = some (.file b)

/-- A place in a storage root where an object does not get in the way of the others: it is not in the extensions
directory, not named as a declaration, and not inside of an object. -/
structure FreePlace (objs : List (List Str × Str)) (ws : List Str) : Prop where
  notExtension : ws.head? ≠ some c!"extensions"
  notDeclaration : ∀ t, ws.head? ≠ some (c!"0=" ++ t)
  apart : ∀ o ∈ objs, ¬ o.1 <+: ws

/-- The storage root at `root`, made by `initialize` with the layout `l`, and the objects that were added to it: where
they are, and their identifiers. Each time a new `StorageRoot` may be used, with any settings but those of the layout. In
between, anything may have happened outside of the storage root, and objects in it may have been changed, if
they stay valid and keep their identifiers. -/
inductive StoreHistory (E : Env) (reg : Dict Str LayoutObj) (enc : Str → Str) (root : Str) (spec : Str) (l : LayoutObj) :
    List (List Str × Str) → FS → Prop where
  | made {s s' : FS} {r r' : StorageRoot} {sv params : Option Str} (wf : s.WF) (own : r.layout = none) (root_eq : r.root = root)
      (done : Prog.run (Store.initializeRoot E reg r sv params) s = (s', .ok r'))
      (layout : r'.layout = some l) (spec_eq : r'.specVersion = some spec) : StoreHistory E reg enc root spec l [] s'
  | elsewhere {objs : List (List Str × Str)} {s s' : FS} (before : StoreHistory E reg enc root spec l objs s) (wf : s'.WF)
      (same : ∀ q, absComps E.cwd root <+: q → look s' q = look s q) : StoreHistory E reg enc root spec l objs s'
  | add {objs : List (List Str × Str)} {s s' : FS} {r : StorageRoot} {objdir : Str} {ws : List Str} {i : Str}
      (before : StoreHistory E reg enc root spec l objs s) (own : r.layout = none) (root_eq : r.root = root)
      (valid : ValidObject E true s (absComps E.cwd objdir)) (full : VersionsFull E s (absComps E.cwd objdir))
      (done : Prog.run (Store.add E reg enc r objdir) s = (s', .ok (i, joinWith '/' ws)))
      (names : ∀ w ∈ ws, SafeName w) (place : FreePlace objs ws) : StoreHistory E reg enc root spec l (objs ++ [(ws, i)]) s'
  | update {objs : List (List Str × Str)} {s s' : FS} {o : List Str × Str}
      (before : StoreHistory E reg enc root spec l objs s) (mem : o ∈ objs) (wf : s'.WF)
      (same : ∀ q, absComps E.cwd root <+: q → ¬ absComps E.cwd root ++ o.1 <+: q → look s' q = look s q)
      (valid : ValidObject E true s' (absComps E.cwd root ++ o.1))
      (id : idFromInventory E (absComps E.cwd root ++ o.1) none s' = .ok (some o.2)) :
      StoreHistory E reg enc root spec l objs s'

end Ocfl.Spec
