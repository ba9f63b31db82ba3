import Verif.Model.StorageRoot
import Verif.Spec.FS

/-!
# Specification: a storage root and the directories that were added to it
-/

namespace Ocfl.Spec

open Ocfl FS

/-- Two directories, each as it was at some time, have the same files in them. -/
def SameFilesIn (d d' : FS × Path) : Prop :=
  ∀ q b, look d.1 (d.2 ++ q) = some (.file b) ↔ look d'.1 (d'.2 ++ q) = some (.file b)

/-- The storage root at `root`, made by `initialize` with the layout `l`, and the directories that were added to it, in
order, each with the tree of files at that time. Each time a new `StorageRoot` may be used, with any settings but
those of the layout. In between, anything may have happened outside of the storage root. -/
inductive Deposits (E : Env) (reg : Dict Str LayoutObj) (enc : Str → Str) (root : Str) (spec : Str) (l : LayoutObj) :
    List (FS × Path) → FS → Prop where
  | made {s s' : FS} {r r' : StorageRoot} {sv params : Option Str} (wf : s.WF) (own : r.layout = none) (root_eq : r.root = root)
      (done : Prog.run (Store.initializeRoot E reg r sv params) s = (s', .ok r'))
      (layout : r'.layout = some l) (spec_eq : r'.specVersion = some spec) : Deposits E reg enc root spec l [] s'
  | elsewhere {ds : List (FS × Path)} {s s' : FS} (before : Deposits E reg enc root spec l ds s) (wf : s'.WF)
      (same : ∀ q, absComps E.cwd root <+: q → look s' q = look s q) : Deposits E reg enc root spec l ds s'
  | add {ds : List (FS × Path)} {s s' : FS} {r : StorageRoot} {objdir i path : Str}
      (before : Deposits E reg enc root spec l ds s) (own : r.layout = none) (root_eq : r.root = root)
      (done : Prog.run (Store.add E reg enc r objdir) s = (s', .ok (i, path))) :
      Deposits E reg enc root spec l (ds ++ [(s, absComps E.cwd objdir)]) s'

/-- Directories are added one after the other to a storage root: each with the identifier and the path that are returned. -/
inductive Adds (E : Env) (reg : Dict Str LayoutObj) (enc : Str → Str) (r : StorageRoot) : List (Str × Str × Str) → FS → FS → Prop where
  | nil {s : FS} : Adds E reg enc r [] s s
  | cons {s s1 s' : FS} {objdir i path : Str} {xs : List (Str × Str × Str)}
      (done : Prog.run (Store.add E reg enc r objdir) s = (s1, .ok (i, path))) (rest : Adds E reg enc r xs s1 s') :
      Adds E reg enc r ((objdir, i, path) :: xs) s s'

end Ocfl.Spec
