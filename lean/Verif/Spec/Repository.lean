import Verif.Model.RootCli
import Verif.Spec.Session
import Verif.Spec.StoreHistory

/-!
# Specification: what was done with `ocfl-root.py` and `ocfl-object.py`
-/

namespace Ocfl.Spec

open Ocfl FS

/-- An object that was put into a storage root: where `ocfl-root.py add` says that it is, its identifier, the version of the specification
that it declares, and the trees of files of its versions. -/
structure Item where
  path : Str
  id : Str
  spec : Str
  trees : List Tree

/-- The directory of the object. -/
def Item.place (i : Item) : List Str := splitOn '/' i.path

/-- What `--root` and `$OCFL_ROOT` say. -/
def RootIs (a : RootCli.Common) (root : Str) : Prop := (a.root = some root ∧ root ≠ []) ∨ ((a.root = none ∨ a.root = some []) ∧ a.ocflRoot = some root)

/-- An identifier that no layout other than the tuple tree takes for something else. -/
def Unreserved (id : Str) : Prop := id ≠ c!"extensions" ∧ ∀ t, id ≠ c!"0=" ++ t

/-- A storage root was made at `root` with `ocfl-root.py create --layout name`. Objects were made elsewhere with `ocfl-object.py` and put into it
with `ocfl-root.py add`, and there they were updated with `ocfl-object.py update`. All these commands ended with exit status 0. In between
anything may have happened outside of the storage root. -/
inductive Repository (B : Bagit) (E : Env) (reg : Dict Str LayoutObj) (enc : Str → Str) (root name : Str) : List Item → FS → Prop where
  | create {s s' : FS} {a : RootCli.Common} {spec : Str} {params : Option Str} {out : RootCli.Output} (wf : s.WF) (root_eq : RootIs a root)
      (layout : a.layout = some name) (done : RootCli.doStoreOperation E reg enc a (.create spec params) s = (s', .ok out)) :
      Repository B E reg enc root name [] s'
  | elsewhere {items : List Item} {s s' : FS} (before : Repository B E reg enc root name items s) (wf : s'.WF)
      (same : ∀ q, absComps E.cwd root <+: q → look s' q = look s q) : Repository B E reg enc root name items s'
  | add {items : List Item} {s s' : FS} {a : RootCli.Common} {src path id i spec : Str} {trees : List Tree}
      (before : Repository B E reg enc root name items s) (root_eq : RootIs a root)
      (object : Session B E (absComps E.cwd src) id spec trees s) (later : spec = c!"1.1" ∨ trees.length ≤ 2) (free : Unreserved id)
      (done : RootCli.doStoreOperation E reg enc a (.add (some src)) s = (s', .ok (.added i path))) :
      Repository B E reg enc root name (items ++ [⟨path, id, spec, trees⟩]) s'
  | update {front back : List Item} {item : Item} {s s' : FS} {now : Str} {c : ObjectCli.Common} {objdir : Str} {a : ObjectCli.About}
      {srcdir srcbag : Option Str} {dir : Path} {bagId : Option Str} {out : ObjectCli.Output}
      (before : Repository B E reg enc root name (front ++ item :: back) s)
      (place : absComps E.cwd objdir = absComps E.cwd root ++ item.place) (later : item.spec = c!"1.1" ∨ item.trees.length ≤ 1)
      (digest : c.digest = c!"sha512" ∨ c.digest = c!"sha256") (clock : Timestamp now) (source : Source B E s a srcdir srcbag dir bagId)
      (names : NamesFor c (FileBelow s dir))
      (done : ObjectCli.doObjectOperation B E now c (.update objdir a srcdir srcbag) s = (s', .ok out)) :
      Repository B E reg enc root name (front ++ { item with trees := item.trees ++ [FileBelow s dir] } :: back) s'

end Ocfl.Spec
