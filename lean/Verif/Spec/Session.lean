import Verif.Model.ObjectCli
import Verif.Spec.Bag

/-!
# Specification: what was done with `ocfl-object.py`
-/

namespace Ocfl.Spec

open Ocfl FS ObjectCli

/-- Arguments that a valid object can be made with. -/
structure GoodArgs (c : Common) : Prop where
  specVersion : c.specVersion ∈ supported
  digest : c.digest = c!"sha512" ∨ c.digest = c!"sha256"
  fixity : ∀ l, c.fixity = some l → ∀ t ∈ l, KnownAlg t

/-- The arguments about a version: a time stamp if any time is given, and a name if an address is given. -/
structure GoodAbout (a : About) : Prop where
  created : ∀ t, a.created = some t → t ≠ [] → Timestamp t
  user : a.address ≠ none → a.name ≠ none

/-- The same if they are completed from the tags of a bag. -/
structure GoodTags (a : About) (info : Dict Str Str) : Prop where
  created : ∀ t, a.created = some t → t ≠ [] → Timestamp t
  date : (a.created = none ∨ a.created = some []) → ∀ d, Dict.get? info c!"Bagging-Date" = some d → Timestamp (d ++ c!"T00:00:00Z")
  user : (a.address ≠ none ∨ Dict.get? info c!"Contact-Email" ≠ none) → (a.name ≠ none ∨ Dict.get? info c!"Contact-Name" ≠ none)

/-- `--srcdir` and `--srcbag` give the directory `dir` to take files from, and perhaps an identifier. -/
inductive Source (B : Bagit) (E : Env) (s : FS) (a : About) : Option Str → Option Str → Path → Option Str → Prop where
  | dir {srcdir : Str} (about : GoodAbout a) : Source B E s a (some srcdir) none (absComps E.cwd srcdir) none
  | bag {srcdir : Option Str} {bag : Str} {info : Dict Str Str} (read : B.read s (absComps E.cwd bag) = .ok (true, info)) (tags : GoodTags a info) :
      Source B E s a srcdir (some bag) (absComps E.cwd bag ++ [c!"data"]) (Dict.get? info c!"External-Identifier")

/-- Without `--normalization`, no file name may contain a newline. -/
def NamesFor (c : Common) (t : Tree) : Prop := c.normalization = none → ∀ r b, t r b → ∀ w ∈ r, '\n' ∉ w

/-- An object was made at `base` with `ocfl-object.py create` or `build`, and updated with `ocfl-object.py update`, each time with whatever
arguments; all these commands ended with exit status 0. The index says the identifier and the version of the specification it was made
with, and the trees it was made from. In between anything may have happened elsewhere, and the object may have been copied to another directory,
where it goes on. -/
inductive Session (B : Bagit) (E : Env) : Path → Str → Str → List Tree → FS → Prop where
  | create {id : Str} {now : Str} {c : Common} {objdir : Str} {a : About} {srcdir srcbag : Option Str} {dir : Path} {bagId : Option Str} {s s' : FS}
      {out : Output} (wf : s.WF) (args : GoodArgs c) (clock : Timestamp now) (source : Source B E s a srcdir srcbag dir bagId)
      (id_eq : c.id = some id ∨ (c.id = none ∧ bagId = some id)) (id_ne : id ≠ [])
      (vacant : Vacant s (absComps E.cwd objdir)) (nonempty : ∃ r b, FileBelow s dir r b) (names : NamesFor c (FileBelow s dir))
      (done : doObjectOperation B E now c (.create (some objdir) a srcdir srcbag) s = (s', .ok out)) :
      Session B E (absComps E.cwd objdir) id c.specVersion [FileBelow s dir] s'
  | build {id : Str} {now : Str} {c : Common} {objdir srcdir : Str} {s s' : FS} {out : Output} {n : Nat} (wf : s.WF) (args : GoodArgs c)
      (clock : Timestamp now) (id_eq : c.id = some id) (id_ne : id ≠ []) (sources : VersionSources s (absComps E.cwd srcdir) n)
      (vacant : Vacant s (absComps E.cwd objdir)) (apart : ¬ absComps E.cwd srcdir <+: absComps E.cwd objdir)
      (nonempty : ∃ r b, FileBelow s (absComps E.cwd srcdir ++ [c!"v1"]) r b)
      (names : ∀ t ∈ versionTrees s (absComps E.cwd srcdir) n, NamesFor c t)
      (done : doObjectOperation B E now c (.build (some objdir) (some srcdir) none) s = (s', .ok out)) :
      Session B E (absComps E.cwd objdir) id c.specVersion (versionTrees s (absComps E.cwd srcdir) n) s'
  | elsewhere {base : Path} {id spec : Str} {trees : List Tree} {s s' : FS} (before : Session B E base id spec trees s) (wf : s'.WF)
      (same : ∀ q, base <+: q → look s' q = look s q) : Session B E base id spec trees s'
  | copied {src base : Path} {id spec : Str} {trees : List Tree} {s s' : FS} (before : Session B E src id spec trees s) (wf : s'.WF)
      (same : SameFiles s src s' base) : Session B E base id spec trees s'
  | update {id spec : Str} {trees : List Tree} {now : Str} {c : Common} {objdir : Str} {a : About} {srcdir srcbag : Option Str} {dir : Path}
      {bagId : Option Str} {s s' : FS} {out : Output} (before : Session B E (absComps E.cwd objdir) id spec trees s)
      (digest : c.digest = c!"sha512" ∨ c.digest = c!"sha256") (clock : Timestamp now) (source : Source B E s a srcdir srcbag dir bagId)
      (names : NamesFor c (FileBelow s dir))
      (done : doObjectOperation B E now c (.update objdir a srcdir srcbag) s = (s', .ok out)) :
      Session B E (absComps E.cwd objdir) id spec (trees ++ [FileBelow s dir]) s'

end Ocfl.Spec
