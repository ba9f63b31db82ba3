import Verif.Model.Object
import Verif.Model.VersionMetadata

/-!
# Model of `ocfl/bagger.py` and of the commands that use it

The library `bagit` is not part of the repository; it is a parameter.
-/

namespace Ocfl

/-- The library `bagit`. Simplification: a tag of a bag has one value. -/
structure Bagit where
  /-- `bagit.Bag(dir)`: an exception, or `is_valid()` and `info`. -/
  read : FS → Path → Py (Bool × Dict Str Str)
  /-- `bagit.make_bag(dir, bag_info=tags, checksums=["sha512"])` -/
  make : FS → Path → Dict Str Str → FS × Py Unit

namespace Bagger

/-- The truth value of an attribute of `VersionMetadata`. -/
def isSet (x : Option Str) : Bool :=
  match x with
  | none => false
  | some [] => false
  | some _ => true

/-- An attribute that is only taken from the bag when it is not set, `ocfl/bagger.py` lines 53-62. -/
def fill (x : Option Str) (info : Dict Str Str) (key : Str) (f : Str → Str) : Option Str :=
  if isSet x then x
  else
    match Dict.get? info key with
    | none => x
    | some v => some (f v)

/-- `bag_as_source(srcbag, metadata)`, `ocfl/bagger.py` lines 27-63: the metadata afterwards and the source directory. -/
def bagAsSource (B : Bagit) (cwd : Path) (srcbag : Str) (m : VMeta) (s : FS) : Py (VMeta × Str) :=
  match B.read s (absComps cwd srcbag) with
  | .error e => .error e
  | .ok (false, _) => .error .baggerError
  | .ok (true, info) =>
    .ok ({ m with
      id := fill m.id info c!"External-Identifier" (fun v => v)
      created := fill m.created info c!"Bagging-Date" (fun v => v ++ c!"T00:00:00Z")
      message := fill m.message info c!"External-Description" (fun v => v)
      name := fill m.name info c!"Contact-Name" (fun v => v)
      address := fill m.address info c!"Contact-Email" (fun v => c!"mailto:" ++ v) }, osPathJoin srcbag c!"data")

/-- The tag for an attribute that is set. -/
def tag (key : Str) (x : Option Str) : Dict Str Str :=
  match x with
  | none => []
  | some [] => []
  | some v => [(key, v)]

/-- The tag for the address, `ocfl/bagger.py` lines 86-87. -/
def mailTag (x : Option Str) : Dict Str Str :=
  match x with
  | none => []
  | some a => if startsWith a c!"mailto:" then [(c!"Contact-Email", a.drop 7)] else []

/-- The tags, `ocfl/bagger.py` lines 79-90. -/
def bagTags (m : VMeta) (setBaggingDate : Bool) : Py (Dict Str Str) :=
  let tags := tag c!"External-Identifier" m.id ++ tag c!"External-Description" m.message ++ tag c!"Contact-Name" m.name ++
    mailTag m.address
  if setBaggingDate then
    match m.created with
    | none => .error .attributeError
    | some c => .ok (tags ++ [(c!"Bagging-Date", (splitOn 'T' c).headD [])])
  else .ok tags

/-- `bag_extracted_version(dst, metadata, set_bagging_date)`, `ocfl/bagger.py` lines 66-93. -/
def bagExtractedVersion (B : Bagit) (cwd : Path) (dst : Str) (m : VMeta) (setBaggingDate : Bool) (s : FS) : FS × Py Unit :=
  match bagTags m setBaggingDate with
  | .error e => (s, .error e)
  | .ok tags => B.make s (absComps cwd dst) tags

/-- `ocfl-object.py extract --dstbag`, `ocfl-object.py` lines 205-214. -/
def exportBag (B : Bagit) (E : Env) (objdir version dst : Str) (setBaggingDate : Bool) (s : FS) : FS × Py VMeta :=
  match Prog.run (extract E objdir version dst) s with
  | (s1, .error e) => (s1, .error e)
  | (s1, .ok md) =>
    match bagExtractedVersion B E.cwd dst md setBaggingDate s1 with
    | (s2, .error e) => (s2, .error e)
    | (s2, .ok ()) => (s2, .ok md)

/-- `ocfl-object.py create --srcbag`, `ocfl-object.py` lines 139-157; `m` is the metadata from the command line, `FatalError` is
a plain exception here. -/
def createFromBag (B : Bagit) (E : Env) (now : Str) (o : Obj) (m : VMeta) (srcbag : Str) (objdir : Option Str) (s : FS) : FS × Py Inv :=
  match bagAsSource B E.cwd srcbag m s with
  | .error e => (s, .error e)
  | .ok (m, srcdir) =>
    match m.id with
    | none => Prog.run (create E o srcdir (some (m.asDict now)) objdir) s
    | some i =>
      match o.id with
      | none => Prog.run (create E { o with id := some i } srcdir (some (m.asDict now)) objdir) s
      | some i' =>
        if i' ≠ i then (s, .error .exception) else Prog.run (create E o srcdir (some (m.asDict now)) objdir) s

/-- `ocfl-object.py update --srcbag`, `ocfl-object.py` lines 175-188. The identifier from the bag is not used. -/
def updateFromBag (B : Bagit) (E : Env) (now : Str) (o : Obj) (m : VMeta) (srcbag objdir : Str) (s : FS) : FS × Py (Option Inv) :=
  match bagAsSource B E.cwd srcbag m s with
  | .error e => (s, .error e)
  | .ok (m, srcdir) => Prog.run (addVersionWithContent E o objdir (some srcdir) (some (m.asDict now)) false) s

end Bagger
end Ocfl
