import Verif.Model.FS
import Verif.Model.Validator
import Verif.Model.StorageRoot
import Verif.Spec.Object

/-!
# Directories with the same contents
-/

namespace Ocfl.Spec

/-- The directory `p` of `s` and the directory `p'` of `s'` have the same contents: the same files
with the same bytes and the same directories at the same relative paths. Nothing is said about the
order in which a listing gives them, or about anything outside. -/
def SameContents (s : FS) (p : Path) (s' : FS) (p' : Path) : Prop :=
  ∀ q, FS.look s (p ++ q) = FS.look s' (p' ++ q)

/-- Paths inside the `logs` directory of an object, or inside the directory of an extension. -/
def Ignored (q : Path) : Prop :=
  (∃ r, r ≠ [] ∧ q = c!"logs" :: r) ∨ (∃ x r, r ≠ [] ∧ q = c!"extensions" :: x :: r)

/-- The same contents, apart from what is inside the `logs` directory and inside the directories of
extensions. -/
def SameApart (s : FS) (p : Path) (s' : FS) (p' : Path) : Prop :=
  ∀ q, ¬ Ignored q → FS.look s (p ++ q) = FS.look s' (p' ++ q)

/-- No inventory in the object names a digest algorithm with a slash. -/
def PlainAlgorithms (lib : JsonLib) (s : FS) (dir : Path) : Prop :=
  ∀ q j a, (q = [c!"inventory.json"] ∨ ∃ v, q = [v, c!"inventory.json"]) → StoredJson lib s (dir ++ q) j →
    Member j c!"digestAlgorithm" (.str a) → '/' ∉ a

/-- The same verdict and the same log entries, up to the order of the entries; or the same
exception. -/
inductive SameReport : Py (Bool × List Entry) → Py (Bool × List Entry) → Prop
  | verdict {ok : Bool} {es es' : List Entry} : es.Perm es' → SameReport (.ok (ok, es)) (.ok (ok, es'))
  | exception {e : PyErr} : SameReport (.error e) (.error e)

/-- The same result and the same counts for a storage root; or an exception in both cases. -/
inductive SameCounts : Py Store.Report → Py Store.Report → Prop
  | report {r : Store.Report} : SameCounts (.ok r) (.ok r)
  | exception {e e' : PyErr} : SameCounts (.error e) (.error e')

/-- The same objects, up to their order; or an exception in both cases. -/
inductive SameObjects : Py (List (Str × Option Str)) → Py (List (Str × Option Str)) → Prop
  | objects {l l' : List (Str × Option Str)} : l.Perm l' → SameObjects (.ok l) (.ok l')
  | exception {e e' : PyErr} : SameObjects (.error e) (.error e')

end Ocfl.Spec
