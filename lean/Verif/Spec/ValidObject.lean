import Verif.Model.Env
import Verif.Spec.Object
import Verif.Spec.Namaste

/-!
# Specification: when an object in a directory is valid

The rules that object validation enforces, without any order of checking. Where they are weaker than
the OCFL specification, that is said here and treated in `Verif.Props.ObjectValidation`. Digest
algorithms other than SHA-512 and SHA-256 in `digestAlgorithm` (lax digests) are left out.
-/

namespace Ocfl.Spec
open Ocfl

/-- What is assumed of the libraries of Python that validation uses. -/
structure Libraries (E : Env) : Prop where
  json : E.lib.Lawful
  hash : HashLib E.raw
  word : WordClass E.isWord
  blank : ∀ c, Blank c → E.isWord c = false
  same : ∀ a b : Str, E.same (some (.str a)) (some (.str b)) = true ↔ a = b
  buflen : 0 < E.buflen

/-- The text of a sidecar that records the digest `d`: a word, blanks, the name of the inventory and
maybe more blanks in the first line. -/
def SidecarText (isWord : Char → Bool) (text d : Str) : Prop :=
  ∃ gap tail rest, text = d ++ gap ++ c!"inventory.json" ++ tail ++ rest ∧ d ≠ [] ∧ (∀ c ∈ d, isWord c = true) ∧
    gap ≠ [] ∧ (∀ c ∈ gap, Blank c ∧ c ≠ '\n') ∧ (∀ c ∈ tail, Blank c ∧ c ≠ '\n') ∧
    (rest = [] ∨ ∃ r, rest = '\n' :: r)

/-- The sidecar in the directory `dir` records the digest of the inventory there. -/
def SidecarGood (E : Env) (s : FS) (dir : Path) (alg : Str) : Prop :=
  ∃ b t d i, FS.look s (dir ++ [c!"inventory.json." ++ alg]) = some (.file b) ∧ utf8Decode b = some t ∧
    SidecarText E.isWord (univNewlines t) d ∧
    FS.look s (dir ++ [c!"inventory.json"]) = some (.file i) ∧ fileDigest E.raw alg i = some d

/-- There is a sidecar; with digest checking it is right. -/
def Sidecar (E : Env) (check : Bool) (s : FS) (dir : Path) (alg : Str) : Prop :=
  FS.look s (dir ++ [c!"inventory.json." ++ alg]) ≠ none ∧ (check = true → SidecarGood E s dir alg)

/-- The file at `p` has the digest `d`. -/
def DigestIs (E : Env) (s : FS) (p : Path) (alg d : Str) : Prop :=
  ∃ b x, FS.look s p = some (.file b) ∧ fileDigest E.raw alg b = some x ∧ SameDigest alg x d

/-- The version of the specification that an inventory names. -/
def InventorySpec (j : Json) (v : Str) : Prop :=
  v ∈ supported ∧ ∃ c rest, c ≠ '\n' ∧
    Member j c!"type" (.str (c!"https://ocfl" ++ [c] ++ c!"io/" ++ v ++ c!"/spec/#inventory" ++ rest))

/-- The inventory `j` names the algorithm `a`. -/
def InventoryAlg (j : Json) (a : Str) : Prop := Member j c!"digestAlgorithm" (.str a)

/-- `p` is listed with the digest `d` for the algorithm `a` in the fixity block of `j`. -/
def FixityLists (j : Json) (a d p : Str) : Prop :=
  ∃ fx fm, Member j c!"fixity" fx ∧ Member fx a (ofDigestMap fm) ∧ Lists fm d p

/-- An inventory `j'` of an earlier version, in the directory `dir`, beside the root inventory `j` with
content directory `cd`. -/
structure PriorRules (E : Env) (check : Bool) (s : FS) (dir : Path) (j : Json) (cd : Str) (j' : Json) : Prop where
  rules : ∃ alg m vs states style n, RulesWith false none j' (.str alg) cd m vs states style n ∧ Sidecar E check s dir alg
  id : ∀ i, Member j c!"id" (.str i) → Member j' c!"id" (.str i)
  /-- If the root inventory gives a content directory, so does this one. -/
  contentDirectory : (∃ x, Member j c!"contentDirectory" x) → ∃ x, Member j' c!"contentDirectory" x
  history : Continues j j'

/-- The rules for the object in the directory `base` with the declaration of version `spec`, the root
inventory `j` and the parts of it as in `RulesWith`; `check` says whether digests are checked. -/
structure ObjectRules (E : Env) (check : Bool) (s : FS) (base : Path) (spec : Str) (j : Json) (alg cd : Str)
    (m : List (Str × List Str)) (vs : List (Str × Json)) (states : Str → List (Str × List Str)) (style : Option Nat)
    (n : Nat) : Prop where
  supported : spec ∈ Spec.supported
  declaration : ∃ b t, FS.look s (base ++ [c!"0=ocfl_object_" ++ spec]) = some (.file b) ∧ utf8Decode b = some t ∧
    IsTvalue E.isWord (univNewlines t) (c!"ocfl_object_" ++ spec)
  oneDeclaration : ∀ t, FS.look s (base ++ [c!"0=" ++ t]) ≠ none → t = c!"ocfl_object_" ++ spec
  inventory : StoredJson E.lib s (base ++ [c!"inventory.json"]) j
  rules : RulesWith false none j (.str alg) cd m vs states style n
  sidecar : Sidecar E check s base alg
  /-- Files in the object root. -/
  files : ∀ w b, FS.look s (base ++ [w]) = some (.file b) →
    w = c!"0=ocfl_object_" ++ spec ∨ w = c!"inventory.json" ∨ w = c!"inventory.json." ++ alg
  /-- Directories in the object root. -/
  dirs : ∀ w, FS.look s (base ++ [w]) = some .dir →
    w ∈ vs.map Prod.fst ∨ w = c!"logs" ∨ w = c!"extensions"
  extensions : ∀ w b, FS.look s (base ++ [c!"extensions", w]) ≠ some (.file b)
  /-- The directories of the versions are there. -/
  versionDirs : ∀ v ∈ vs.map Prod.fst, FS.look s (base ++ [v]) = some .dir
  /-- The inventory of the last version may be missing. -/
  headInventory : FS.look s (base ++ [styleName style n, c!"inventory.json"]) ≠ none →
    FS.look s (base ++ [styleName style n, c!"inventory.json"]) = FS.look s (base ++ [c!"inventory.json"]) ∧
    Sidecar E check s (base ++ [styleName style n]) alg
  /-- Those of earlier versions may be missing, too. -/
  priorInventory : ∀ i, 1 ≤ i → i < n → FS.look s (base ++ [styleName style i, c!"inventory.json"]) ≠ none →
    ∃ j', StoredJson E.lib s (base ++ [styleName style i, c!"inventory.json"]) j' ∧
      PriorRules E check s (base ++ [styleName style i]) j cd j'
  /-- The manifests of earlier versions grow. -/
  priorManifests : ∀ i k, 1 ≤ i → i < k → k < n → ∀ j1 j2 m1 m2,
    StoredJson E.lib s (base ++ [styleName style i, c!"inventory.json"]) j1 →
    StoredJson E.lib s (base ++ [styleName style k, c!"inventory.json"]) j2 →
    Member j1 c!"manifest" (ofDigestMap m1) → Member j2 c!"manifest" (ofDigestMap m2) → ∀ p ∈ listed m1, p ∈ listed m2
  /-- The version of the specification does not go down between earlier versions. -/
  priorSpecs : ∀ i k, 1 ≤ i → i < k → k < n → ∀ j1 j2 v1 v2,
    StoredJson E.lib s (base ++ [styleName style i, c!"inventory.json"]) j1 →
    StoredJson E.lib s (base ++ [styleName style k, c!"inventory.json"]) j2 →
    InventorySpec j1 v1 → InventorySpec j2 v2 → v1 = c!"1.0" ∨ v2 = c!"1.1"
  /-- Nor from them to the declaration, if the last version has an inventory. -/
  headSpec : FS.look s (base ++ [styleName style n, c!"inventory.json"]) ≠ none → ∀ i, 1 ≤ i → i < n → ∀ j1 v1,
    StoredJson E.lib s (base ++ [styleName style i, c!"inventory.json"]) j1 → InventorySpec j1 v1 →
    v1 = c!"1.0" ∨ spec = c!"1.1"
  /-- Files in the directory of a version: inventory, its sidecar, or one with the name of the content
  directory. -/
  versionFiles : ∀ v ∈ vs.map Prod.fst, ∀ w b, FS.look s (base ++ [v, w]) = some (.file b) →
    w = c!"inventory.json" ∨ w = cd ∨
      ∃ j' a, StoredJson E.lib s (base ++ [v, c!"inventory.json"]) j' ∧ InventoryAlg j' a ∧ w = c!"inventory.json." ++ a
  /-- The files in the content directories (if that is not where the sidecar should be). -/
  content : ∀ p, p ∈ listed m ↔ ∃ v ws b, v ∈ vs.map Prod.fst ∧ ws ≠ [] ∧ p = pathOf (v :: cd :: ws) ∧
    FS.look s (base ++ v :: cd :: ws) = some (.file b) ∧
    ∀ j' a, StoredJson E.lib s (base ++ [v, c!"inventory.json"]) j' → InventoryAlg j' a → cd ≠ c!"inventory.json." ++ a
  /-- No directory below them is empty. -/
  noEmpty : ∀ v ∈ vs.map Prod.fst, ∀ ws, ws ≠ [] → FS.look s (base ++ v :: cd :: ws) = some .dir →
    (∀ j' a, StoredJson E.lib s (base ++ [v, c!"inventory.json"]) j' → InventoryAlg j' a → cd ≠ c!"inventory.json." ++ a) →
    ∃ w, FS.look s (base ++ v :: cd :: ws ++ [w]) ≠ none
  digests : check = true → ∀ d ws, Lists m d (pathOf ws) → (∀ w ∈ ws, Safe w) → DigestIs E s (base ++ ws) alg d
  fixity : check = true → ∀ a d ws, FixityLists j a d (pathOf ws) → (∀ w ∈ ws, Safe w) → DigestIs E s (base ++ ws) a d
  /-- The digests in inventories of earlier versions. -/
  priorDigests : check = true → ∀ i, 1 ≤ i → i < n → ∀ j' a m' d ws,
    StoredJson E.lib s (base ++ [styleName style i, c!"inventory.json"]) j' → InventoryAlg j' a →
    Member j' c!"manifest" (ofDigestMap m') → Lists m' d (pathOf ws) → (∀ w ∈ ws, Safe w) → pathOf ws ∈ listed m →
    DigestIs E s (base ++ ws) a d
  priorFixity : check = true → ∀ i, 1 ≤ i → i < n → ∀ j' a d ws,
    StoredJson E.lib s (base ++ [styleName style i, c!"inventory.json"]) j' →
    FixityLists j' a d (pathOf ws) → (∀ w ∈ ws, Safe w) → pathOf ws ∈ listed m → DigestIs E s (base ++ ws) a d

/-- The object in the directory `base` is valid. -/
def ValidObject (E : Env) (check : Bool) (s : FS) (base : Path) : Prop :=
  ∃ spec j alg cd m vs states style n, ObjectRules E check s base spec j alg cd m vs states style n

end Ocfl.Spec
