import Verif.Model.Document

/-!
# What a document is, what it says beyond what the library knows, and the same calls on the record
-/

namespace Ocfl
namespace Spec

/-- A JSON object, in which the values are as `P` demands. -/
def IsRecord (P : Str → Json → Prop) (j : Json) : Prop := ∃ d, j = .obj d ∧ Dict.NK d ∧ ∀ k v, Dict.get? d k = some v → P k v

def IsText (j : Json) : Prop := ∃ s, j = .str s

/-- Digests with lists of paths. -/
def IsDigestMap (j : Json) : Prop := IsRecord (fun _ v => ∃ l : List Str, v = .arr (l.map .str)) j

/-- The keys that the library knows, in an inventory, a version block and a user block. -/
def inventoryKeys : List Str :=
  [c!"id", c!"type", c!"digestAlgorithm", c!"contentDirectory", c!"head", c!"manifest", c!"versions", c!"fixity"]
def blockKeys : List Str := [c!"created", c!"message", c!"user", c!"state"]
def userKeys : List Str := [c!"name", c!"address"]

def IsUser (j : Json) : Prop := IsRecord (fun k v => k ∈ userKeys → IsText v) j

/-- A version block in which the values of known keys are of the right type. -/
def IsBlock (j : Json) : Prop :=
  IsRecord (fun k v => (k = c!"created" ∨ k = c!"message" → IsText v) ∧ (k = c!"user" → IsUser v) ∧ (k = c!"state" → IsDigestMap v)) j

/-- An inventory in which the values of known keys are of the right type; nothing else is demanded. -/
def IsInventory (j : Json) : Prop :=
  IsRecord (fun k v =>
    (k ∈ [c!"id", c!"type", c!"digestAlgorithm", c!"contentDirectory", c!"head"] → IsText v) ∧ (k = c!"manifest" → IsDigestMap v) ∧
    (k = c!"versions" → IsRecord (fun _ => IsBlock) v) ∧ (k = c!"fixity" → IsRecord (fun _ => IsDigestMap) v)) j

/-- The values of all other keys are the same. -/
def Kept (known : List Str) (j j' : Json) : Prop := ∀ k, k ∉ known → j'.field k = j.field k

/-- The same in a version block and in its user block. -/
def BlockKept (b b' : Json) : Prop :=
  Kept blockKeys b b' ∧ ∀ u, b.field c!"user" = some u → ∃ u', b'.field c!"user" = some u' ∧ Kept userKeys u u'

/-- The block of a version. -/
def versionBlock (j : Json) (vdir : Str) : Option Json := (j.field c!"versions").bind (fun vs => vs.field vdir)

/-- What the library does not know is the same: in the inventory, and in each of its versions, none of which is lost. -/
def RestKept (j j' : Json) : Prop :=
  Kept inventoryKeys j j' ∧ ∀ v b, versionBlock j v = some b → ∃ b', versionBlock j' v = some b' ∧ BlockKept b b'

/-- The same call on the record of what the library knows. -/
def recordCall (inv : Inv) : Doc.Call → Inv × Py (Option Str)
  | .setId v => ({ inv with id := some v }, .ok none)
  | .setSpecVersion v => (inv.setSpecVersion v, .ok none)
  | .setDigestAlgorithm v => ({ inv with digestAlgorithm := some v }, .ok none)
  | .setHead v => ({ inv with head := some v }, .ok none)
  | .setContentDirectory v => ({ inv with contentDirectory := some v }, .ok none)
  | .setManifest m => ({ inv with manifest := some m }, .ok none)
  | .addVersion v m s w =>
    match inv.addVersion v (m.map VBlock.ofJson) s w with
    | .error e => (inv, .error e)
    | .ok inv' => (inv', .ok none)
  | .addFileToManifest d p => ((inv.addFileToManifest d p).1, Doc.noResult (inv.addFileToManifest d p).2)
  | .addFixityType a m => (inv.addFixityType a m, .ok none)
  | .addFixityData a d p =>
    match inv.addFixityData a d p with
    | .error e => (inv, .error e)
    | .ok inv' => (inv', .ok none)
  | .normalizeDigests a => ((inv.normalizeDigests a).1, Doc.noResult (inv.normalizeDigests a).2)
  | .setCreated v x => (inv.setCreated v x, .ok none)
  | .setMessage v x => (inv.setMessage v x, .ok none)
  | .setState v st => (inv.setState v st, .ok none)
  | .setUserName v x => ((inv.setUserName v x).1, Doc.noResult (inv.setUserName v x).2)
  | .setUserAddress v x => ((inv.setUserAddress v x).1, Doc.noResult (inv.setUserAddress v x).2)
  | .addFile v d l c b => inv.addFile v d l c b
  | .deleteLogicalPath v p => ((inv.deleteLogicalPath v p).1, (inv.deleteLogicalPath v p).2.map some)

/-- The same calls on the record. -/
def recordCalls : List Doc.Call → Inv → Inv × List (Py (Option Str))
  | [], inv => (inv, [])
  | c :: cs, inv => ((recordCalls cs (recordCall inv c).1).1, (recordCall inv c).2 :: (recordCalls cs (recordCall inv c).1).2)

/-- Arguments of the right type: a `dict` for a version block, maps that are a `dict`. -/
def GoodArguments : Doc.Call → Prop
  | .setManifest m => Dict.NK m
  | .addVersion _ m s _ => (∀ b, m = some b → IsBlock b) ∧ ∀ st, s = some st → Dict.NK st
  | .addFixityType _ m => ∀ x, m = some x → Dict.NK x
  | .setState _ st => Dict.NK st
  | _ => True

/-- No version that is there is replaced: `add_version` is called without the name of a version, or with a new one. -/
def ReplacesNone (doc : Json) : Doc.Call → Prop
  | .addVersion (some v) _ _ _ => versionBlock doc v = none
  | _ => True

/-- The same of each call of a sequence, when its turn comes. -/
def ReplaceNone : List Doc.Call → Json → Prop
  | [], _ => True
  | c :: cs, doc => ReplacesNone doc c ∧ ReplaceNone cs (c.exec doc).1

end Spec
end Ocfl
