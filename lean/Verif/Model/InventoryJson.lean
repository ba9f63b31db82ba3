import Verif.Model.Inventory
import Verif.Model.JsonLib

/-!
# Inventories as JSON documents

In the code `Inventory.data` *is* the JSON document. In the model it is a record, so that reading
and writing an inventory file (`ocfl/object.py` lines 797-798, `ocfl/inventory.py` lines 494-500)
needs these conversions.
-/

namespace Ocfl

/-- The member `k` of a JSON object. -/
def Json.field (j : Json) (k : Str) : Option Json :=
  match j with
  | .obj d => Dict.get? d k
  | _ => none

/-- A member that is there only if there is a value for it. -/
def Json.optField (k : Str) (v : Option Json) : List (Str × Json) :=
  match v with
  | none => []
  | some j => [(k, j)]

/-- A manifest, state or fixity block as JSON. -/
def DigestMap.toJson (m : DigestMap) : Json := .obj (m.map (fun e => (e.1, .arr (e.2.map .str))))

/-- The block a JSON value stands for. Simplification: only used on inventories that have passed
the validation, where the value is an object with lists of strings; anything else is dropped. -/
def DigestMap.ofJson (j : Json) : DigestMap :=
  (j.obj?.getD []).map (fun e => (e.1, (e.2.arr?.getD []).filterMap Json.str?))

def User.toJson (u : User) : Json :=
  .obj (Json.optField c!"name" (u.name.map .str) ++ Json.optField c!"address" (u.address.map .str))

def User.ofJson (j : Json) : User :=
  { name := (j.field c!"name").bind Json.str?, address := (j.field c!"address").bind Json.str? }

def VBlock.toJson (b : VBlock) : Json :=
  .obj (Json.optField c!"created" (b.created.map .str) ++ Json.optField c!"message" (b.message.map .str) ++
    Json.optField c!"user" (b.user.map User.toJson) ++ Json.optField c!"state" (b.state.map DigestMap.toJson))

def VBlock.ofJson (j : Json) : VBlock :=
  { created := (j.field c!"created").bind Json.str?, message := (j.field c!"message").bind Json.str?
    user := (j.field c!"user").map User.ofJson, state := (j.field c!"state").map DigestMap.ofJson }

/-- A dictionary of blocks as JSON. -/
def blocksJson {α : Type} (f : α → Json) (d : Dict Str α) : Json := .obj (d.map (fun e => (e.1, f e.2)))

/-- The dictionary of blocks a JSON object stands for. -/
def blocksOf {α : Type} (f : Json → α) (j : Json) : Dict Str α := (j.obj?.getD []).map (fun e => (e.1, f e.2))

/-- `Inventory.data` as the JSON document that is written. -/
def Inv.toJson (inv : Inv) : Json :=
  .obj (Json.optField c!"id" (inv.id.map .str) ++ Json.optField c!"type" (inv.type.map .str) ++
    Json.optField c!"digestAlgorithm" (inv.digestAlgorithm.map .str) ++
    Json.optField c!"contentDirectory" (inv.contentDirectory.map .str) ++
    Json.optField c!"head" (inv.head.map .str) ++ Json.optField c!"manifest" (inv.manifest.map DigestMap.toJson) ++
    Json.optField c!"versions" (inv.versions.map (blocksJson VBlock.toJson)) ++
    Json.optField c!"fixity" (inv.fixity.map (blocksJson DigestMap.toJson)))

/-- The record for a JSON document. Simplification: keys the library does not know are dropped
(the code would keep them and write them again). -/
def Inv.ofJson (j : Json) : Inv :=
  { id := (j.field c!"id").bind Json.str?
    type := (j.field c!"type").bind Json.str?
    digestAlgorithm := (j.field c!"digestAlgorithm").bind Json.str?
    contentDirectory := (j.field c!"contentDirectory").bind Json.str?
    head := (j.field c!"head").bind Json.str?
    manifest := (j.field c!"manifest").map DigestMap.ofJson
    versions := (j.field c!"versions").map (blocksOf VBlock.ofJson)
    fixity := (j.field c!"fixity").map (blocksOf DigestMap.ofJson) }

end Ocfl
