import Verif.Model.Sharing

/-!
# What it means that inventories do not share data
-/

namespace Ocfl.Spec
open Ocfl Sharing

/-- A call on an inventory that shares nothing with anything; metadata is given by value. -/
def valueCall (c : InvCall VBlock) (inv : Inv) : Inv × Py Unit :=
  match c with
  | .addVersion vdir metadata state width =>
    match inv.addVersion vdir metadata state width with
    | .error e => (inv, .error e)
    | .ok inv' => (inv', .ok ())
  | .setState vdir st => (inv.setState vdir st, .ok ())
  | .setMeta vdir (.created v) => (inv.setCreated vdir v, .ok ())
  | .setMeta vdir (.message v) => (inv.setMessage vdir v, .ok ())
  | .setMeta vdir (.userName v) => inv.setUserName vdir v
  | .setMeta vdir (.userAddress v) => inv.setUserAddress vdir v
  | .addFileToManifest digest cp => inv.addFileToManifest digest cp

/-- The call with the metadata that its `dict` holds at the time. -/
def resolve (w : World) : InvCall Nat → InvCall VBlock
  | .addVersion vdir metadata state width => .addVersion vdir (metadata.map w.block) state width
  | .setState vdir st => .setState vdir st
  | .setMeta vdir m => .setMeta vdir m
  | .addFileToManifest digest cp => .addFileToManifest digest cp

/-- The addresses of the blocks of all versions of all inventories. -/
def World.used (w : World) : List Nat := w.datas.flatMap (fun d => (d.versions.getD []).map Prod.snd)

/-- No block belongs to two versions. -/
structure World.Separate (w : World) : Prop where
  once : (World.used w).Nodup
  there : ∀ k ∈ World.used w, k < w.blocks.length

/-- The `dict` given as metadata does not belong to a version yet, and exists. -/
def FreshMetadata (w : World) : InvCall Nat → Prop
  | .addVersion _ (some k) _ _ => k ∉ World.used w ∧ k < w.blocks.length
  | _ => True

/-- The events go well with each other: calls are on inventories that exist, and `dict`s given as metadata are used once. -/
def UsedOnce : World → List Event → Prop
  | _, [] => True
  | w, .call a c :: es => a < w.datas.length ∧ FreshMetadata w c ∧ UsedOnce (Event.exec w (.call a c)) es
  | w, .copy a :: es => a < w.datas.length ∧ UsedOnce (Event.exec w (.copy a)) es
  | w, e :: es => UsedOnce (Event.exec w e) es

/-- What is done with one inventory, metadata given by value. -/
def callsOn (a : Nat) : World → List Event → List (InvCall VBlock)
  | _, [] => []
  | w, .call a' c :: es => if a' = a then resolve w c :: callsOn a (Event.exec w (.call a' c)) es else callsOn a (Event.exec w (.call a' c)) es
  | w, e :: es => callsOn a (Event.exec w e) es

end Ocfl.Spec
