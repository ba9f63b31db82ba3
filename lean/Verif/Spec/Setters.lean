import Verif.Model.Setters

/-!
# What is said about a version
-/

namespace Ocfl.Spec
open Ocfl NV

/-- The last value given for a property, or the one before. -/
def lastSaid (pick : MetaOp → Option Str) : List MetaOp → Option Str → Option Str
  | [], before => before
  | m :: ms, before => lastSaid pick ms ((pick m).or before)

/-- The value given for the time of creation. -/
def saidCreated : MetaOp → Option Str
  | .created v => some v
  | _ => none

/-- The value given for the message. -/
def saidMessage : MetaOp → Option Str
  | .message v => some v
  | _ => none

/-- The value given for the name. -/
def saidName : MetaOp → Option Str
  | .userName v => some v
  | _ => none

/-- The value given for the address. -/
def saidAddress : MetaOp → Option Str
  | .userAddress v => some v
  | _ => none

/-- A block of a version after things were said about it: the last value counts for each property; there is a `user` block if something was
said about the user. -/
def described (ms : List MetaOp) (b : VBlock) : VBlock where
  created := lastSaid saidCreated ms b.created
  message := lastSaid saidMessage ms b.message
  user :=
    if ms.any (fun m => (saidName m).isSome || (saidAddress m).isSome) then
      some { name := lastSaid saidName ms (b.user.bind (·.name)), address := lastSaid saidAddress ms (b.user.bind (·.address)) }
    else b.user
  state := b.state

/-- The calls among a sequence that concern the contents. -/
def contentOps (cs : List Call) : List Op := cs.filterMap (fun c => match c with | .content op => some op | .said _ => none)

/-- The assignments among a sequence of calls. -/
def saidOps (cs : List Call) : List MetaOp := cs.filterMap (fun c => match c with | .content _ => none | .said m => some m)

/-- The outcomes of a sequence of calls if those of the calls on the contents are given and assignments raise nothing. -/
def weave : List Call → List (Py Unit) → List (Py Unit)
  | [], _ => []
  | .said _ :: cs, rs => .ok () :: weave cs rs
  | .content _ :: cs, rs =>
    match rs with
    | [] => []
    | r :: rs => r :: weave cs rs

/-- What is said is what a `VersionMetadata` holds. -/
def Says (ms : List MetaOp) (m : VMeta) : Prop :=
  lastSaid saidCreated ms none = m.created ∧ lastSaid saidMessage ms none = m.message ∧ lastSaid saidName ms none = m.name ∧
    lastSaid saidAddress ms none = m.address

end Ocfl.Spec
