import Verif.Model.ObjectState

/-!
# What it means that the calls on an `Object` do not influence each other
-/

namespace Ocfl.Spec

/-- Several calls, each on a new `Object` that was made with the same arguments. -/
def freshCalls (E : Env) (o : Obj) : List ObjCall → FS → FS × List ObjReply
  | [], s => (s, [])
  | c :: cs, s =>
    let r := c.exec E o s
    let rest := freshCalls E o cs r.1
    (rest.1, r.2 :: rest.2)

/-- The call makes a new object. -/
def Makes : ObjCall → Prop
  | .create _ _ _ | .build _ _ _ => True
  | _ => False

/-- The call reads the inventory of an object to work with it. -/
def Reads : ObjCall → Prop
  | .update _ _ _ _ | .tree _ | .extract _ _ _ | .extractFile _ _ _ _ => True
  | _ => False

end Ocfl.Spec
