import Verif.Model.Prog

/-!
# Two programs at the same time, with writing in parts

Not in `/repo`: how the operating system runs two processes that work on the same files. In each step one of
the two programs looks at the file system or performs one operation, or a file that is being written holds
a first part of its new content, or other processes change something.
Simplification: reading one file is one step.
-/

namespace Ocfl
namespace Concurrent

variable {α β : Type}

/-- One step of one program. While a file is being written it may hold any first part of the new
content, any number of times. -/
inductive Step : Prog α → FS → Prog α → FS → Prop
  | get {k : FS → Prog α} {s : FS} : Step (.get k) s (k s) s
  | op {o : FS.Op} {k : Py Unit → Prog α} {s : FS} : Step (.op o k) s (k (FS.exec o s).2) (FS.exec o s).1
  | part {p : Path} {b : Bytes} {k : Py Unit → Prog α} {s : FS} (n : Nat) :
      Step (.op (.write p b) k) s (.op (.write p b) k) (FS.exec (.write p (b.take n)) s).1

/-- `Together R p q s p' q' s'`: the programs `p` and `q`, started on `s`, may have come to `p'` and `q'`, with
the file system `s'`, while other processes did what `R` allows. -/
inductive Together (R : FS → FS → Prop) (p : Prog α) (q : Prog β) (s : FS) : Prog α → Prog β → FS → Prop
  | here : Together R p q s p q s
  | left {p1 p2 : Prog α} {q1 : Prog β} {s1 s2 : FS} : Together R p q s p1 q1 s1 → Step p1 s1 p2 s2 → Together R p q s p2 q1 s2
  | right {p1 : Prog α} {q1 q2 : Prog β} {s1 s2 : FS} : Together R p q s p1 q1 s1 → Step q1 s1 q2 s2 → Together R p q s p1 q2 s2
  | other {p1 : Prog α} {q1 : Prog β} {s1 s2 : FS} : Together R p q s p1 q1 s1 → R s1 s2 → Together R p q s p1 q1 s2

end Concurrent
end Ocfl
