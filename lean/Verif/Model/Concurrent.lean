import Verif.Model.Object

/-!
# Programs that run at the same time

Any number of programs work on one file system. In each step one of them looks at the file system or
performs one operation. Simplification: writing a file is one step.
-/

namespace Ocfl
namespace Concurrent

variable {ι α : Type} [DecidableEq ι]

/-- An operation performed by one of the programs, and its outcome. -/
structure Event (ι : Type) where
  who : ι
  op : FS.Op
  outcome : Py Unit

/-- `Runs P s t P' s'`: the programs `P`, started on `s`, may have come to `P'` and `s'` with the events
`t`. -/
inductive Runs : (ι → Prog α) → FS → List (Event ι) → (ι → Prog α) → FS → Prop
  | here {P : ι → Prog α} {s : FS} : Runs P s [] P s
  | get {P P' : ι → Prog α} {s s' : FS} {t : List (Event ι)} {k : FS → Prog α} (i : ι) : P i = .get k →
      Runs (Function.update P i (k s)) s t P' s' → Runs P s t P' s'
  | op {P P' : ι → Prog α} {s s' : FS} {t : List (Event ι)} {o : FS.Op} {k : Py Unit → Prog α} (i : ι) : P i = .op o k →
      Runs (Function.update P i (k (FS.exec o s).2)) (FS.exec o s).1 t P' s' →
      Runs P s (⟨i, o, (FS.exec o s).2⟩ :: t) P' s'

/-- One step of one of the programs, if it has not ended. -/
def step (i : ι) (c : (ι → Prog α) × FS) : (ι → Prog α) × FS :=
  match c.1 i with
  | .ret _ => c
  | .get k => (Function.update c.1 i (k c.2), c.2)
  | .op o k => (Function.update c.1 i (k (FS.exec o c.2).2), (FS.exec o c.2).1)

/-- A schedule: which program takes the next step. -/
def schedule (is : List ι) (c : (ι → Prog α) × FS) : (ι → Prog α) × FS := is.foldl (fun c i => step i c) c

end Concurrent

/-- `write_new_version(new_version)`, `ocfl/object.py` lines 516-540, as `writeNewVersion`, with another way to make
the version directory. -/
def writeNewVersionWith (mk : Path → Prog Unit) (E : Env) (o : Obj) (base src : Path) (nv : NV) : Prog Inv :=
  match nv.inv.head with
  | none => .ret (.error .typeError)
  | some head =>
    Prog.bind (removeOldSidecar base nv) (fun _ =>
    Prog.bind (mk (FS.resolve base head)) (fun _ =>
    Prog.bind (copyAll base src nv.filesToCopy) (fun _ =>
    Prog.bind (writeInventoryAndSidecar E o base (some nv.inv) head) (fun _ =>
    Prog.bind (writeInventoryAndSidecar E o base (some nv.inv) []) (fun _ =>
    .ret (.ok nv.inv))))))

/-- Creation of a directory in one step that fails if there is anything. -/
def atomicMkdir (p : Path) : Prog Unit := Prog.perform (.mkdir p)

end Ocfl
