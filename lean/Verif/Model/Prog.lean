import Verif.Model.FS

/-!
# Programs that work on the file system

A program is a tree of steps: look at the file system, or perform one operation and go on
depending on its outcome. The same program has a semantics for an undisturbed run (`run`), for
what is seen if it is stopped in between (`Visits`), and for two programs running at the same time
(`Ocfl.Concurrent`). A Python exception ends the program unless it is caught.
-/

namespace Ocfl

inductive Prog (α : Type) where
  | ret (r : Py α)
  | get (k : FS → Prog α)
  | op (o : FS.Op) (k : Py Unit → Prog α)

namespace Prog

variable {α β : Type}

def bind : Prog α → (α → Prog β) → Prog β
  | ret (.ok a), f => f a
  | ret (.error e), _ => ret (.error e)
  | get k, f => get (fun s => bind (k s) f)
  | op o k, f => op o (fun r => bind (k r) f)

instance : Monad Prog where
  pure a := ret (.ok a)
  bind := bind

/-- `raise e` -/
def raise (e : PyErr) : Prog α := ret (.error e)

/-- An expression that may raise. -/
def ofPy (x : Py α) : Prog α := ret x

/-- A value that depends on the file system as it is now. -/
def look (f : FS → Py α) : Prog α := get (fun s => ret (f s))

/-- One operation; its failure is raised. -/
def perform (o : FS.Op) : Prog Unit := op o ret

/-- `try: p except: h(e)`; `h` sees every exception and re-raises those it does not handle. -/
def handle : Prog α → (PyErr → Prog α) → Prog α
  | ret (.ok a), _ => ret (.ok a)
  | ret (.error e), h => h e
  | get k, h => get (fun s => handle (k s) h)
  | op o k, h => op o (fun r => handle (k r) h)

/-- `for x in l: body(x)` -/
def forEach (body : β → Prog Unit) : List β → Prog Unit
  | [] => ret (.ok ())
  | x :: xs => bind (body x) (fun _ => forEach body xs)

/-- An undisturbed run: the file system afterwards and the outcome. -/
def run : Prog α → FS → FS × Py α
  | ret r, s => (s, r)
  | get k, s => run (k s) s
  | op o k, s => run (k (FS.exec o s).2) (FS.exec o s).1

/-- The states the file system is in before, during and after an operation: while a file is being
written it may hold any initial part of the new content. -/
inductive Midway (o : FS.Op) (s : FS) : FS → Prop
  | before : Midway o s s
  | after : Midway o s (FS.exec o s).1
  | partly {p : Path} {b : Bytes} (n : Nat) : o = .write p b → Midway o s (FS.exec (.write p (b.take n)) s).1

/-- `Visits p s s'`: if the program is started on `s` and stopped at some point, the file system
may be left as `s'`. -/
inductive Visits : Prog α → FS → FS → Prop
  | here {p : Prog α} {s : FS} : Visits p s s
  | get {k : FS → Prog α} {s s' : FS} : Visits (k s) s s' → Visits (.get k) s s'
  | mid {o : FS.Op} {k : Py Unit → Prog α} {s s' : FS} : Midway o s s' → Visits (.op o k) s s'
  | next {o : FS.Op} {k : Py Unit → Prog α} {s s' : FS} :
      Visits (k (FS.exec o s).2) (FS.exec o s).1 s' → Visits (.op o k) s s'

end Prog

/-! ## The operations of `fsspec` used by the code -/

namespace FS

/-- `os.makedirs(path, exist_ok)` on the reversed list of names: create the parent first if it is
not there (a `FileExistsError` there is ignored), then the directory itself; any failure of that is
ignored if `exist_ok` is set and the directory is there. -/
def makedirsRev (existOk : Bool) : List Str → Prog Unit
  | [] => if existOk then .ret (.ok ()) else .ret (.error .fileExists)
  | w :: rev =>
    let last : Prog Unit := Prog.handle (Prog.perform (.mkdir (w :: rev).reverse)) (fun e =>
      Prog.look (fun s => if existOk && isdir s (w :: rev).reverse then .ok () else .error e))
    Prog.get (fun s =>
      if exists_ s rev.reverse then last
      else Prog.bind
        (Prog.handle (makedirsRev existOk rev)
          (fun e => if e = .fileExists then .ret (.ok ()) else .ret (.error e)))
        (fun _ => last))

/-- `fs.makedirs(path, exist_ok)` -/
def makedirs (p : Path) (existOk : Bool) : Prog Unit := makedirsRev existOk p.reverse

/-- `fs.makedir(path)` (`LocalFileSystem.mkdir` with `create_parents=True`): a test, then
`makedirs(exist_ok=True)`. -/
def makedir (p : Path) : Prog Unit :=
  Prog.get (fun s => if exists_ s p then .ret (.error .fileExists) else makedirs p true)

/-- `fs.rm(path)` without `recursive`. -/
def rm (p : Path) : Prog Unit :=
  Prog.get (fun s => if isdir s p then .ret (.error .valueError) else Prog.perform (.remove p))

/-- `with fs.open(path, "w") as fh: fh.write(content)`, also `"wb"`. -/
def writeFile (p : Path) (content : Bytes) : Prog Unit := Prog.perform (.write p content)

/-- `fs.open(path, "rb").read()` -/
def readFile (p : Path) : Prog Bytes := Prog.look (fun s => read s p)

end FS
end Ocfl
