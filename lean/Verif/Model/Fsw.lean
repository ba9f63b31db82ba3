import Verif.Py.Basic

/-!
# Model of `ocfl/fsw.py`, part 1: comparing contents
-/

namespace Ocfl

/-- The loop of `fsw_files_identical`, `ocfl/fsw.py` lines 350-360, on what is left to read of the
two files; `buflen` is `BUFLEN`. -/
def compareLoop (buflen : Nat) : (fuel : Nat) → Bytes → Bytes → Bool
  | 0, _, _ => true
  | fuel + 1, a, b =>
    let c1 := a.take buflen
    let c2 := b.take buflen
    if c1 ≠ c2 then false
    else if c1.length = 0 then true
    else compareLoop buflen fuel (a.drop buflen) (b.drop buflen)

/-- `fsw_files_identical(fs, file1, file2)`, `ocfl/fsw.py` lines 327-360, on the contents of two
existing files. The fuel is enough for `buflen > 0`, see `compareLoop_iff`. -/
def filesIdentical (buflen : Nat) (name1 name2 : Str) (a b : Bytes) : Bool :=
  if a.length ≠ b.length then false
  else if name1 = name2 then true
  else compareLoop buflen (a.length + 1) a b

end Ocfl
