import Verif.Spec.History
import Verif.Spec.PriorVersion

/-!
# What is asked of updates of any object
-/

namespace Ocfl.Spec
open Ocfl FS

/-- There are no capital letters in the digests of the manifest. -/
def LowerDigests (j : Json) : Prop :=
  ∀ m, Member j c!"manifest" (ofDigestMap m) → ∀ e ∈ m, ∀ c ∈ e.1, ¬ ('A' ≤ c ∧ c ≤ 'Z')

/-- The inventory has less than 99999 versions, the number of versions with names of five digits. -/
def RoomForVersion (j : Json) : Prop := ∀ vs, Member j c!"versions" (.obj vs) → vs.length < 99999

/-- Content files that the manifest lists under different digests have different digests in the algorithm. -/
def ToldApart (E : Env) (s : FS) (base : Path) (alg : Str) (j : Json) : Prop :=
  ∀ m d c d' c' b b', Member j c!"manifest" (ofDigestMap m) → Lists m d c → Lists m d' c' →
    look s (FS.resolve base c) = some (.file b) → look s (FS.resolve base c') = some (.file b') →
    fileDigest E.raw alg b = fileDigest E.raw alg b' → d = d'

/-- The root inventories of an object, oldest first, over any number of updates from source directories
with the digest algorithm of the object. The object need not be made by the library; its first
inventory has digests in small letters. In between, anything may have happened elsewhere. -/
inductive Updates (E : Env) (base : Path) (alg : Str) : List Json → FS → Prop where
  | start {s : FS} {j : Json} (wf : s.WF) (stored : StoredJson E.lib s (base ++ [c!"inventory.json"]) j) (lower : LowerDigests j)
      (algorithm : Member j c!"digestAlgorithm" (.str alg)) (contentDirectory : ¬ Member j c!"contentDirectory" (.str [])) :
      Updates E base alg [j] s
  | elsewhere {js : List Json} {s s' : FS} (before : Updates E base alg js s) (wf : s'.WF)
      (same : ∀ q, base <+: q → look s' q = look s q) : Updates E base alg js s'
  | update {js : List Json} {j j' : Json} {o : Obj} {srcdir objdir : Str} {metadata : Option VBlock} {abort : Bool} {s s' : FS} {inv : Inv}
      (before : Updates E base alg (js ++ [j]) s) (algorithm : o.digestAlgorithm = alg) (block : GoodMeta metadata)
      (base_eq : absComps E.cwd objdir = base) (room : RoomForVersion j)
      (names : NamesAllowed o (FileBelow s (absComps E.cwd srcdir)))
      (done : Prog.run (addVersionWithContent E o objdir (some srcdir) metadata abort) s = (s', .ok (some inv)))
      (stored : StoredJson E.lib s' (base ++ [c!"inventory.json"]) j') : Updates E base alg (js ++ [j] ++ [j']) s'

end Ocfl.Spec
