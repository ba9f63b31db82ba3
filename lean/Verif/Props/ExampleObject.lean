import Verif.Model.Object
import Verif.Model.PyJson
import Verif.Spec.FS
import Verif.Spec.Digest
import Verif.Proofs.PyJson

/-!
# An object made from a directory, for the examples
-/

namespace Ocfl
open Prog Spec

/-- The class `\w` on ASCII. -/
def demoWord (c : Char) : Bool := c.isAlphanum || c = '_'

/-- A digest function with hexadecimal values of the right lengths. -/
def demoRaw (alg : Str) (b : Bytes) : Str :=
  List.replicate ((hexLength alg).getD 32 - 6) '0' ++
    PyJson.hex4 (b.foldl (fun n x => 31 * n + x.toNat) 7 % 65536) ++
    [Nat.digitChar (b.length / 16 % 16), Nat.digitChar (b.length % 16)]

theorem digitChar_hex : ∀ n, n < 16 → Nat.digitChar n ∈ c!"0123456789abcdef" := by decide

theorem demoRaw_hash : HashLib demoRaw := by
  intro alg n h b
  have hn : 6 ≤ n := by
    unfold hexLength at h
    split at h <;> [skip; split at h <;> [skip; split at h <;> [skip; split at h <;> [skip; split at h <;> [skip; cases h]]]]] <;>
      (cases h; decide)
  unfold demoRaw
  rw [h]
  constructor
  · simp [PyJson.hex4]; omega
  · intro c hc
    simp only [Option.getD_some, List.mem_append, List.mem_replicate, PyJson.hex4, List.mem_cons, List.not_mem_nil, or_false] at hc
    rcases hc with ((⟨_, hc⟩ | hc | hc | hc | hc) | hc | hc)
    · subst hc; decide
    all_goals (rw [hc]; exact digitChar_hex _ (Nat.mod_lt _ (by decide)))

/-- Equality of the optional members of two inventories, by their text with the keys in order. -/
def demoSame : Option Json → Option Json → Bool
  | none, none => true
  | some a, some b => PyJson.dump 0 a.sortKeys == PyJson.dump 0 b.sortKeys
  | _, _ => false

def demoEnv : Env :=
  { raw := demoRaw, lib := pyJson, isWord := demoWord, cwd := [c!"w"], same := demoSame, buflen := 1048576 }

theorem demoEnv_lawful : demoEnv.lib.Lawful := pyJson_lawful

theorem demoEnv_cwd : ∀ w ∈ demoEnv.cwd, SafeName w := by decide

/-- A working directory with a source directory of three files, two of them alike. -/
def demoFS : FS :=
  [([c!"w"], .dir), ([c!"w", c!"src"], .dir), ([c!"w", c!"src", c!"a.txt"], .file [1, 2, 3]),
    ([c!"w", c!"src", c!"d"], .dir), ([c!"w", c!"src", c!"d", c!"b"], .file [4]),
    ([c!"w", c!"src", c!"d", c!"c"], .file [1, 2, 3])]

theorem demoFS_wf : demoFS.WF where
  nk := by decide
  noRoot := by decide
  parent := by decide
  names := by decide

/-- An `Object` with SHA-256. -/
def demoObj : Obj := { id := some c!"info:x", digestAlgorithm := c!"sha256" }

def demoMeta : VBlock := { created := some c!"2020-01-01T00:00:00Z" }

/-- The state after `create(srcdir="src", metadata, objdir="obj")`. -/
def demoMade : FS := (run (create demoEnv demoObj c!"src" (some demoMeta) (some c!"obj")) demoFS).1

theorem demoMade_wf : demoMade.WF where
  nk := by decide +kernel
  noRoot := by decide +kernel
  parent := by decide +kernel
  names := by decide +kernel

/-- Was there no exception? -/
def succeeded {α : Type} (r : FS × Py α) : Bool :=
  match r.2 with
  | .ok _ => true
  | .error _ => false

theorem succeeded_ok {α : Type} {r : FS × Py α} (h : succeeded r = true) : ∃ a, r = (r.1, .ok a) := by
  obtain ⟨s, r⟩ := r
  cases r with
  | ok a => exact ⟨a, rfl⟩
  | error e => cases h

/-- Was there no exception? -/
def isOk {α : Type} : Py α → Bool
  | .ok _ => true
  | .error _ => false

theorem isOk_ok {α : Type} {r : Py α} (h : isOk r = true) : ∃ a, r = .ok a := by
  cases r with
  | ok a => exact ⟨a, rfl⟩
  | error e => cases h

/-- The object of `demoMade`, and a source directory in which one file has changed. -/
def demoChanged : FS := Dict.set demoMade [c!"w", c!"src", c!"a.txt"] (.file [9])

theorem demoChanged_wf : demoChanged.WF where
  nk := by decide +kernel
  noRoot := by decide +kernel
  parent := by decide +kernel
  names := by decide +kernel

/-- The update of the object from the changed source directory. -/
def demoUpdate : Prog (Option Inv) := addVersionWithContent demoEnv demoObj c!"obj" (some c!"src") (some demoMeta) true

/-- The same, with the algorithm changed. -/
def demoRehash : Prog (Option Inv) :=
  addVersionWithContent demoEnv { demoObj with digestAlgorithm := c!"sha512" } c!"obj" (some c!"src") (some demoMeta) true

end Ocfl
