import Verif.Py.Basic
import Mathlib.Data.List.Forall2

/-! # Specification: digests up to letter case -/

namespace Ocfl.Spec
open Ocfl

/-- Two strings that differ only in the case of ASCII letters. `Char.toLower` is Lean's own. -/
def SameUpToCase (d d' : Str) : Prop := List.Forall₂ (fun c c' => c.toLower = c'.toLower) d d'

/-- The algorithms whose digests are case-sensitive (the abbreviated ones of the specification's
examples). -/
def CaseSensitive (alg : Str) : Prop := alg = c!"sha512-spec-ex" ∨ alg = c!"sha256-spec-ex"

/-- The length in hexadecimal digits of the digests of the real algorithms. -/
def hexLength (alg : Str) : Option Nat :=
  if alg = c!"sha512" ∨ alg = c!"blake2b-512" then some 128
  else if alg = c!"blake2b-384" then some 96
  else if alg = c!"sha256" ∨ alg = c!"blake2b-256" then some 64
  else if alg = c!"sha1" ∨ alg = c!"blake2b-160" then some 40
  else if alg = c!"md5" then some 32
  else none

/-- What `hashlib` promises: a hexadecimal digest is written with the right number of lower case
digits. Nothing is said about collisions. -/
def HashLib (raw : Str → Bytes → Str) : Prop :=
  ∀ alg n, hexLength alg = some n → ∀ b, (raw alg b).length = n ∧ ∀ c ∈ raw alg b, c ∈ c!"0123456789abcdef"

end Ocfl.Spec
