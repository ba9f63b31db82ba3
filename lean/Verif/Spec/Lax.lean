import Verif.Spec.InventoryRules

/-!
# Inventories that need no lax digests
-/

namespace Ocfl.Spec

/-- The algorithms for which the specification or its extension 0001 says what a digest looks like, and two that occur in the examples of
the specification. -/
def knownAlgorithms : List Str :=
  [c!"sha512", c!"sha256", c!"sha1", c!"md5", c!"blake2b-512", c!"blake2b-384", c!"blake2b-256", c!"blake2b-160",
   c!"sha512-spec-ex", c!"sha256-spec-ex"]

/-- The digest algorithm of an inventory, if there is one, is SHA-512 or SHA-256, and the algorithms in its fixity block are known. -/
structure OrdinaryDigests (j : Json) : Prop where
  algorithm : ∀ a, Member j c!"digestAlgorithm" a → a = .str c!"sha512" ∨ a = .str c!"sha256"
  fixity : ∀ fx alg b, Member j c!"fixity" fx → Member fx alg b → alg ∈ knownAlgorithms

end Ocfl.Spec
