import Verif.Model.Bagger
import Verif.Spec.DatedHistory

/-!
# Specification: bags
-/

namespace Ocfl.Spec

open Ocfl FS

/-- A value that fits into a line of `bag-info.txt`: no line breaks, no blanks at its ends. -/
structure OneLine (v : Str) : Prop where
  newline : '\n' ∉ v
  carriageReturn : '\r' ∉ v
  first : ∀ c ∈ v.head?, isSpace c = false
  last : ∀ c ∈ v.getLast?, isSpace c = false

/-- What is asked of the library `bagit`: bagging a directory moves its files to `data`, touches nothing else, and makes a valid
bag from which the tags that name the object, the description and the contact can be read. -/
structure BagitLaws (B : Bagit) : Prop where
  makes : ∀ {s s' : FS} {dir : Path} {tags : Dict Str Str}, s.WF → look s dir = some .dir → Dict.NK tags → (∀ e ∈ tags, OneLine e.2) →
    B.make s dir tags = (s', .ok ()) →
    s'.WF ∧ (∀ q, ¬ dir <+: q → look s' q = look s q) ∧ (∀ r b, FileBelow s' (dir ++ [c!"data"]) r b ↔ FileBelow s dir r b) ∧
    ∃ info, B.read s' dir = .ok (true, info) ∧
      ∀ k ∈ [c!"External-Identifier", c!"External-Description", c!"Contact-Name", c!"Contact-Email"], Dict.get? info k = Dict.get? tags k
  local_ : ∀ {s s' : FS} {dir : Path}, (∀ q, dir <+: q → look s' q = look s q) → B.read s' dir = B.read s dir

/-- What is asked of metadata to go through a bag: nothing empty, nothing that does not fit into a line, and an address that is an
e-mail address. -/
structure Portable (id : Str) (b : VBlock) : Prop where
  id : OneLine id ∧ id ≠ []
  message : ∀ m, b.message = some m → OneLine m ∧ m ≠ []
  user : ∀ u, b.user = some u → (∃ n, u.name = some n ∧ OneLine n ∧ n ≠ []) ∧
    ∀ a, u.address = some a → ∃ e, a = c!"mailto:" ++ e ∧ OneLine e

end Ocfl.Spec
