import Verif.Model.JsonLib

/-!
# Parts of documents

What is assumed of the JSON library where files are read while they are being written.
-/

namespace Ocfl

/-- The library does not read a first part of the text of an object: such a part misses the last brace. -/
def JsonLib.NoPrefix (lib : JsonLib) : Prop :=
  ∀ (d : List (Str × Json)) (n : Nat) (t : Str), (Json.obj d).Writable →
    utf8Decode ((utf8 (lib.dumps (.obj d))).take n) = some t → lib.loads (univNewlines t) ≠ none →
    (utf8 (lib.dumps (.obj d))).take n = utf8 (lib.dumps (.obj d))

end Ocfl
