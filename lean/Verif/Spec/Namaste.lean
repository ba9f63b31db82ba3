import Verif.Py.Basic
import Verif.Model.FS
import Mathlib.Data.List.Forall2

/-!
# Specification of Namaste files and declarations
-/

namespace Ocfl

namespace Spec

/-- What is known of the class `\w`: among the ASCII characters it holds letters, digits and the
underscore. -/
def WordClass (isWord : Char → Bool) : Prop :=
  ∀ c : Char, c.toNat < 128 → isWord c = (c.isAlphanum || c = '_')

/-- The blanks of Python: everything `str.strip` removes. -/
def Blank (c : Char) : Prop :=
  c.toNat ∈ [9, 10, 11, 12, 13, 28, 29, 30, 31, 32, 0x85, 0xa0, 0x1680, 0x2000, 0x2001, 0x2002, 0x2003, 0x2004,
    0x2005, 0x2006, 0x2007, 0x2008, 0x2009, 0x200a, 0x2028, 0x2029, 0x202f, 0x205f, 0x3000]

/-- `core` is the text without the blanks around it. -/
def Stripped (text core : Str) : Prop :=
  ∃ pre post, text = pre ++ core ++ post ∧ (∀ c ∈ pre, Blank c) ∧ (∀ c ∈ post, Blank c) ∧
    (∀ c ∈ core.head?, ¬ Blank c) ∧ (∀ c ∈ core.getLast?, ¬ Blank c)

/-- One character of a tvalue: what is not a word character, dot, hyphen or colon becomes an
underscore. -/
def SafeChar (isWord : Char → Bool) (c d : Char) : Prop :=
  (isWord c = true ∨ c = '.' ∨ c = '-' ∨ c = ':') ∧ d = c ∨
    ¬ (isWord c = true ∨ c = '.' ∨ c = '-' ∨ c = ':') ∧ d = '_'

/-- `t` is the tvalue of the text: at most 40 characters of the stripped text, made safe. -/
def IsTvalue (isWord : Char → Bool) (text t : Str) : Prop :=
  ∃ core, Stripped text core ∧ List.Forall₂ (SafeChar isWord) (core.take 40) t

/-- A declaration of a storage root or of an object: `ocfl_` or `ocfl_object_` and two numbers
with a dot between them, in decimal digits of any script; a newline at the end is overlooked. -/
def Declares (kind t : Str) : Prop :=
  ∃ a b nl, t = kind ++ a ++ '.' :: b ++ nl ∧ a ≠ [] ∧ b ≠ [] ∧ (∀ c ∈ a, isDigit c = true) ∧
    (∀ c ∈ b, isDigit c = true) ∧ (nl = [] ∨ nl = ['\n'])

end Spec
end Ocfl
