import Verif.Model.Json

/-!
# Bytes that may not be a text, specification side

The Unicode standard (chapter 3, "U+FFFD substitution of maximal subparts"): what is no character is replaced piece by piece, the pieces being as long as possible.
-/

namespace Verif.Lossy

/-- The bytes are the beginning of a character. -/
def Begins (b : List UInt8) : Prop := ∃ c : Char, b <+: String.utf8EncodeChar c

/-- No character stands at the beginning of `b ++ t`, and `b` is the longest beginning that begins a character, or a single byte. -/
structure Broken (b t : List UInt8) : Prop where
  no_char : ∀ c : Char, ¬ String.utf8EncodeChar c <+: b ++ t
  piece : Begins b ∧ b ≠ [] ∨ b.length = 1
  longest : ∀ b', b' <+: b ++ t → Begins b' → b'.length ≤ b.length

/-- What is shown of the bytes: the characters in them; for each broken piece between them one U+FFFD. -/
inductive Shown : List UInt8 → List Char → Prop
  | nil : Shown [] []
  | char {c : Char} {t : List UInt8} {s : List Char} : Shown t s → Shown (String.utf8EncodeChar c ++ t) (c :: s)
  | broken {b t : List UInt8} {s : List Char} : Broken b t → Shown t s → Shown (b ++ t) ('�' :: s)

end Verif.Lossy
