/-!
# How a line of a shell is cut into words (specification side)

Quotes, backslashes and comments as in the POSIX shell; no expansion of variables.
-/

namespace Verif.Shell

/-- The text between double quotes, and what it stands for: a backslash protects `$`, a backquote, `"` and itself, before other characters
it stands for itself. -/
inductive Inside : List Char → List Char → Prop
  | nil : Inside [] []
  | char {c s w} : c ≠ '"' → c ≠ '\\' → Inside s w → Inside (c :: s) (c :: w)
  | protect {c s w} : c ∈ ['$', '`', '"', '\\'] → Inside s w → Inside ('\\' :: c :: s) (c :: w)
  | keep {c s w} : c ∉ ['$', '`', '"', '\\'] → Inside s w → Inside ('\\' :: c :: s) ('\\' :: c :: w)

/-- A piece of a word, and what it stands for: a single character, one after a backslash, a text in single or in double quotes. -/
inductive Piece : List Char → List Char → Prop
  | char {c} : c ∉ ['\'', '"', '\\', ' ', '\t'] → Piece [c] [c]
  | protect (c) : Piece ['\\', c] [c]
  | single {w} : '\'' ∉ w → Piece ('\'' :: w ++ ['\'']) w
  | double {s w} : Inside s w → Piece ('"' :: s ++ ['"']) w

/-- `Reads false s ws`: the line `s` (or what is left of it, between words) has the words `ws`. `Reads true s (v :: ws)`: what is left of it
within a word has the end `v` of that word and the further words `ws`. -/
inductive Reads : Bool → List Char → List (List Char) → Prop
  | nil : Reads false [] []
  | blank {c s ws} : c = ' ' ∨ c = '\t' → Reads false s ws → Reads false (c :: s) ws
  | comment (s) : Reads false ('#' :: s) []
  | word {c s ws} : c ∉ [' ', '\t', '#'] → Reads true (c :: s) ws → Reads false (c :: s) ws
  | ends : Reads true [] [[]]
  | sep {c s ws} : c = ' ' ∨ c = '\t' → Reads false s ws → Reads true (c :: s) ([] :: ws)
  | piece {p x s v ws} : Piece p x → Reads true s (v :: ws) → Reads true (p ++ s) ((x ++ v) :: ws)
  /-- A backslash at the very end stands for itself. -/
  | last : Reads true ['\\'] [['\\']]

end Verif.Shell
