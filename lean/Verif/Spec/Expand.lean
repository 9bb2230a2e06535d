/-!
# Expansion of `%` patterns (specification side)
-/

namespace Verif.Expand

/-- All patterns at once: `%c` is replaced by the value of `c` if it has one; everything else stays. -/
def expand (value : Char → Option (List Char)) : List Char → List Char
  | [] => []
  | [x] => [x]
  | x :: y :: s =>
    if x = '%' then
      match value y with
      | some v => v ++ expand value s
      | none => x :: expand value (y :: s)
    else x :: expand value (y :: s)

/-- No `%%` in the text. -/
def NoDouble (s : List Char) : Prop := ∀ a b, s ≠ a ++ '%' :: '%' :: b

end Verif.Expand
