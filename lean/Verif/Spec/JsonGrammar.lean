import Verif.Model.Json

/-!
# The grammar of JSON (RFC 8259), specification side

Which texts are JSON, and which value they denote, without saying how to find out. Differences from the RFC: halves of
surrogate pairs may not occur alone in a string (RFC 8259 leaves open what becomes of them; serde_json refuses them), and of a
number with fraction or exponent, and of `-0`, only the fact is noted (`Json.real`).
-/

namespace Verif.Json

/-- White space (RFC 8259, section 2). -/
def Ws (w : List Char) : Prop := ∀ c ∈ w, c ∈ [' ', '\t', '\n', '\r']

/-- A hexadecimal digit and its value, in either case. -/
def HexIs (c : Char) (n : Nat) : Prop :=
  "0123456789abcdef".toList[n]? = some c ∨ "0123456789ABCDEF".toList[n]? = some c

/-- Four hexadecimal digits and their value. -/
inductive Hex4 : List Char → Nat → Prop
  | mk {a b c d : Char} {i j k l : Nat} : HexIs a i → HexIs b j → HexIs c k → HexIs d l →
      Hex4 [a, b, c, d] (((i * 16 + j) * 16 + k) * 16 + l)

/-- The one-letter escapes (RFC 8259, section 7). -/
def shortEscapes : List (Char × Char) :=
  [('"', '"'), ('\\', '\\'), ('/', '/'), ('b', '\x08'), ('f', '\x0c'), ('n', '\n'), ('r', '\r'), ('t', '\t')]

/-- The characters between the quotes, and the string they mean (RFC 8259, section 7). -/
inductive Chars : List Char → List Char → Prop
  | nil : Chars [] []
  | plain {c : Char} {t s : List Char} : c ≠ '"' → c ≠ '\\' → 32 ≤ c.toNat → Chars t s → Chars (c :: t) (c :: s)
  | short {e c : Char} {t s : List Char} : (e, c) ∈ shortEscapes → Chars t s → Chars ('\\' :: e :: t) (c :: s)
  | code {h t s : List Char} {n : Nat} : Hex4 h n → (n < 0xD800 ∨ 0xE000 ≤ n) → Chars t s →
      Chars ('\\' :: 'u' :: (h ++ t)) (Char.ofNat n :: s)
  | pair {h l t s : List Char} {m n : Nat} : Hex4 h m → 0xD800 ≤ m → m < 0xDC00 → Hex4 l n → 0xDC00 ≤ n → n < 0xE000 → Chars t s →
      Chars ('\\' :: 'u' :: (h ++ '\\' :: 'u' :: (l ++ t))) (Char.ofNat (0x10000 + (m - 0xD800) * 0x400 + (n - 0xDC00)) :: s)

/-- One or more decimal digits. -/
def Digits (ds : List Char) : Prop := ds ≠ [] ∧ ∀ c ∈ ds, c ∈ "0123456789".toList

/-- Decimal digits and their value, read from the left (`v`: of what was read before). -/
inductive Decimal : Nat → List Char → Nat → Prop
  | nil {v : Nat} : Decimal v [] v
  | cons {v d n : Nat} {c : Char} {ds : List Char} : "0123456789".toList[d]? = some c → Decimal (v * 10 + d) ds n → Decimal v (c :: ds) n

/-- A fraction, if any. -/
def Frac (f : List Char) : Prop := f = [] ∨ ∃ ds, f = '.' :: ds ∧ Digits ds

/-- An exponent, if any. -/
def Exp (e : List Char) : Prop :=
  e = [] ∨ ∃ c s ds, e = c :: (s ++ ds) ∧ (c = 'e' ∨ c = 'E') ∧ (s = [] ∨ s = ['+'] ∨ s = ['-']) ∧ Digits ds

/-- Numbers (RFC 8259, section 6): sign, whole part without leading zeros, fraction, exponent. -/
inductive Num : List Char → Json → Prop
  | nat {i : List Char} {n : Nat} : Digits i → (i.head? = some '0' → i = ['0']) → Decimal 0 i n → Num i (.int n)
  | neg {i : List Char} {n : Nat} : Digits i → i.head? ≠ some '0' → Decimal 0 i n → Num ('-' :: i) (.int (-(n : Int)))
  | negZero : Num ['-', '0'] .real
  | real {m i f e : List Char} : (m = [] ∨ m = ['-']) → Digits i → (i.head? = some '0' → i = ['0']) → Frac f → Exp e →
      (f ≠ [] ∨ e ≠ []) → Num (m ++ i ++ f ++ e) .real

mutual
/-- Values without white space around them (RFC 8259, section 3). -/
inductive IsValue : List Char → Json → Prop
  | null : IsValue "null".toList .null
  | true_ : IsValue "true".toList (.bool true)
  | false_ : IsValue "false".toList (.bool false)
  | num {t : List Char} {j : Json} : Num t j → IsValue t j
  | str {t s : List Char} : Chars t s → IsValue ('"' :: (t ++ ['"'])) (.str (String.ofList s))
  | empty {w : List Char} : Ws w → IsValue ('[' :: (w ++ [']'])) (.arr [])
  | arr {t : List Char} {l : List Json} : Elems t l → IsValue ('[' :: (t ++ [']'])) (.arr l)
  | none_ {w : List Char} : Ws w → IsValue ('{' :: (w ++ ['}'])) (.obj [])
  | obj {t : List Char} {l : List (String × Json)} : Fields t l → IsValue ('{' :: (t ++ ['}'])) (.obj l)
/-- One or more values, separated by commas (RFC 8259, section 5). -/
inductive Elems : List Char → List Json → Prop
  | one {a t b : List Char} {v : Json} : Ws a → IsValue t v → Ws b → Elems (a ++ t ++ b) [v]
  | more {a t b u : List Char} {v : Json} {l : List Json} : Ws a → IsValue t v → Ws b → Elems u l →
      Elems (a ++ t ++ b ++ ',' :: u) (v :: l)
/-- One or more members, separated by commas (RFC 8259, section 4). -/
inductive Fields : List Char → List (String × Json) → Prop
  | one {a k s b c t d : List Char} {v : Json} : Ws a → Chars k s → Ws b → Ws c → IsValue t v → Ws d →
      Fields (a ++ '"' :: (k ++ '"' :: (b ++ ':' :: (c ++ t ++ d)))) [(String.ofList s, v)]
  | more {a k s b c t d u : List Char} {v : Json} {l : List (String × Json)} : Ws a → Chars k s → Ws b → Ws c → IsValue t v → Ws d →
      Fields u l → Fields (a ++ '"' :: (k ++ '"' :: (b ++ ':' :: (c ++ t ++ d ++ ',' :: u)))) ((String.ofList s, v) :: l)
end

/-- A JSON text (RFC 8259, section 2) and what it denotes. -/
def IsText (cs : List Char) (j : Json) : Prop := ∃ a t b, cs = a ++ t ++ b ∧ Ws a ∧ IsValue t j ∧ Ws b

end Verif.Json
