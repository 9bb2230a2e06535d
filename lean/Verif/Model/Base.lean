/-!
# Outcomes of Rust calls

A Rust function returns a value, returns an error (`Result::Err`), or panics. The three are kept apart.
-/

namespace Verif

/-- Outcome of a Rust call returning `Result<α, ε>`: the value, the error, or a panic (with its message).
Models Rust's `Result` plus unwinding; no particular file. No counterpart in a particular place of the repo. -/
inductive Res (ε α : Type) where
  | ok (a : α)
  | err (e : ε)
  | panic (msg : String)
deriving DecidableEq, Repr

namespace Res

/-- Sequencing (`?` in Rust, and unwinding through the caller). No counterpart in a particular place of the repo: part of the language. -/
def bind {ε α β : Type} : Res ε α → (α → Res ε β) → Res ε β
  | ok a, f => f a
  | err e, _ => err e
  | panic m, _ => panic m

/-- Did the call return normally? No counterpart in the code. -/
def isOk {ε α : Type} : Res ε α → Bool
  | ok _ => true
  | _ => false

/-- Did the call panic? No counterpart in the code. -/
def isPanic {ε α : Type} : Res ε α → Bool
  | panic _ => true
  | _ => false

end Res
end Verif
