import Verif.Model.ExecGraph

/-!
# `Cmd::display` (execgraph.rs:117-144)
-/

namespace Verif

/-- The replacement callback over the joined text (execgraph.rs:130-139): backslash-newline becomes a space, a tab
becomes backslash-t; matches are found left to right and do not overlap (`aho_corasick`, execgraph.rs:54-57). -/
def escapeChars : List Char → List Char
  | '\\' :: '\n' :: r => ' ' :: escapeChars r
  | '\t' :: r => '\\' :: 't' :: escapeChars r
  | c :: r => c :: escapeChars r
  | [] => []

/-- The words joined by single spaces (execgraph.rs:121-128); `none` if the result is not UTF-8, which is the case iff
some word is not (a space cannot complete a broken UTF-8 sequence). -/
def joinWords : List OsStr → Option (List Char)
  | [] => some []
  | [.str s] => some s.toList
  | .notUtf8 :: _ => none
  | .str s :: w :: ws => (joinWords (w :: ws)).map (fun r => s.toList ++ ' ' :: r)

/-- `Cmd::display` (execgraph.rs:117-144); `none` is the panic "cmdline must be utf-8". -/
def Cmd.displayText (c : Cmd) : Option String :=
  match c.display with
  | some s => some s
  | none => (joinWords c.cmdline).map (fun cs => String.ofList (escapeChars cs))

end Verif
