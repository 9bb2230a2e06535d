import Verif.Proof.Json3
import Verif.Proof.JsonGrammar3

/-!
# C173: the lines of the log are JSON

The grammar is in `Spec/JsonGrammar.lean`.
-/

namespace Verif.Props.JsonGrammar
open Verif Verif.Json

/-- **C173.** A text is read as the value `j` if and only if it is a JSON text denoting `j`. -/
theorem read_iff_json {cs : List Char} {j : Json} : parse cs = some j ↔ IsText cs j := parse_iff

/-- **C173.** A JSON text denotes one value only. -/
theorem one_meaning {cs : List Char} {i j : Json} (hi : IsText cs i) (hj : IsText cs j) : i = j := by
  have h1 := parse_iff.2 hi
  rw [parse_iff.2 hj] at h1
  exact (Option.some.inj h1).symm

/-- **C173.** What `write` appends, whatever strings are in the entry, is a JSON text denoting the entry, in UTF-8, and a newline. -/
theorem written_is_json (e : LogEntry) : ∃ cs, lineBytes e = utf8 cs ++ [10] ∧ IsText cs (toJson e) ∧ ∀ j, IsText cs j → j = toJson e := by
  have h : IsText (entryText e) (toJson e) := parse_iff.1 (parse_print (toJson_plain e))
  exact ⟨entryText e, rfl, h, fun j hj => one_meaning hj h⟩

/-- **C173.** A line is read as an entry if and only if it is a JSON text (and the value it denotes is read as this entry: C91, C160). -/
theorem entry_iff_json {cs : List Char} {e : LogEntry} : fromStr cs = some e ↔ ∃ j, IsText cs j ∧ ofJson j = some e := by
  simp only [fromStr, Option.bind_eq_some_iff, parse_iff]

/-- **C173.** A file one line of which is no JSON text can not be opened. -/
theorem not_json_refused {bs l : List UInt8} {dir : String} {lf : LogFile} (hl : l ∈ rawLines bs)
    (hn : ∀ cs j, unutf8 l = some cs → ¬ IsText (trimEnd cs) j) : openBytes bs dir ≠ .ok lf := by
  have key : ∀ (ls : List (List UInt8)) (st : LoadState) (es : List LogEntry), l ∈ ls → ∀ x, loadLines st es ls ≠ .ok x := by
    intro ls
    induction ls with
    | nil => intro _ _ h; cases h
    | cons a ls ih =>
      intro st es h x hx
      simp only [loadLines] at hx
      split at hx
      · cases hx
      · rename_i cs hcs
        split at hx
        · cases hx
        · rename_i e he
          rcases List.mem_cons.1 h with rfl | h
          · obtain ⟨j, hj, _⟩ := entry_iff_json.1 he
            exact hn cs j hcs hj
          · split at hx
            · exact ih _ _ h _ hx
            · cases hx
            · cases hx
  intro h
  unfold openBytes at h
  cases ho : loadLines ⟨.empty, none⟩ [] (rawLines bs) with
  | ok x => exact key _ _ _ hl _ ho
  | err _ => rw [ho] at h; cases h
  | panic _ => rw [ho] at h; cases h

/-! ### Non-trivial cases -/

/-- White space, escapes with four digits, a surrogate pair, nesting, numbers. -/
def text : List Char := " { \"a\\u00e9\\n\" : [ -12 , 0.5e+3, true ,null ] ,\"\\ud83d\\ude00\":{ } }\r".toList

/-- It denotes the value printed so (of a number with fraction or exponent `0.5` is printed). -/
example : ∃ j, IsText text j ∧ print j = "{\"aé\\n\":[-12,0.5,true,null],\"😀\":{}}".toList := by
  have h : (parse text).map print = some "{\"aé\\n\":[-12,0.5,true,null],\"😀\":{}}".toList := by decide +kernel
  obtain ⟨j, h1, h2⟩ := Option.map_eq_some_iff.1 h
  exact ⟨j, parse_iff.1 h1, h2⟩

/-- Directly from the rules. -/
example : IsText "[7, \"x\"] ".toList (.arr [.int 7, .str "x"]) :=
  ⟨[], "[7, \"x\"]".toList, [' '], rfl, by simp [Ws],
    .arr (t := "7, \"x\"".toList) (.more (a := []) (t := ['7']) (b := []) (u := " \"x\"".toList) (by simp [Ws])
      (.num (.nat ⟨by simp, by decide⟩ (by decide) (.cons (d := 7) rfl .nil))) (by simp [Ws])
      (.one (a := [' ']) (t := "\"x\"".toList) (b := []) (by simp [Ws]) (.str (t := ['x']) (s := ['x']) (.plain (by decide) (by decide) (by decide) .nil))
        (by simp [Ws]))), by simp [Ws]⟩

/-- No JSON: a leading zero, a trailing comma, a raw newline in a string, half a surrogate pair, single quotes, two values, nothing. -/
example : ∀ t ∈ ["01", "[1,]", "\"a\nb\"", "\"\\ud83d\"", "{'a':1}", "1 2", "", " ", "+1", "1.", "tru", "{\"a\"}", "[1", "nullx"], ∀ j, ¬ IsText t.toList j := by
  intro t ht j hj
  have h := parse_iff.2 hj
  have : parse t.toList = none := by
    simp only [List.mem_cons, List.not_mem_nil, or_false] at ht
    rcases ht with rfl | rfl | rfl | rfl | rfl | rfl | rfl | rfl | rfl | rfl | rfl | rfl | rfl | rfl <;> decide +kernel
  rw [this] at h
  cases h

/-- `not_json_refused` applies: the second line was cut. -/
example : ∃ l ∈ rawLines (utf8 "{\"Backref\":{\"key\":\"a\"}}\n{\"Backref\":{\"ke".toList), ∀ cs j, unutf8 l = some cs → ¬ IsText (trimEnd cs) j := by
  refine ⟨utf8 "{\"Backref\":{\"ke".toList, by decide +kernel, fun cs j h hj => ?_⟩
  rw [unutf8_utf8] at h
  cases h
  have h := parse_iff.2 hj
  rw [show parse (trimEnd "{\"Backref\":{\"ke".toList) = none by decide +kernel] at h
  cases h

end Verif.Props.JsonGrammar
