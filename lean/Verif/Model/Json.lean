import Verif.Model.LogFile

/-!
# The bytes of the log: JSON lines

`serde_json` 1.0 and the code `serde` derives for `LogEntry` (logfile2.rs:18-76) are external or generated; they are
modelled here from their documentation. A text is a list of characters, a file a list of bytes.

Simplified: the parser has no limit on nesting (serde_json: 128; an entry has depth at most 5), and numbers with a fraction
or exponent are recognised but have no value (no field of an entry may be one). In fields the derived code skips serde_json
also accepts halves of surrogate pairs; here they are refused everywhere.
-/

namespace Verif.Json
open Verif

/-- JSON values; `real`: a number that is no integer (or is written as one with fraction or exponent, or is `-0`).
Crate serde_json (`Value`). -/
inductive Json where
  | null
  | bool (b : Bool)
  | int (i : Int)
  | real
  | str (s : String)
  | arr (l : List Json)
  | obj (l : List (String × Json))

/-! ## Printing (`serde_json::to_writer`, logfile2.rs:274) -/

/-- Decimal digit. Crate itoa, no counterpart in the repo. -/
def digit (n : Nat) : Char := Char.ofNat (48 + n)

/-- Decimal digits of a number (crate `itoa`). -/
def decimal (n : Nat) : List Char := if n < 10 then [digit n] else decimal (n / 10) ++ [digit (n % 10)]
termination_by n
decreasing_by omega

/-- Lower case hexadecimal digit. Crate serde_json. -/
def hexDigit (n : Nat) : Char := if n < 10 then Char.ofNat (48 + n) else Char.ofNat (87 + n)

/-- `format_escaped_str_contents` (serde_json, `ESCAPE` table): one character of a string. -/
def escape (c : Char) : List Char :=
  if c = '"' then ['\\', '"']
  else if c = '\\' then ['\\', '\\']
  else if c = '\n' then ['\\', 'n']
  else if c = '\r' then ['\\', 'r']
  else if c = '\t' then ['\\', 't']
  else if c = Char.ofNat 8 then ['\\', 'b']
  else if c = Char.ofNat 12 then ['\\', 'f']
  else if c.toNat < 32 then ['\\', 'u', '0', '0', hexDigit (c.toNat / 16), hexDigit (c.toNat % 16)]
  else [c]

/-- A string in quotes (`format_escaped_str`, serde_json). -/
def quoted (s : String) : List Char := '"' :: s.toList.flatMap escape ++ ['"']

/-- Separate by commas (`CompactFormatter`, serde_json). -/
def commas : List (List Char) → List Char
  | [] => []
  | [x] => x
  | x :: y :: l => x ++ ',' :: commas (y :: l)

/-- Integers (crate `itoa`). -/
def printInt (i : Int) : List Char := if i < 0 then '-' :: decimal i.natAbs else decimal i.natAbs

mutual
/-- `serde_json::to_writer` without white space (`CompactFormatter`); `real` is never printed here. -/
def print : Json → List Char
  | .null => "null".toList
  | .bool b => if b then "true".toList else "false".toList
  | .int i => printInt i
  | .real => "0.5".toList
  | .str s => quoted s
  | .arr l => '[' :: commas (printList l) ++ [']']
  | .obj l => '{' :: commas (printFields l) ++ ['}']
/-- Elements of an array. Crate serde_json. -/
def printList : List Json → List (List Char)
  | [] => []
  | v :: l => print v :: printList l
/-- Fields of an object. Crate serde_json. -/
def printFields : List (String × Json) → List (List Char)
  | [] => []
  | (k, v) :: l => (quoted k ++ ':' :: print v) :: printFields l
end

/-! ## Parsing (`serde_json::from_str`, logfile2.rs:315, 584) -/

/-- White space of JSON. Crate serde_json. -/
def isWs (c : Char) : Bool := c == ' ' || c == '\n' || c == '\t' || c == '\r'

/-- Skip white space (`parse_whitespace`, serde_json). -/
def skipWs (cs : List Char) : List Char := cs.dropWhile isWs

/-- Value of a hexadecimal digit (`decode_hex_val`, serde_json). -/
def hexVal (c : Char) : Option Nat :=
  if 48 ≤ c.toNat ∧ c.toNat ≤ 57 then some (c.toNat - 48)
  else if 97 ≤ c.toNat ∧ c.toNat ≤ 102 then some (c.toNat - 87)
  else if 65 ≤ c.toNat ∧ c.toNat ≤ 70 then some (c.toNat - 55)
  else none

/-- The one-character escapes (`parse_escape`, serde_json). -/
def unescape (c : Char) : Option Char :=
  if c = '"' then some '"'
  else if c = '\\' then some '\\'
  else if c = '/' then some '/'
  else if c = 'b' then some (Char.ofNat 8)
  else if c = 'f' then some (Char.ofNat 12)
  else if c = 'n' then some '\n'
  else if c = 'r' then some '\r'
  else if c = 't' then some '\t'
  else none

/-- Where the parser of strings is: in the text; after a backslash; having read `k` hexadecimal digits with value `n`,
after the leading surrogate `hi`, if any; between the halves of a surrogate pair (`parse_str`, `parse_unicode_escape`,
serde_json). -/
inductive StrSt where
  | text
  | esc
  | hex (k n : Nat) (hi : Option Nat)
  | pair1 (hi : Nat)
  | pair2 (hi : Nat)
deriving DecidableEq, Repr

/-- What four hexadecimal digits with value `n` mean: a character, the first half of a pair, or an error. Crate serde_json. -/
def unit (n : Nat) (hi : Option Nat) : Option (Char ⊕ Nat) :=
  match hi with
  | none =>
    if 0xD800 ≤ n ∧ n < 0xDC00 then some (.inr n)
    else if 0xDC00 ≤ n ∧ n < 0xE000 then none
    else some (.inl (Char.ofNat n))
  | some h =>
    if 0xDC00 ≤ n ∧ n < 0xE000 then some (.inl (Char.ofNat (0x10000 + (h - 0xD800) * 1024 + (n - 0xDC00)))) else none

/-- A string after its opening quote (`parse_str`, serde_json). -/
def stringGo : StrSt → List Char → Option (List Char × List Char)
  | _, [] => none
  | .text, c :: cs =>
    if c = '"' then some ([], cs)
    else if c = '\\' then stringGo .esc cs
    else if c.toNat < 32 then none
    else (stringGo .text cs).map (fun r => (c :: r.1, r.2))
  | .esc, c :: cs =>
    if c = 'u' then stringGo (.hex 0 0 none) cs
    else
      match unescape c with
      | some x => (stringGo .text cs).map (fun r => (x :: r.1, r.2))
      | none => none
  | .hex k n hi, c :: cs =>
    match hexVal c with
    | some d =>
      if k < 3 then stringGo (.hex (k + 1) (n * 16 + d) hi) cs
      else
        match unit (n * 16 + d) hi with
        | some (.inl x) => (stringGo .text cs).map (fun r => (x :: r.1, r.2))
        | some (.inr h) => stringGo (.pair1 h) cs
        | none => none
    | none => none
  | .pair1 hi, c :: cs => if c = '\\' then stringGo (.pair2 hi) cs else none
  | .pair2 hi, c :: cs => if c = 'u' then stringGo (.hex 0 0 (some hi)) cs else none

/-- Is it a decimal digit? Crate serde_json. -/
def isDigit (c : Char) : Bool := decide (48 ≤ c.toNat ∧ c.toNat ≤ 57)

/-- Value of decimal digits. Crate serde_json. -/
def ofDigits (ds : List Char) : Nat := ds.foldl (fun n c => n * 10 + (c.toNat - 48)) 0

/-- At least one digit; also tells whether there was more (`parse_decimal`, `parse_exponent`, serde_json). -/
def digits1 (cs : List Char) : Option (List Char × List Char) :=
  if cs.takeWhile isDigit = [] then none else some (cs.takeWhile isDigit, cs.dropWhile isDigit)

/-- Fraction, if any (`parse_decimal`). Crate serde_json. -/
def fraction : List Char → Option (Bool × List Char)
  | [] => some (false, [])
  | c :: cs => if c = '.' then (digits1 cs).map (fun r => (true, r.2)) else some (false, c :: cs)

/-- A sign, if any. Crate serde_json. -/
def sign : List Char → List Char
  | [] => []
  | c :: cs => if c = '+' ∨ c = '-' then cs else c :: cs

/-- Exponent, if any (`parse_exponent`). Crate serde_json. -/
def exponent : List Char → Option (Bool × List Char)
  | [] => some (false, [])
  | c :: cs => if c = 'e' ∨ c = 'E' then (digits1 (sign cs)).map (fun r => (true, r.2)) else some (false, c :: cs)

/-- A number without its sign (`parse_integer`, serde_json): no leading zeros. -/
def unsigned (neg : Bool) (cs : List Char) : Option (Json × List Char) :=
  (digits1 cs).bind (fun d =>
    if d.1.head? = some '0' ∧ d.1.length > 1 then none
    else
      (fraction d.2).bind (fun f =>
        (exponent f.2).map (fun e =>
          (if f.1 || e.1 || (neg && ofDigits d.1 == 0) then .real
            else .int (if neg then -(ofDigits d.1 : Int) else ofDigits d.1), e.2))))

/-- A number (`parse_any_number`, serde_json). -/
def number : List Char → Option (Json × List Char)
  | [] => none
  | c :: cs => if c = '-' then unsigned true cs else unsigned false (c :: cs)

/-- `parse_ident` (serde_json): `w` must come next. -/
def word (w : List Char) (v : Json) (cs : List Char) : Option (Json × List Char) :=
  if w.isPrefixOf cs then some (v, cs.drop w.length) else none

mutual
/-- `parse_value` (serde_json); `fuel` bounds the number of nested and subsequent calls. -/
def value : Nat → List Char → Option (Json × List Char)
  | 0, _ => none
  | fuel + 1, cs =>
    match skipWs cs with
    | [] => none
    | c :: r =>
      if c = '"' then (stringGo .text r).map (fun x => (.str (String.ofList x.1), x.2))
      else if c = '[' then
        match skipWs r with
        | [] => none
        | d :: r' => if d = ']' then some (.arr [], r') else (elems fuel (d :: r')).map (fun x => (.arr x.1, x.2))
      else if c = '{' then
        match skipWs r with
        | [] => none
        | d :: r' => if d = '}' then some (.obj [], r') else (fields fuel (d :: r')).map (fun x => (.obj x.1, x.2))
      else if c = 'n' then word "null".toList .null (c :: r)
      else if c = 't' then word "true".toList (.bool true) (c :: r)
      else if c = 'f' then word "false".toList (.bool false) (c :: r)
      else number (c :: r)
/-- Elements of an array up to the bracket, at least one (`SeqAccess`, serde_json). -/
def elems : Nat → List Char → Option (List Json × List Char)
  | 0, _ => none
  | fuel + 1, cs =>
    (value fuel cs).bind (fun v =>
      match skipWs v.2 with
      | [] => none
      | c :: r =>
        if c = ']' then some ([v.1], r)
        else if c = ',' then (elems fuel r).map (fun x => (v.1 :: x.1, x.2))
        else none)
/-- Fields of an object up to the brace, at least one (`MapAccess`, serde_json). -/
def fields : Nat → List Char → Option (List (String × Json) × List Char)
  | 0, _ => none
  | fuel + 1, cs =>
    match skipWs cs with
    | [] => none
    | q :: r0 =>
      if q = '"' then
        (stringGo .text r0).bind (fun k =>
          match skipWs k.2 with
          | [] => none
          | col :: r1 =>
            if col = ':' then
              (value fuel r1).bind (fun v =>
                match skipWs v.2 with
                | [] => none
                | c :: r =>
                  if c = '}' then some ([(String.ofList k.1, v.1)], r)
                  else if c = ',' then (fields fuel r).map (fun x => ((String.ofList k.1, v.1) :: x.1, x.2))
                  else none)
            else none)
      else none
end

/-- `serde_json::from_str` to a JSON value: nothing but white space may follow (`Deserializer::end`). -/
def parse (cs : List Char) : Option Json :=
  (value (cs.length + 1) cs).bind (fun r => if skipWs r.2 = [] then some r.1 else none)

/-! ## Entries as JSON values: the derived `Serialize` and `Deserialize` (logfile2.rs:18-76) -/

/-- `SystemTime` (serde). -/
def timeJ (t : SysTime) : Json := .obj [("secs_since_epoch", .int t.secs), ("nanos_since_epoch", .int t.nanos)]

/-- `Vec<String>` (serde; logfile2.rs:28-76). -/
def strsJ (l : List String) : Json := .arr (l.map .str)

/-- `ValueMaps` (logfile2.rs:15). -/
def valuesJ (l : List (List (String × String))) : Json := .arr (l.map (fun m => .obj (m.map (fun kv => (kv.1, .str kv.2)))))

/-- The derived `Serialize` of `LogEntry` (logfile2.rs:18-76), with the rename of `storage_root` (49). -/
def toJson : LogEntry → Json
  | .header h => .obj [("Header", .obj [("version", .int h.version), ("time", timeJ h.time), ("user", .str h.user),
      ("hostname", .str h.hostname), ("workflow_key", .str h.workflowKey), ("cmdline", strsJ h.cmdline),
      ("workdir", .str h.workdir), ("pid", .int h.pid), ("storage_roots", strsJ h.storageRoots)])]
  | .ready r => .obj [("Ready", .obj [("time", timeJ r.time), ("key", .str r.key), ("runcount", .int r.runcount),
      ("command", .str r.command), ("r", .int r.storageRoot)])]
  | .started s => .obj [("Started", .obj [("time", timeJ s.time), ("key", .str s.key), ("host", .str s.host),
      ("pid", .int s.pid), ("slurm_jobid", .str s.slurmJobid)])]
  | .finished f => .obj [("Finished", .obj [("time", timeJ f.time), ("key", .str f.key), ("status", .int f.status),
      ("values", valuesJ f.values)])]
  | .backref b => .obj [("Backref", .obj [("key", .str b.key)])]

/-- The value of the field `n`, if there; `none`: the field occurs twice (an error in derived code) (serde; logfile2.rs:18-76). -/
def field (l : List (String × Json)) (n : String) : Option (Option Json) :=
  match l.filter (fun x => x.1 == n) with
  | [] => some none
  | [x] => some (some x.2)
  | _ => none

/-- The fields of a struct (derived `visit_map` and `visit_seq`): an object, of which other fields are skipped, or refused
if `strict`, or an array of at most as many elements (serde; logfile2.rs:18-76). -/
def args (strict : Bool) (names : List String) : Json → Option (List (Option Json))
  | .obj l =>
    if strict && l.any (fun x => !names.contains x.1) then none else names.mapM (field l)
  | .arr l => if l.length > names.length then none else some ((List.range names.length).map (fun i => l[i]?))
  | _ => none

/-- A string (serde; logfile2.rs:28-76). -/
def asStr : Json → Option String
  | .str s => some s
  | _ => none

/-- An integer at least `lo` and less than `hi` (serde; logfile2.rs:28-76). -/
def asInt (lo hi : Int) : Json → Option Int
  | .int i => if lo ≤ i ∧ i < hi then some i else none
  | _ => none

/-- `u32`. -/
def asU32 (j : Json) : Option Nat := (asInt 0 4294967296 j).map Int.toNat

/-- `Vec<String>` (serde; logfile2.rs:28-41). -/
def asStrs : Json → Option (List String)
  | .arr l => l.mapM asStr
  | _ => none

/-- Insert into a `HashMap`, given by its list of entries. Standard library, no counterpart in the repo. -/
def put (m : List (String × String)) (kv : String × String) : List (String × String) :=
  m.filter (fun x => x.1 != kv.1) ++ [kv]

/-- `HashMap<String, String>`: later entries replace earlier ones (serde; logfile2.rs:65-71). -/
def asMap : Json → Option (List (String × String))
  | .obj l => (l.mapM (fun kv => (asStr kv.2).map (fun v => (kv.1, v)))).map (fun m => m.foldl put [])
  | _ => none

/-- `ValueMaps` (serde; logfile2.rs:65-71). -/
def asMaps : Json → Option (List (List (String × String)))
  | .arr l => l.mapM asMap
  | _ => none

/-- Nanoseconds are carried over to the seconds, which must fit `i64` (`check_overflow`, serde; `SystemTime::checked_add`). -/
def carry (s n : Nat) : Option SysTime :=
  if s + n / 1000000000 < 9223372036854775808 then some ⟨s + n / 1000000000, n % 1000000000⟩ else none

/-- `SystemTime` (serde): other fields are refused. -/
def asTime (j : Json) : Option SysTime :=
  (args true ["secs_since_epoch", "nanos_since_epoch"] j).bind (fun a =>
    match a with
    | [some x, some y] =>
      (asInt 0 18446744073709551616 x).bind (fun s => (asInt 0 4294967296 y).bind (fun n => carry s.toNat n.toNat))
    | _ => none)

/-- A field with `#[serde(default)]`. -/
def orDefault {α : Type} (d : α) (f : Json → Option α) : Option Json → Option α
  | none => some d
  | some j => f j

/-- `HeaderEntry` (logfile2.rs:27-40). -/
def asHeader (j : Json) : Option HeaderEntry :=
  (args false ["version", "time", "user", "hostname", "workflow_key", "cmdline", "workdir", "pid", "storage_roots"] j).bind (fun a =>
    match a with
    | [some v, some t, some u, some h, some k, some c, some w, some p, r] => do
      let v ← asU32 v
      let t ← asTime t
      let u ← asStr u
      let h ← asStr h
      let k ← asStr k
      let c ← asStrs c
      let w ← asStr w
      let p ← asU32 p
      let r ← orDefault [] asStrs r
      return ⟨v, t, u, h, k, c, w, p, r⟩
    | _ => none)

/-- `ReadyEntry` (logfile2.rs:42-51). -/
def asReady (j : Json) : Option ReadyEntry :=
  (args false ["time", "key", "runcount", "command", "r"] j).bind (fun a =>
    match a with
    | [some t, some k, some n, some c, r] => do
      let t ← asTime t
      let k ← asStr k
      let n ← asU32 n
      let c ← asStr c
      let r ← orDefault 0 asU32 r
      return ⟨t, k, n, c, r⟩
    | _ => none)

/-- `StartedEntry` (logfile2.rs:53-62). -/
def asStarted (j : Json) : Option StartedEntry :=
  (args false ["time", "key", "host", "pid", "slurm_jobid"] j).bind (fun a =>
    match a with
    | [some t, some k, some h, some p, s] => do
      let t ← asTime t
      let k ← asStr k
      let h ← asStr h
      let p ← asU32 p
      let s ← orDefault "" asStr s
      return ⟨t, k, h, p, s⟩
    | _ => none)

/-- `FinishedEntry` (logfile2.rs:64-71). -/
def asFinished (j : Json) : Option FinishedEntry :=
  (args false ["time", "key", "status", "values"] j).bind (fun a =>
    match a with
    | [some t, some k, some s, v] => do
      let t ← asTime t
      let k ← asStr k
      let s ← asInt (-2147483648) 2147483648 s
      let v ← orDefault [] asMaps v
      return ⟨t, k, s, v⟩
    | _ => none)

/-- `BackrefEntry` (logfile2.rs:73-76). -/
def asBackref (j : Json) : Option BackrefEntry :=
  (args false ["key"] j).bind (fun a =>
    match a with
    | [some k] => (asStr k).map (fun k => ⟨k⟩)
    | _ => none)

/-- The derived `Deserialize` of `LogEntry` (logfile2.rs:18-25): an object with the variant as its only field. -/
def ofJson : Json → Option LogEntry
  | .obj [(n, j)] =>
    if n = "Header" then (asHeader j).map .header
    else if n = "Ready" then (asReady j).map .ready
    else if n = "Started" then (asStarted j).map .started
    else if n = "Finished" then (asFinished j).map .finished
    else if n = "Backref" then (asBackref j).map .backref
    else none
  | _ => none

/-- The text of an entry (`serde_json::to_writer`, logfile2.rs:274). -/
def entryText (e : LogEntry) : List Char := print (toJson e)

/-- `serde_json::from_str` (logfile2.rs:315, 584). -/
def fromStr (cs : List Char) : Option LogEntry := (parse cs).bind ofJson

/-! ## The file -/

/-- UTF-8. Standard library, no counterpart in the repo. -/
def utf8 (cs : List Char) : List UInt8 := cs.flatMap String.utf8EncodeChar

/-- UTF-8 validation and decoding (`String::from_utf8`, inside `read_line`). Standard library, no counterpart in the repo. -/
def unutf8 (bs : List UInt8) : Option (List Char) := (String.fromUTF8? bs.toByteArray).map String.toList

/-- What `write` appends (logfile2.rs:274-275). -/
def lineBytes (e : LogEntry) : List UInt8 := utf8 (entryText e) ++ [10]

/-- The lines as `read_line` returns them, with their newlines (logfile2.rs:309, 578); `l` is the line so far. -/
def linesGo : List UInt8 → List UInt8 → List (List UInt8)
  | l, [] => if l = [] then [] else [l]
  | l, b :: bs => if b = 10 then (l ++ [b]) :: linesGo [] bs else linesGo (l ++ [b]) bs

/-- The lines of a file. `BufRead::read_line` (logfile2.rs:307-314, 576-583). -/
def rawLines (bs : List UInt8) : List (List UInt8) := linesGo [] bs

/-- `trim_end_matches(&['\r', '\n'])` (logfile2.rs:313, 582). -/
def trimEnd (cs : List Char) : List Char := (cs.reverse.dropWhile (fun c => c == '\r' || c == '\n')).reverse

/-- Errors of reading a file (logfile2.rs:597-623). -/
inductive ReadError where
  /-- `read_line` fails: a line is not UTF-8 (logfile2.rs:309, 578). -/
  | utf8
  | log (e : LogfileError)
deriving DecidableEq, Repr

/-- The loop of `load_runcounts` (logfile2.rs:307-387) over the lines of the file; also collects the entries (ghost). -/
def loadLines : LoadState → List LogEntry → List (List UInt8) → Res ReadError (LoadState × List LogEntry)
  | st, es, [] => .ok (st, es)
  | st, es, l :: ls =>
    match unutf8 l with
    | none => .err .utf8
    | some cs =>
      match fromStr (trimEnd cs) with
      | none => .err (.log .json)
      | some e =>
        match loadStep st e with
        | .ok st => loadLines st (es ++ [e]) ls
        | .err x => .err (.log x)
        | .panic m => .panic m

/-- `LogFile::new` (logfile2.rs:185-211, 280-293) on the bytes of the file. -/
def openBytes (bs : List UInt8) (dir : String) : Res ReadError LogFile :=
  (loadLines ⟨.empty, none⟩ [] (rawLines bs)).bind (fun r => .ok ⟨r.1.mem, r.2, dir⟩)

/-- The loop of `LogFileSnapshotReader::read` (logfile2.rs:576-591): lines that are no entries are skipped. -/
def readAll : List (List UInt8) → Res ReadError (List LogEntry)
  | [] => .ok []
  | l :: ls =>
    match unutf8 l with
    | none => .err .utf8
    | some cs => (readAll ls).bind (fun es => .ok ((fromStr (trimEnd cs)).toList ++ es))

/-- `LogFileSnapshotReader::read` (logfile2.rs:571-593) on the bytes of the file. -/
def readBytes (bs : List UInt8) : Res ReadError (List LogEntry) := readAll (rawLines bs)

end Verif.Json
