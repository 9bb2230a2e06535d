/-!
# The HTTP messages (`src/httpinterface.rs`), their encoding (crate `postcard` 1.0) and transport (`src/http_extensions`)

`postcard` is an external crate; its wire format (varints, length prefixes, tags) is modelled here from its
specification. LZ4 is a parameter.
-/

namespace Verif.Postcard

/-- An encoder to bytes and a decoder that returns what it has not read (`None`: a decoding error). Crate postcard. -/
structure Codec (α : Type) where
  enc : α → List UInt8
  dec : List UInt8 → Option (α × List UInt8)

/-- Unsigned integers, 7 bits a byte, least significant first (`postcard::varint`). -/
def varint (n : Nat) : List UInt8 :=
  if n < 128 then [UInt8.ofNat n] else UInt8.ofNat (n % 128 + 128) :: varint (n / 128)
termination_by n
decreasing_by omega

/-- Decoding: at most `fuel` further bytes, of which the last may be at most `lastMax` (`try_take_varint_u32` etc.). -/
def unvarint (lastMax : Nat) : Nat → List UInt8 → Option (Nat × List UInt8)
  | _, [] => none
  | 0, _ => none
  | fuel + 1, b :: bs =>
    if b.toNat < 128 then
      if fuel = 0 ∧ b.toNat > lastMax then none else some (b.toNat, bs)
    else (unvarint lastMax fuel bs).map (fun r => (b.toNat - 128 + 128 * r.1, r.2))

/-- `u32`: at most 5 bytes, 4 bits in the last. -/
def u32 : Codec UInt32 where
  enc n := varint n.toNat
  dec bs := (unvarint 15 5 bs).map (fun r => (UInt32.ofNat r.1, r.2))

/-- `u64` and `usize`: at most 10 bytes, 1 bit in the last. -/
def u64 : Codec UInt64 where
  enc n := varint n.toNat
  dec bs := (unvarint 1 10 bs).map (fun r => (UInt64.ofNat r.1, r.2))

/-- Zigzag code of an `i32` (given as integer in its range). -/
def zigzag (i : Int) : Nat := if 0 ≤ i then 2 * i.toNat else 2 * (-i).toNat - 1

/-- Its inverse. Crate postcard. -/
def unzigzag (n : Nat) : Int := if n % 2 = 0 then (n / 2 : Nat) else -((n + 1) / 2 : Nat)

/-- `i32`. -/
def i32 : Codec Int where
  enc i := varint (zigzag i)
  dec bs := (unvarint 15 5 bs).map (fun r => (unzigzag r.1, r.2))

/-- `u8`: the byte. Crate postcard. -/
def u8 : Codec UInt8 where
  enc b := [b]
  dec
    | b :: bs => some (b, bs)
    | [] => none

/-- `bool`. Crate postcard. -/
def bool : Codec Bool where
  enc b := [if b then 1 else 0]
  dec
    | b :: bs => if b = 0 then some (false, bs) else if b = 1 then some (true, bs) else none
    | [] => none

/-- `n` times `c`. Crate postcard. -/
def decN {α : Type} (c : Codec α) : Nat → List UInt8 → Option (List α × List UInt8)
  | 0, bs => some ([], bs)
  | n + 1, bs => (c.dec bs).bind (fun r => (decN c n r.2).map (fun q => (r.1 :: q.1, q.2)))

/-- `Vec<T>`: the length and the elements. Crate postcard. -/
def vec {α : Type} (c : Codec α) : Codec (List α) where
  enc l := varint l.length ++ l.flatMap c.enc
  dec bs := (unvarint 1 10 bs).bind (fun r => decN c r.1 r.2)

/-- `Option<T>`: a tag. Crate postcard. -/
def opt {α : Type} (c : Codec α) : Codec (Option α) where
  enc
    | none => [0]
    | some a => 1 :: c.enc a
  dec
    | b :: bs =>
      if b = 0 then some (none, bs)
      else if b = 1 then (c.dec bs).map (fun r => (some r.1, r.2)) else none
    | [] => none

/-- Tuples and fields of a struct: one after the other. Crate postcard. -/
def pair {α β : Type} (c : Codec α) (d : Codec β) : Codec (α × β) where
  enc x := c.enc x.1 ++ d.enc x.2
  dec bs := (c.dec bs).bind (fun r => (d.dec r.2).map (fun q => ((r.1, q.1), q.2)))

/-- A type coded like another one. Crate postcard. -/
def iso {α β : Type} (f : α → β) (g : β → α) (c : Codec α) : Codec β where
  enc b := c.enc (g b)
  dec bs := (c.dec bs).map (fun r => (f r.1, r.2))

/-- `String`: the length in bytes and the bytes, which must be UTF-8. Crate postcard. -/
def str : Codec String where
  enc s := varint s.toByteArray.size ++ s.toByteArray.data.toList
  dec bs := (unvarint 1 10 bs).bind (fun r => (decN u8 r.1 r.2).bind (fun q =>
    (String.fromUTF8? ⟨q.1.toArray⟩).map (fun s => (s, q.2))))

/-- `OsString` (serde, on Unix): variant number 0 of an enum, and the bytes. -/
def osStr : Codec (List UInt8) where
  enc s := varint 0 ++ (vec u8).enc s
  dec bs := (unvarint 15 5 bs).bind (fun r => if r.1 = 0 then (vec u8).dec r.2 else none)

/-- Insert into a `HashMap`, given by its list of entries. Standard library, no counterpart in the repo. -/
def put {α : Type} (m : List (String × α)) (k : String) (v : α) : List (String × α) :=
  m.filter (fun x => x.1 != k) ++ [(k, v)]

/-- `HashMap<String, T>`: like a vector of pairs; when decoded, later entries replace earlier ones. Crate postcard. -/
def strMap {α : Type} (c : Codec α) : Codec (List (String × α)) :=
  let v := vec (pair str c)
  ⟨v.enc, fun bs => (v.dec bs).map (fun r => (r.1.foldl (fun m kv => put m kv.1 kv.2) [], r.2))⟩

/-! ## The messages (httpinterface.rs:6-121) -/

/-- `Ping` (httpinterface.rs:6-9). -/
structure Ping where
  transactionId : UInt32
deriving DecidableEq, Repr

/-- `StartRequest` (httpinterface.rs:88-92). -/
structure StartRequest where
  runnertypeid : UInt32
  disconnectErrorMessage : String
deriving DecidableEq, Repr

/-- `StartResponse` (httpinterface.rs:94-100); `cmdline` as the bytes of the words. -/
structure StartResponse where
  transactionId : UInt32
  cmdline : List (List UInt8)
  fdInput : Option (Int × List UInt8)
  pingIntervalMsecs : UInt64
deriving DecidableEq, Repr

/-- `BegunRequest` (httpinterface.rs:102-107). -/
structure BegunRequest where
  transactionId : UInt32
  host : String
  pid : UInt32
deriving DecidableEq, Repr

/-- `EndRequest` (httpinterface.rs:109-117). -/
structure EndRequest where
  transactionId : UInt32
  status : Int
  stdout : String
  stderr : String
  values : List (List (String × String))
  startRequest : Option StartRequest
deriving DecidableEq, Repr

/-- `EndResponse` (httpinterface.rs:119-122). -/
structure EndResponse where
  startResponse : Option StartResponse
deriving DecidableEq, Repr

/-- Fields in the order of the struct (httpinterface.rs:6-9). -/
def ping : Codec Ping := iso (fun t => ⟨t⟩) (·.transactionId) u32

/-- Fields in the order of the struct (httpinterface.rs:88-92). -/
def startRequest : Codec StartRequest :=
  iso (fun t => ⟨t.1, t.2⟩) (fun m => (m.runnertypeid, m.disconnectErrorMessage)) (pair u32 str)

/-- Fields in the order of the struct (httpinterface.rs:94-100). -/
def startResponse : Codec StartResponse :=
  iso (fun t => ⟨t.1, t.2.1, t.2.2.1, t.2.2.2⟩) (fun m => (m.transactionId, m.cmdline, m.fdInput, m.pingIntervalMsecs))
    (pair u32 (pair (vec osStr) (pair (opt (pair i32 (vec u8))) u64)))

/-- Fields in the order of the struct (httpinterface.rs:102-107). -/
def begunRequest : Codec BegunRequest :=
  iso (fun t => ⟨t.1, t.2.1, t.2.2⟩) (fun m => (m.transactionId, m.host, m.pid)) (pair u32 (pair str u32))

/-- Fields in the order of the struct (httpinterface.rs:109-117). -/
def endRequest : Codec EndRequest :=
  iso (fun t => ⟨t.1, t.2.1, t.2.2.1, t.2.2.2.1, t.2.2.2.2.1, t.2.2.2.2.2⟩)
    (fun m => (m.transactionId, m.status, m.stdout, m.stderr, m.values, m.startRequest))
    (pair u32 (pair i32 (pair str (pair str (pair (vec (strMap str)) (opt startRequest))))))

/-- Fields in the order of the struct (httpinterface.rs:119-122). -/
def endResponse : Codec EndResponse := iso (fun t => ⟨t⟩) (·.startResponse) (opt startResponse)

/-! ## The transport (src/http_extensions) -/

/-- An HTTP body with the two headers looked at
(http_extensions/axum.rs:85-107, http_extensions/reqwest.rs:20-39, http_extensions/common.rs:32-58). -/
structure Body where
  contentType : Option String
  encoding : Option String
  bytes : List UInt8
deriving DecidableEq, Repr

/-- LZ4 (crate `lzzzz`). -/
structure Lz4 where
  compress : List UInt8 → List UInt8
  decompress : List UInt8 → Option (List UInt8)

/-- Sizes up to this are not compressed (common.rs:7). -/
def small : Nat := 128

/-- Bodies the server accepts, in bytes: the default of `axum` 0.6, which the router (server.rs:567-616) does not change. -/
def bodyLimit : Nat := 2097152

/-- Why a body is refused (http_extensions/axum.rs:28-72). -/
inductive Rejection where
  | unknownCompression | unknownContentType | unspecifiedContentType | decompression | decoding | tooLarge
deriving DecidableEq, Repr

/-- The client's side of a request (reqwest.rs:20-38). Serialisation can not fail for the messages here. -/
def clientEncode {α : Type} (z : Lz4) (c : Codec α) (a : α) : Body :=
  let bytes := c.enc a
  if bytes.length > small then ⟨some "application/postcard", some "lz4", z.compress bytes⟩
  else ⟨some "application/postcard", none, bytes⟩

/-- The server's side of a response (axum.rs:110-135). -/
def serverEncode {α : Type} (z : Lz4) (c : Codec α) (a : α) : Body :=
  let bytes := c.enc a
  if bytes.length < small then ⟨some "application/postcard", none, bytes⟩
  else ⟨some "application/postcard", some "lz4", z.compress bytes⟩

/-- Decoding of a body (reqwest.rs:47-66, axum.rs:85-107; the two agree); `json` decodes `application/json`. -/
def decode {α : Type} (z : Lz4) (c : Codec α) (json : List UInt8 → Option α) (b : Body) : Except Rejection α :=
  let decomp : Except Rejection (List UInt8) :=
    match b.encoding with
    | some e =>
      if e = "lz4" then
        match z.decompress b.bytes with
        | some d => .ok d
        | none => .error .decompression
      else .error .unknownCompression
    | none => .ok b.bytes
  decomp.bind (fun d =>
    match b.contentType with
    | some t =>
      if t = "application/postcard" then
        match c.dec d with
        | some r => .ok r.1
        | none => .error .decoding
      else if t = "application/json" then
        match json d with
        | some a => .ok a
        | none => .error .decoding
      else .error .unknownContentType
    | none => .error .unspecifiedContentType)

/-- The client's side of a response (reqwest.rs:47-66). -/
def clientDecode {α : Type} (z : Lz4) (c : Codec α) (json : List UInt8 → Option α) (b : Body) : Except Rejection α :=
  decode z c json b

/-- The server's side of a request (axum.rs:85-107): the body is first read, up to the limit (88). -/
def serverDecode {α : Type} (z : Lz4) (c : Codec α) (json : List UInt8 → Option α) (b : Body) : Except Rejection α :=
  if b.bytes.length > bodyLimit then .error .tooLarge else decode z c json b

end Verif.Postcard
