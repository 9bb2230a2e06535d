import Verif.Proof.Postcard
import Mathlib.Data.Fintype.BigOperators
import Mathlib.Data.Fintype.Option
import Mathlib.Data.Fintype.Prod

/-!
# C68, C81: HTTP bodies
-/

namespace Verif.Props.Codec
open Verif.Postcard

/-- LZ4 does its job. -/
def Lossless (z : Lz4) : Prop := ∀ b, z.decompress (z.compress b) = some b

/-- Lengths fit into a `usize`. -/
def Fits (s : String) : Prop := s.utf8ByteSize < 2 ^ 64

instance (s : String) : Decidable (Fits s) := inferInstanceAs (Decidable (_ < _))

instance (i : Int) : Decidable (IsI32 i) := inferInstanceAs (Decidable (_ ∧ _))

/-- A map of `values`: the keys are those of a `HashMap`. -/
def MapOk (m : List (String × String)) : Prop := (m.map (·.1)).Nodup ∧ m.length < 2 ^ 64 ∧ ∀ kv ∈ m, Fits kv.1 ∧ Fits kv.2

/-- What can be a `StartRequest`. -/
def StartRequestOk (m : StartRequest) : Prop := Fits m.disconnectErrorMessage

/-- What can be an `EndRequest`. -/
def EndRequestOk (m : EndRequest) : Prop :=
  IsI32 m.status ∧ Fits m.stdout ∧ Fits m.stderr ∧ m.values.length < 2 ^ 64 ∧ (∀ x ∈ m.values, MapOk x) ∧
    ∀ r, m.startRequest = some r → StartRequestOk r

/-- What can be a `StartResponse`. -/
def StartResponseOk (m : StartResponse) : Prop :=
  m.cmdline.length < 2 ^ 64 ∧ (∀ w ∈ m.cmdline, w.length < 2 ^ 64) ∧
    ∀ fd b, m.fdInput = some (fd, b) → IsI32 fd ∧ b.length < 2 ^ 64

theorem ping_good : ping.Good (fun _ => True) := (iso_good u32_good (fun _ => rfl)).mono (fun _ h => h)

theorem startRequest_good : startRequest.Good StartRequestOk :=
  (iso_good (pair_good u32_good str_good) (fun _ => rfl)).mono (fun _ h => ⟨trivial, h⟩)

theorem begunRequest_good : begunRequest.Good (fun m => Fits m.host) :=
  (iso_good (pair_good u32_good (pair_good str_good u32_good)) (fun _ => rfl)).mono (fun _ h => ⟨trivial, h, trivial⟩)

theorem startResponse_good : startResponse.Good StartResponseOk := by
  refine (iso_good (pair_good u32_good (pair_good (vec_good osStr_good) (pair_good (opt_good (pair_good i32_good (vec_good u8_good)))
    u64_good))) (fun _ => rfl)).mono ?_
  intro m h
  obtain ⟨h1, h2, h3⟩ := h
  exact ⟨trivial, ⟨h1, h2⟩, fun x hx => ⟨(h3 x.1 x.2 hx).1, (h3 x.1 x.2 hx).2, fun _ _ => trivial⟩, trivial⟩

theorem endRequest_good : endRequest.Good EndRequestOk := by
  refine (iso_good (pair_good u32_good (pair_good i32_good (pair_good str_good (pair_good str_good
    (pair_good (vec_good (strMap_good str_good)) (opt_good startRequest_good)))))) (fun _ => rfl)).mono ?_
  intro m h
  obtain ⟨h1, h2, h3, h4, h5, h6⟩ := h
  exact ⟨trivial, h1, h2, h3, ⟨h4, h5⟩, h6⟩

theorem endResponse_good : endResponse.Good (fun m => ∀ r, m.startResponse = some r → StartResponseOk r) :=
  (iso_good (opt_good startResponse_good) (fun _ => rfl)).mono (fun _ h => h)

theorem decode_encode {α : Type} {c : Codec α} {V : α → Prop} (hc : c.Good V) {z : Lz4} (hz : Lossless z) {a : α} (ha : V a)
    (json : List UInt8 → Option α) {b : Body}
    (hb : b = ⟨some "application/postcard", some "lz4", z.compress (c.enc a)⟩ ∨ b = ⟨some "application/postcard", none, c.enc a⟩) :
    decode z c json b = .ok a := by
  have := hc a ha []
  rw [List.append_nil] at this
  rcases hb with rfl | rfl
  · simp [decode, hz (c.enc a), this, Except.bind]
  · simp [decode, this, Except.bind]

theorem clientEncode_cases {α : Type} (z : Lz4) (c : Codec α) (a : α) :
    clientEncode z c a = ⟨some "application/postcard", some "lz4", z.compress (c.enc a)⟩ ∨
      clientEncode z c a = ⟨some "application/postcard", none, c.enc a⟩ := by
  unfold clientEncode
  simp only
  split
  · exact .inl rfl
  · exact .inr rfl

theorem serverEncode_cases {α : Type} (z : Lz4) (c : Codec α) (a : α) :
    serverEncode z c a = ⟨some "application/postcard", some "lz4", z.compress (c.enc a)⟩ ∨
      serverEncode z c a = ⟨some "application/postcard", none, c.enc a⟩ := by
  unfold serverEncode
  simp only
  split
  · exact .inr rfl
  · exact .inl rfl

/-- The server reads message `m` of the client as it was sent, if the body is not too long. -/
def RequestOk {α : Type} (z : Lz4) (c : Codec α) (m : α) : Prop :=
  (clientEncode z c m).bytes.length ≤ bodyLimit → ∀ json, serverDecode z c json (clientEncode z c m) = .ok m

/-- The client reads message `m` of the server as it was sent. -/
def ResponseOk {α : Type} (z : Lz4) (c : Codec α) (m : α) : Prop :=
  ∀ json, clientDecode z c json (serverEncode z c m) = .ok m

theorem request_ok {α : Type} {c : Codec α} {V : α → Prop} (hc : c.Good V) {z : Lz4} (hz : Lossless z) {m : α} (hm : V m) :
    RequestOk z c m := by
  intro hl json
  unfold serverDecode
  rw [if_neg (by omega)]
  exact decode_encode hc hz hm json (clientEncode_cases z c m)

/-- **C68 (partial: for bodies of at most 2 MiB, see `long_output_refused_violated`).** Every request of the remote runner is
read by the server as it was sent, small or large, whatever the strings in it are. -/
theorem requests_round_trip_partial {z : Lz4} (hz : Lossless z) :
    (∀ m, RequestOk z ping m) ∧ (∀ m, StartRequestOk m → RequestOk z startRequest m) ∧
    (∀ m : BegunRequest, Fits m.host → RequestOk z begunRequest m) ∧ (∀ m, EndRequestOk m → RequestOk z endRequest m) :=
  ⟨fun _ => request_ok ping_good hz trivial, fun _ h => request_ok startRequest_good hz h,
    fun _ h => request_ok begunRequest_good hz h, fun _ h => request_ok endRequest_good hz h⟩

/-- **C68.** Every response of the server is read by the remote runner as it was sent. -/
theorem responses_round_trip {z : Lz4} (hz : Lossless z) :
    (∀ m, StartResponseOk m → ResponseOk z startResponse m) ∧
    (∀ m : EndResponse, (∀ r, m.startResponse = some r → StartResponseOk r) → ResponseOk z endResponse m) :=
  ⟨fun _ h json => decode_encode startResponse_good hz h json (serverEncode_cases ..),
    fun _ h json => decode_encode endResponse_good hz h json (serverEncode_cases ..)⟩

/-- **C68.** A body with another content type or encoding, or without content type, is refused. -/
theorem unknown_refused {α : Type} (z : Lz4) (c : Codec α) (json : List UInt8 → Option α) (b : Body) (m : α)
    (h : serverDecode z c json b = .ok m) :
    (b.contentType = some "application/postcard" ∨ b.contentType = some "application/json") ∧
      (b.encoding = none ∨ b.encoding = some "lz4") ∧ b.bytes.length ≤ bodyLimit := by
  unfold serverDecode at h
  split at h
  · cases h
  · rename_i hl
    unfold decode at h
    refine ⟨?_, ?_, by omega⟩
    · cases ht : b.contentType with
      | none =>
        cases he : b.encoding with
        | none => simp [ht, he, Except.bind] at h
        | some e =>
          by_cases h1 : e = "lz4"
          · cases hd : z.decompress b.bytes <;> simp [ht, he, h1, hd, Except.bind] at h
          · simp [he, h1, Except.bind] at h
      | some t =>
        by_cases h1 : t = "application/postcard"
        · exact .inl (by rw [h1])
        · by_cases h2 : t = "application/json"
          · exact .inr (by rw [h2])
          · cases he : b.encoding with
            | none => simp [ht, he, h1, h2, Except.bind] at h
            | some e =>
              by_cases h3 : e = "lz4"
              · cases hd : z.decompress b.bytes <;> simp [ht, he, h1, h2, h3, hd, Except.bind] at h
              · simp [he, h3, Except.bind] at h
    · cases he : b.encoding with
      | none => exact .inl rfl
      | some e =>
        by_cases h3 : e = "lz4"
        · exact .inr (by rw [h3])
        · simp [he, h3, Except.bind] at h

/-! ### C161: cut and prolonged messages -/

/-- What the decoder reads does not depend on what follows. -/
def Extends {α : Type} (c : Codec α) : Prop := ∀ bs a r, c.dec bs = some (a, r) → ∀ t, c.dec (bs ++ t) = some (a, r ++ t)

theorem unvarint_extends {m : Nat} : ∀ {f : Nat} {bs r : List UInt8} {n : Nat}, unvarint m f bs = some (n, r) → ∀ t,
    unvarint m f (bs ++ t) = some (n, r ++ t)
  | f, [], r, n, h, t => by cases f <;> simp [unvarint] at h
  | 0, b :: bs, r, n, h, t => by simp [unvarint] at h
  | f + 1, b :: bs, r, n, h, t => by
    simp only [unvarint, List.cons_append] at h ⊢
    split at h
    · rename_i hb
      rw [if_pos hb]
      split at h
      · cases h
      · rename_i hf
        rw [if_neg hf]
        cases h
        rfl
    · rename_i hb
      rw [if_neg hb]
      rw [Option.map_eq_some_iff] at h
      obtain ⟨⟨x, q⟩, hx, e⟩ := h
      cases e
      rw [unvarint_extends hx t]
      rfl

theorem map_extends {α β : Type} {c : Codec α} (hc : Extends c) {enc : β → List UInt8} (f : α → β) :
    Extends ⟨enc, fun bs => (c.dec bs).map (fun r => (f r.1, r.2))⟩ := by
  intro bs a r h t
  simp only [Option.map_eq_some_iff] at h ⊢
  obtain ⟨⟨x, q⟩, hx, e⟩ := h
  cases e
  exact ⟨_, hc _ _ _ hx t, rfl⟩

theorem u32_extends : Extends u32 := by
  intro bs a r h t
  simp only [u32, Option.map_eq_some_iff] at h ⊢
  obtain ⟨⟨x, q⟩, hx, e⟩ := h
  cases e
  exact ⟨_, unvarint_extends hx t, rfl⟩

theorem u64_extends : Extends u64 := by
  intro bs a r h t
  simp only [u64, Option.map_eq_some_iff] at h ⊢
  obtain ⟨⟨x, q⟩, hx, e⟩ := h
  cases e
  exact ⟨_, unvarint_extends hx t, rfl⟩

theorem i32_extends : Extends i32 := by
  intro bs a r h t
  simp only [i32, Option.map_eq_some_iff] at h ⊢
  obtain ⟨⟨x, q⟩, hx, e⟩ := h
  cases e
  exact ⟨_, unvarint_extends hx t, rfl⟩

theorem u8_extends : Extends u8 := by
  intro bs a r h t
  cases bs with
  | nil => cases h
  | cons b bs => cases h; rfl

theorem decN_extends {α : Type} {c : Codec α} (hc : Extends c) : ∀ {n : Nat} {bs r : List UInt8} {l : List α},
    decN c n bs = some (l, r) → ∀ t, decN c n (bs ++ t) = some (l, r ++ t)
  | 0, bs, r, l, h, t => by cases h; rfl
  | n + 1, bs, r, l, h, t => by
    simp only [decN, Option.bind_eq_some_iff, Option.map_eq_some_iff] at h ⊢
    obtain ⟨⟨a, q⟩, ha, ⟨l', q'⟩, hl, e⟩ := h
    cases e
    exact ⟨_, hc _ _ _ ha t, _, decN_extends hc hl t, rfl⟩

theorem vec_extends {α : Type} {c : Codec α} (hc : Extends c) : Extends (vec c) := by
  intro bs a r h t
  simp only [vec, Option.bind_eq_some_iff] at h ⊢
  obtain ⟨⟨n, q⟩, hn, h⟩ := h
  exact ⟨_, unvarint_extends hn t, decN_extends hc h t⟩

theorem opt_extends {α : Type} {c : Codec α} (hc : Extends c) : Extends (opt c) := by
  intro bs a r h t
  cases bs with
  | nil => cases h
  | cons b bs =>
    simp only [opt, List.cons_append] at h ⊢
    split at h
    · rename_i hb; rw [if_pos hb]; cases h; rfl
    · rename_i hb
      rw [if_neg hb]
      split at h
      · rename_i hb'
        rw [if_pos hb']
        rw [Option.map_eq_some_iff] at h
        obtain ⟨⟨x, q⟩, hx, e⟩ := h
        cases e
        rw [hc _ _ _ hx t]
        rfl
      · cases h

theorem pair_extends {α β : Type} {c : Codec α} {d : Codec β} (hc : Extends c) (hd : Extends d) : Extends (pair c d) := by
  intro bs a r h t
  simp only [pair, Option.bind_eq_some_iff, Option.map_eq_some_iff] at h ⊢
  obtain ⟨⟨x, q⟩, hx, ⟨y, q'⟩, hy, e⟩ := h
  cases e
  exact ⟨_, hc _ _ _ hx t, _, hd _ _ _ hy t, rfl⟩

theorem iso_extends {α β : Type} {f : α → β} {g : β → α} {c : Codec α} (hc : Extends c) : Extends (iso f g c) := map_extends hc f

theorem str_extends : Extends str := by
  intro bs a r h t
  simp only [str, Option.bind_eq_some_iff, Option.map_eq_some_iff] at h ⊢
  obtain ⟨⟨n, q⟩, hn, ⟨l, q'⟩, hl, s, hs, e⟩ := h
  cases e
  exact ⟨_, unvarint_extends hn t, _, decN_extends u8_extends hl t, _, hs, rfl⟩

theorem osStr_extends : Extends osStr := by
  intro bs a r h t
  simp only [osStr, Option.bind_eq_some_iff] at h ⊢
  obtain ⟨⟨n, q⟩, hn, h⟩ := h
  refine ⟨_, unvarint_extends hn t, ?_⟩
  simp only at h ⊢
  split at h
  · rename_i h0; rw [if_pos h0]; exact vec_extends u8_extends _ _ _ h t
  · cases h

theorem strMap_extends {α : Type} {c : Codec α} (hc : Extends c) : Extends (strMap c) :=
  map_extends (vec_extends (pair_extends str_extends hc)) _

theorem ping_extends : Extends ping := iso_extends u32_extends
theorem startRequest_extends : Extends startRequest := iso_extends (pair_extends u32_extends str_extends)
theorem startResponse_extends : Extends startResponse :=
  iso_extends (pair_extends u32_extends (pair_extends (vec_extends osStr_extends)
    (pair_extends (opt_extends (pair_extends i32_extends (vec_extends u8_extends))) u64_extends)))
theorem begunRequest_extends : Extends begunRequest := iso_extends (pair_extends u32_extends (pair_extends str_extends u32_extends))
theorem endRequest_extends : Extends endRequest :=
  iso_extends (pair_extends u32_extends (pair_extends i32_extends (pair_extends str_extends (pair_extends str_extends
    (pair_extends (vec_extends (strMap_extends str_extends)) (opt_extends startRequest_extends))))))
theorem endResponse_extends : Extends endResponse := iso_extends (opt_extends startResponse_extends)

/-- Every proper beginning of the uncompressed form of `m` is refused as undecodable, and anything may follow it. -/
def CutRefused {α : Type} (c : Codec α) (m : α) : Prop :=
  (∀ (z : Lz4) (json : List UInt8 → Option α) k, k < (c.enc m).length →
    decode z c json ⟨some "application/postcard", none, (c.enc m).take k⟩ = .error .decoding) ∧
  ∀ (z : Lz4) (json : List UInt8 → Option α) t, decode z c json ⟨some "application/postcard", none, c.enc m ++ t⟩ = .ok m

theorem cut_refused {α : Type} {c : Codec α} {V : α → Prop} (hc : c.Good V) (he : Extends c) {m : α} (hm : V m) : CutRefused c m := by
  refine ⟨fun z json k hk => ?_, fun z json t => ?_⟩
  · have hd : c.dec ((c.enc m).take k) = none := by
      cases h : c.dec ((c.enc m).take k) with
      | none => rfl
      | some x =>
        obtain ⟨a, r⟩ := x
        exfalso
        have h1 := he _ _ _ h ((c.enc m).drop k)
        rw [List.take_append_drop] at h1
        have h2 := hc m hm []
        rw [List.append_nil, h1] at h2
        simp only [Option.some.injEq, Prod.mk.injEq, List.append_eq_nil_iff, List.drop_eq_nil_iff] at h2
        omega
    simp [decode, hd, Except.bind]
  · simp [decode, hc m hm t, Except.bind]

/-- **C161.** No message that was cut short, at whatever byte, is taken for a message; bytes after a message are ignored. -/
theorem cut_messages_refused :
    (∀ m, CutRefused ping m) ∧ (∀ m, StartRequestOk m → CutRefused startRequest m) ∧
    (∀ m : BegunRequest, Fits m.host → CutRefused begunRequest m) ∧ (∀ m, EndRequestOk m → CutRefused endRequest m) ∧
    (∀ m, StartResponseOk m → CutRefused startResponse m) ∧
    (∀ m : EndResponse, (∀ r, m.startResponse = some r → StartResponseOk r) → CutRefused endResponse m) :=
  ⟨fun _ => cut_refused ping_good ping_extends trivial, fun _ h => cut_refused startRequest_good startRequest_extends h,
    fun _ h => cut_refused begunRequest_good begunRequest_extends h, fun _ h => cut_refused endRequest_good endRequest_extends h,
    fun _ h => cut_refused startResponse_good startResponse_extends h, fun _ h => cut_refused endResponse_good endResponse_extends h⟩

/-- **C161.** What is sent compressed: requests of more than 128 bytes, responses of 128 bytes or more. -/
theorem compressed_iff {α : Type} (z : Lz4) (c : Codec α) (m : α) :
    ((clientEncode z c m).encoding = some "lz4" ↔ 128 < (c.enc m).length) ∧
    ((clientEncode z c m).encoding = none ↔ (c.enc m).length ≤ 128) ∧
    ((serverEncode z c m).encoding = some "lz4" ↔ 128 ≤ (c.enc m).length) ∧
    ((serverEncode z c m).encoding = none ↔ (c.enc m).length < 128) := by
  unfold clientEncode serverEncode small
  simp only
  refine ⟨?_, ?_, ?_, ?_⟩ <;> split <;> simp <;> omega

/-- A lossless "compression" exists, so the theorems are not empty. -/
def stored : Lz4 := ⟨fun b => 0 :: b, fun b => match b with | 0 :: b => some b | _ => none⟩

theorem stored_lossless : Lossless stored := fun _ => rfl

/-- A report with negative status, non-ASCII output, two value maps and a next request. -/
def demoEnd : EndRequest :=
  ⟨4000000000, -1, "größe\n", "", [[("a", "1"), ("b", "")], []], some ⟨3, "lost"⟩⟩

theorem demoEnd_ok : EndRequestOk demoEnd := by
  refine ⟨by decide, by decide +kernel, by decide +kernel, by decide, ?_, ?_⟩
  · intro x hx
    simp only [demoEnd, List.mem_cons, List.not_mem_nil, or_false] at hx
    rcases hx with rfl | rfl
    · refine ⟨by decide, by decide, ?_⟩
      intro kv hkv
      simp only [List.mem_cons, List.not_mem_nil, or_false] at hkv
      rcases hkv with rfl | rfl <;> exact ⟨by decide +kernel, by decide +kernel⟩
    · exact ⟨by decide, by decide, by simp⟩
  · intro r hr
    simp only [demoEnd, Option.some.injEq] at hr
    subst hr
    show Fits "lost"
    decide +kernel

/-- It is sent uncompressed and read again. -/
example : (clientEncode stored endRequest demoEnd).encoding = none ∧
    serverDecode stored endRequest (fun _ => none) (clientEncode stored endRequest demoEnd) = .ok demoEnd :=
  ⟨by decide +kernel, (requests_round_trip_partial stored_lossless).2.2.2 _ demoEnd_ok (by decide +kernel) _⟩

/-- Cut after 10 bytes, and with three bytes added. -/
example : decode stored endRequest (fun _ => none) ⟨some "application/postcard", none, (endRequest.enc demoEnd).take 10⟩ = .error .decoding ∧
    decode stored endRequest (fun _ => none) ⟨some "application/postcard", none, endRequest.enc demoEnd ++ [1, 2, 3]⟩ = .ok demoEnd :=
  ⟨(cut_messages_refused.2.2.2.1 _ demoEnd_ok).1 _ _ _ (by decide +kernel), (cut_messages_refused.2.2.2.1 _ demoEnd_ok).2 _ _ _⟩

/-- With more output it is sent compressed and read again. -/
example : (clientEncode stored endRequest { demoEnd with stdout := String.ofList (List.replicate 200 'x') }).encoding = some "lz4" ∧
    serverDecode stored endRequest (fun _ => none)
      (clientEncode stored endRequest { demoEnd with stdout := String.ofList (List.replicate 200 'x') }) =
        .ok { demoEnd with stdout := String.ofList (List.replicate 200 'x') } :=
  ⟨by decide +kernel, by decide +kernel⟩

/-- A response with a non-UTF-8 word and data for a file descriptor. -/
example : clientDecode stored endResponse (fun _ => none) (serverEncode stored endResponse
    ⟨some ⟨7, [[0x66, 0xff], []], some (4, [1, 2, 3]), 15000⟩⟩) = .ok ⟨some ⟨7, [[0x66, 0xff], []], some (4, [1, 2, 3]), 15000⟩⟩ := by
  refine (responses_round_trip stored_lossless).2 _ ?_ _
  intro r hr
  simp only [Option.some.injEq] at hr
  subst hr
  refine ⟨by decide, by decide, ?_⟩
  intro fd b h
  simp only [Option.some.injEq, Prod.mk.injEq] at h
  obtain ⟨rfl, rfl⟩ := h
  exact ⟨by decide, by decide⟩

/-- Refused and accepted bodies. -/
example : serverDecode stored ping (fun _ => none) ⟨some "text/plain", none, [5]⟩ = .error .unknownContentType ∧
    serverDecode stored ping (fun _ => none) ⟨some "application/postcard", some "gzip", [5]⟩ = .error .unknownCompression ∧
    serverDecode stored ping (fun _ => none) ⟨none, none, [5]⟩ = .error .unspecifiedContentType ∧
    serverDecode stored ping (fun _ => none) ⟨some "application/postcard", none, [5]⟩ = .ok ⟨5⟩ ∧
    serverDecode stored ping (fun _ => none) ⟨some "application/postcard", some "lz4", [0, 133, 1]⟩ = .ok ⟨133⟩ := by
  refine ⟨?_, ?_, ?_, ?_, ?_⟩ <;> decide +kernel

/-! ## C81: long output -/

/-- An end report with `n` characters of output, `b` choosing each. -/
def report (n : Nat) (b : Fin n → Bool) : EndRequest :=
  ⟨0, 0, String.ofList ((List.finRange n).map (fun i => if b i then 'a' else 'b')), "", [], none⟩

theorem report_inj {n : Nat} {b b' : Fin n → Bool} (h : report n b = report n b') : b = b' := by
  have h : String.ofList ((List.finRange n).map (fun i => if b i then 'a' else 'b')) =
      String.ofList ((List.finRange n).map (fun i => if b' i then 'a' else 'b')) := by
    have := congrArg EndRequest.stdout h
    exact this
  rw [String.ofList_inj] at h
  funext i
  have := List.map_inj_left.1 h i (List.mem_finRange i)
  cases hb : b i <;> cases hb' : b' i <;> simp [hb, hb'] at this ⊢

theorem size_le (l : List Char) : (String.ofList l).utf8ByteSize ≤ 4 * l.length := by
  induction l with
  | nil => simp
  | cons c l ih =>
    have e : String.ofList (c :: l) = String.singleton c ++ String.ofList l := by
      apply String.toList_injective
      simp
    rw [e, String.utf8ByteSize_append, String.utf8ByteSize_singleton, List.length_cons]
    have := Char.utf8Size_le_four c
    omega

theorem report_ok {n : Nat} (hn : n < 2 ^ 62) (b : Fin n → Bool) : EndRequestOk (report n b) := by
  refine ⟨by simp [report, IsI32], ?_, by simp [report, Fits], by simp [report], by simp [report], by simp [report]⟩
  have := size_le ((List.finRange n).map (fun i => if b i then 'a' else 'b'))
  rw [List.length_map, List.length_finRange] at this
  show (String.ofList _).utf8ByteSize < 2 ^ 64
  omega

/-- The body of a request as seen by a counting argument: compressed or not, and at most `n` bytes. -/
def shape (n : Nat) (b : Body) : Bool × (Fin n → Option (Fin 256)) :=
  (b.encoding.isSome, fun i => (b.bytes[i.val]?).map (·.toFin))

theorem shape_inj {n : Nat} {b b' : Body} (h : shape n b = shape n b') (h1 : b.bytes.length ≤ n) (h2 : b'.bytes.length ≤ n) :
    b.bytes = b'.bytes ∧ b.encoding.isSome = b'.encoding.isSome := by
  simp only [shape, Prod.mk.injEq] at h
  refine ⟨?_, h.1⟩
  apply List.ext_getElem?
  intro i
  by_cases hi : i < n
  · have := congrFun h.2 ⟨i, hi⟩
    simp only at this
    cases hx : b.bytes[i]? <;> cases hy : b'.bytes[i]? <;> simp [hx, hy] at this ⊢
    exact UInt8.toFin_inj.1 this
  · rw [List.getElem?_eq_none (by omega), List.getElem?_eq_none (by omega)]

theorem some_report_is_long {z : Lz4} (hz : Lossless z) (n : Nat) (hn : 2 ≤ n) (hn' : 9 * n < 2 ^ 62) :
    ∃ b, n < (clientEncode z endRequest (report (9 * n) b)).bytes.length := by
  apply Classical.byContradiction
  intro hno
  have hle : ∀ b, (clientEncode z endRequest (report (9 * n) b)).bytes.length ≤ n := by
    intro b
    apply Classical.byContradiction
    intro h
    exact hno ⟨b, by omega⟩
  have inj : Function.Injective (fun b => shape n (clientEncode z endRequest (report (9 * n) b))) := by
    intro b b' h
    obtain ⟨e1, e2⟩ := shape_inj h (hle b) (hle b')
    have e : clientEncode z endRequest (report (9 * n) b) = clientEncode z endRequest (report (9 * n) b') := by
      rcases clientEncode_cases z endRequest (report (9 * n) b) with h1 | h1 <;>
        rcases clientEncode_cases z endRequest (report (9 * n) b') with h2 | h2 <;>
        rw [h1, h2] at e1 e2 ⊢ <;> simp at e1 e2 ⊢ <;> exact e1
    have d1 := decode_encode endRequest_good hz (report_ok hn' b) (fun _ => none) (clientEncode_cases z endRequest (report (9 * n) b))
    have d2 := decode_encode endRequest_good hz (report_ok hn' b') (fun _ => none) (clientEncode_cases z endRequest (report (9 * n) b'))
    rw [e, d2] at d1
    simp only [Except.ok.injEq] at d1
    exact report_inj d1.symm
  have hc := Fintype.card_le_of_injective _ inj
  simp only [Fintype.card_prod, Fintype.card_bool, Fintype.card_pi, Fintype.card_option, Fintype.card_fin, Finset.prod_const,
    Finset.card_univ] at hc
  have h1 : 2 ^ (9 * n) = 512 ^ n := by rw [Nat.pow_mul]
  have h2 : 2 * 257 ^ n < 512 ^ n := by
    obtain ⟨k, rfl⟩ : ∃ k, n = k + 2 := ⟨n - 2, by omega⟩
    have : 257 ^ k ≤ 512 ^ k := Nat.pow_le_pow_left (by omega) k
    rw [Nat.pow_add, Nat.pow_add]
    have h3 : 0 < 512 ^ k := Nat.pow_pos (by omega)
    omega
  rw [show 256 + 1 = 257 from rfl] at hc
  omega

/-- **C81 (violated).** Whatever the compression does: there is an end report with less than 19 million characters of output
which the server refuses because it is too long. -/
theorem long_output_refused_violated {z : Lz4} (hz : Lossless z) : ∃ m, EndRequestOk m ∧ m.stdout.length = 18874368 ∧
    ∀ json, serverDecode z endRequest json (clientEncode z endRequest m) = .error .tooLarge := by
  obtain ⟨b, hb⟩ := some_report_is_long hz bodyLimit (by decide) (by decide)
  refine ⟨_, report_ok (by decide) b, by simp [report, bodyLimit], ?_⟩
  intro json
  unfold serverDecode
  rw [if_pos hb]

example : ∃ m, EndRequestOk m ∧ m.stdout.length = 18874368 ∧
    ∀ json, serverDecode stored endRequest json (clientEncode stored endRequest m) = .error .tooLarge :=
  long_output_refused_violated stored_lossless

end Verif.Props.Codec
