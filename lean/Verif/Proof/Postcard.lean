import Verif.Model.Postcard

/-!
# Round trip of the `postcard` encoding
-/

namespace Verif.Postcard

/-- `c` reads back what it has written, for values with property `V`, whatever follows. -/
def Codec.Good {α : Type} (c : Codec α) (V : α → Prop) : Prop := ∀ a, V a → ∀ r, c.dec (c.enc a ++ r) = some (a, r)

theorem unvarint_varint (lastMax : Nat) (hl : lastMax < 128) (f n : Nat) (hn : n < (lastMax + 1) * 128 ^ f) (r : List UInt8) :
    unvarint lastMax (f + 1) (varint n ++ r) = some (n, r) := by
  induction f generalizing n with
  | zero =>
    rw [varint, if_pos (by omega)]
    have e : (UInt8.ofNat n).toNat = n := by simp; omega
    simp only [List.cons_append, List.nil_append, unvarint, e]
    rw [if_pos (by omega), if_neg (by omega)]
  | succ f ih =>
    rw [varint]
    by_cases h : n < 128
    · rw [if_pos h]
      have e : (UInt8.ofNat n).toNat = n := by simp; omega
      simp only [List.cons_append, List.nil_append, unvarint, e]
      rw [if_pos h, if_neg (by omega)]
    · rw [if_neg h]
      have e : (UInt8.ofNat (n % 128 + 128)).toNat = n % 128 + 128 := by simp; omega
      rw [List.cons_append, unvarint, e, if_neg (by omega), ih]
      · simp only [Option.map_some, Option.some.injEq, Prod.mk.injEq, and_true]
        omega
      · rw [Nat.div_lt_iff_lt_mul (by omega)]
        rw [Nat.pow_succ, ← Nat.mul_assoc] at hn
        exact hn

theorem u32_good : u32.Good (fun _ => True) := by
  intro n _ r
  have h : n.toNat < 16 * 128 ^ 4 := by have := n.toNat_lt; omega
  simp only [u32]
  rw [unvarint_varint 15 (by omega) 4 _ h]
  simp

theorem u64_good : u64.Good (fun _ => True) := by
  intro n _ r
  have h : n.toNat < 2 * 128 ^ 9 := by have := n.toNat_lt; omega
  simp only [u64]
  rw [unvarint_varint 1 (by omega) 9 _ h]
  simp

theorem len_good {n : Nat} (h : n < 2 ^ 64) (r : List UInt8) : unvarint 1 10 (varint n ++ r) = some (n, r) :=
  unvarint_varint 1 (by omega) 9 _ (by omega) r

/-- Range of an `i32`. -/
def IsI32 (i : Int) : Prop := -2 ^ 31 ≤ i ∧ i < 2 ^ 31

theorem unzigzag_zigzag (i : Int) : unzigzag (zigzag i) = i := by
  unfold zigzag unzigzag
  split <;> split <;> omega

theorem i32_good : i32.Good IsI32 := by
  intro i hi r
  obtain ⟨h1, h2⟩ := hi
  have h : zigzag i < 16 * 128 ^ 4 := by unfold zigzag; split <;> omega
  simp only [i32]
  rw [unvarint_varint 15 (by omega) 4 _ h]
  simp [unzigzag_zigzag]

theorem u8_good : u8.Good (fun _ => True) := fun _ _ _ => rfl

theorem bool_good : bool.Good (fun _ => True) := by
  intro b _ r
  cases b <;> simp [bool]

theorem decN_good {α : Type} {c : Codec α} {V : α → Prop} (hc : c.Good V) (l : List α) (hl : ∀ a ∈ l, V a) (r : List UInt8) :
    decN c l.length (l.flatMap c.enc ++ r) = some (l, r) := by
  induction l with
  | nil => rfl
  | cons a l ih =>
    simp only [List.length_cons, decN, List.flatMap_cons, List.append_assoc]
    rw [hc a (hl a (by simp)), Option.bind_some, ih (fun x hx => hl x (List.mem_cons_of_mem _ hx))]
    rfl

theorem vec_good {α : Type} {c : Codec α} {V : α → Prop} (hc : c.Good V) :
    (vec c).Good (fun l => l.length < 2 ^ 64 ∧ ∀ a ∈ l, V a) := by
  intro l hl r
  simp only [vec, List.append_assoc]
  rw [len_good hl.1, Option.bind_some, decN_good hc l hl.2]

theorem opt_good {α : Type} {c : Codec α} {V : α → Prop} (hc : c.Good V) : (opt c).Good (fun o => ∀ a, o = some a → V a) := by
  intro o ho r
  cases o with
  | none => simp [opt]
  | some a => simp [opt, hc a (ho a rfl)]

theorem pair_good {α β : Type} {c : Codec α} {d : Codec β} {V : α → Prop} {W : β → Prop} (hc : c.Good V) (hd : d.Good W) :
    (pair c d).Good (fun x => V x.1 ∧ W x.2) := by
  intro x hx r
  simp only [pair, List.append_assoc]
  rw [hc x.1 hx.1, Option.bind_some, hd x.2 hx.2]
  rfl

theorem iso_good {α β : Type} {f : α → β} {g : β → α} {c : Codec α} {V : α → Prop} (hc : c.Good V) (h : ∀ b, f (g b) = b) :
    (iso f g c).Good (fun b => V (g b)) := by
  intro b hb r
  simp only [iso]
  rw [hc _ hb]
  simp [h]

theorem Codec.Good.mono {α : Type} {c : Codec α} {V W : α → Prop} (h : c.Good V) (hw : ∀ a, W a → V a) : c.Good W :=
  fun a ha => h a (hw a ha)

theorem str_good : str.Good (fun s => s.utf8ByteSize < 2 ^ 64) := by
  intro s hs r
  simp only [str, List.append_assoc]
  rw [len_good (n := s.toByteArray.size) hs, Option.bind_some]
  have e : s.toByteArray.size = s.toByteArray.data.toList.length := by
    rw [Array.length_toList]; rfl
  have := decN_good u8_good s.toByteArray.data.toList (fun _ _ => trivial) r
  have hid : s.toByteArray.data.toList.flatMap u8.enc = s.toByteArray.data.toList := by
    simp [u8]
  rw [hid] at this
  rw [e, this, Option.bind_some]
  simp only [Array.toArray_toList]
  have hv : s.toByteArray.IsValidUTF8 := s.isValidUTF8
  simp only [String.fromUTF8?, dif_pos hv]
  rfl

theorem osStr_good : osStr.Good (fun s => s.length < 2 ^ 64) := by
  intro s hs r
  simp only [osStr, List.append_assoc]
  rw [unvarint_varint 15 (by omega) 4 0 (by omega)]
  have := vec_good u8_good s ⟨hs, fun _ _ => trivial⟩ r
  simpa using this

theorem foldl_put {α : Type} (l acc : List (String × α)) (h : ((acc ++ l).map (·.1)).Nodup) :
    l.foldl (fun m kv => put m kv.1 kv.2) acc = acc ++ l := by
  induction l generalizing acc with
  | nil => simp
  | cons kv l ih =>
    have e : put acc kv.1 kv.2 = acc ++ [kv] := by
      unfold put
      rw [List.filter_eq_self.2]
      intro x hx
      simp only [bne_iff_ne]
      intro hk
      rw [List.map_append, List.nodup_append] at h
      exact h.2.2 x.1 (List.mem_map.2 ⟨x, hx, rfl⟩) kv.1 (by simp) hk
    rw [List.foldl_cons, e, ih _ (by simpa using h)]
    simp

theorem strMap_good {α : Type} {c : Codec α} {V : α → Prop} (hc : c.Good V) :
    (strMap c).Good (fun m => (m.map (·.1)).Nodup ∧ m.length < 2 ^ 64 ∧ ∀ kv ∈ m, kv.1.utf8ByteSize < 2 ^ 64 ∧ V kv.2) := by
  intro m hm r
  simp only [strMap]
  rw [vec_good (pair_good str_good hc) m ⟨hm.2.1, hm.2.2⟩ r]
  simp only [Option.map_some, Option.some.injEq, Prod.mk.injEq, and_true]
  have := foldl_put m [] (by simpa using hm.1)
  simpa using this

end Verif.Postcard
