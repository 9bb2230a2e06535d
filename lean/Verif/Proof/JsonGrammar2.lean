import Verif.Proof.JsonGrammar

/-!
# The parser and the grammar: numbers, values
-/

namespace Verif.Json

theorem digit_iff (c : Char) (d : Nat) : "0123456789".toList[d]? = some c ↔ isDigit c = true ∧ c.toNat - 48 = d := by
  constructor
  · intro h
    have hd : d < 10 := (List.getElem?_eq_some_iff.1 h).1
    have : d = 0 ∨ d = 1 ∨ d = 2 ∨ d = 3 ∨ d = 4 ∨ d = 5 ∨ d = 6 ∨ d = 7 ∨ d = 8 ∨ d = 9 := by omega
    rcases this with rfl | rfl | rfl | rfl | rfl | rfl | rfl | rfl | rfl | rfl <;> (simp at h; subst h; decide)
  · rintro ⟨h1, h2⟩
    simp only [isDigit, decide_eq_true_eq] at h1
    obtain ⟨m, hm⟩ : ∃ m, c.toNat = m := ⟨_, rfl⟩
    have hc := char_eq hm
    rw [hm] at h1 h2
    have : m = 48 ∨ m = 49 ∨ m = 50 ∨ m = 51 ∨ m = 52 ∨ m = 53 ∨ m = 54 ∨ m = 55 ∨ m = 56 ∨ m = 57 := by omega
    rcases this with rfl | rfl | rfl | rfl | rfl | rfl | rfl | rfl | rfl | rfl <;> subst hc <;> subst h2 <;> decide

theorem isDigit_iff (c : Char) : isDigit c = true ↔ c ∈ "0123456789".toList := by
  constructor
  · intro h; exact List.mem_of_getElem? ((digit_iff c (c.toNat - 48)).2 ⟨h, rfl⟩)
  · intro h
    obtain ⟨d, hd⟩ := List.getElem?_of_mem h
    exact ((digit_iff c d).1 hd).1

theorem decimal_iff {ds : List Char} : ∀ {v n : Nat}, Decimal v ds n ↔
    (∀ c ∈ ds, isDigit c = true) ∧ ds.foldl (fun n c => n * 10 + (c.toNat - 48)) v = n := by
  induction ds with
  | nil =>
    intro v n
    constructor
    · intro h; cases h; simp
    · rintro ⟨_, h⟩; simp at h; subst h; exact .nil
  | cons c ds ih =>
    intro v n
    constructor
    · intro h
      cases h with
      | cons h1 h2 =>
        obtain ⟨h3, h4⟩ := (digit_iff _ _).1 h1
        obtain ⟨h5, h6⟩ := ih.1 h2
        refine ⟨fun x hx => ?_, by rw [List.foldl_cons, h4]; exact h6⟩
        rcases List.mem_cons.1 hx with rfl | hx
        · exact h3
        · exact h5 x hx
    · rintro ⟨h1, h2⟩
      exact .cons ((digit_iff c _).2 ⟨h1 c (by simp), rfl⟩) (ih.2 ⟨fun x hx => h1 x (by simp [hx]), h2⟩)

theorem decimal_of {ds : List Char} (h : ∀ c ∈ ds, isDigit c = true) : Decimal 0 ds (ofDigits ds) := decimal_iff.2 ⟨h, rfl⟩

theorem digits1_sound {cs ds r : List Char} (h : digits1 cs = some (ds, r)) :
    cs = ds ++ r ∧ Digits ds ∧ (∀ c ∈ ds, isDigit c = true) ∧ ∀ c, r.head? = some c → isDigit c = false := by
  simp only [digits1] at h
  split at h
  · cases h
  · rename_i hne
    simp only [Option.some.injEq, Prod.mk.injEq] at h
    obtain ⟨rfl, rfl⟩ := h
    have hall : ∀ c ∈ cs.takeWhile isDigit, isDigit c = true := by
      clear hne
      induction cs with
      | nil => simp
      | cons a cs ih =>
        cases ha : isDigit a with
        | true =>
          intro c hc
          simp only [List.takeWhile_cons, ha, if_true, List.mem_cons] at hc
          rcases hc with rfl | hc
          · exact ha
          · exact ih c hc
        | false => simp [ha]
    refine ⟨List.takeWhile_append_dropWhile.symm, ⟨hne, fun c hc => (isDigit_iff c).1 (hall c hc)⟩, hall, ?_⟩
    clear hne hall
    induction cs with
    | nil => simp
    | cons a cs ih =>
      cases ha : isDigit a with
      | true => intro c hc; simp only [List.dropWhile_cons, ha, if_true] at hc; exact ih c hc
      | false => intro c hc; simp only [List.dropWhile_cons, ha] at hc; simp at hc; subst hc; exact ha

theorem digits1_complete {ds r : List Char} (h : Digits ds) (hr : ∀ c, r.head? = some c → isDigit c = false) :
    digits1 (ds ++ r) = some (ds, r) := by
  have h1 := takeWhile_stop (p := isDigit) (fun c hc => (isDigit_iff c).2 (h.2 c hc)) hr
  simp only [digits1, h1.1, h1.2, if_neg h.1]

theorem fraction_sound {cs r : List Char} {b : Bool} (h : fraction cs = some (b, r)) :
    ∃ f, cs = f ++ r ∧ Frac f ∧ (b = true ↔ f ≠ []) := by
  rcases cs with _ | ⟨c, cs⟩
  · simp only [fraction, Option.some.injEq, Prod.mk.injEq] at h; obtain ⟨rfl, rfl⟩ := h; exact ⟨[], rfl, .inl rfl, by simp⟩
  · simp only [fraction] at h
    split at h
    · rename_i hc; subst hc
      cases hd : digits1 cs with
      | none => simp [hd] at h
      | some x =>
        simp only [hd, Option.map_some, Option.some.injEq, Prod.mk.injEq] at h
        obtain ⟨rfl, rfl⟩ := h
        obtain ⟨h1, h2, _, _⟩ := digits1_sound (ds := x.1) (r := x.2) hd
        exact ⟨'.' :: x.1, by rw [List.cons_append, ← h1], .inr ⟨_, rfl, h2⟩, by simp⟩
    · simp only [Option.some.injEq, Prod.mk.injEq] at h; obtain ⟨rfl, rfl⟩ := h; exact ⟨[], rfl, .inl rfl, by simp⟩

theorem exponent_sound {cs r : List Char} {b : Bool} (h : exponent cs = some (b, r)) :
    ∃ e, cs = e ++ r ∧ Exp e ∧ (b = true ↔ e ≠ []) := by
  rcases cs with _ | ⟨c, cs⟩
  · simp only [exponent, Option.some.injEq, Prod.mk.injEq] at h; obtain ⟨rfl, rfl⟩ := h; exact ⟨[], rfl, .inl rfl, by simp⟩
  · simp only [exponent] at h
    split at h
    · rename_i hc
      cases hd : digits1 (sign cs) with
      | none => simp [hd] at h
      | some x =>
        simp only [hd, Option.map_some, Option.some.injEq, Prod.mk.injEq] at h
        obtain ⟨rfl, rfl⟩ := h
        obtain ⟨h1, h2, _, _⟩ := digits1_sound (ds := x.1) (r := x.2) hd
        have : ∃ s, (s = [] ∨ s = ['+'] ∨ s = ['-']) ∧ cs = s ++ sign cs := by
          rcases cs with _ | ⟨a, cs⟩
          · exact ⟨[], .inl rfl, rfl⟩
          · simp only [sign]
            split
            · rename_i ha
              rcases ha with rfl | rfl
              · exact ⟨['+'], .inr (.inl rfl), rfl⟩
              · exact ⟨['-'], .inr (.inr rfl), rfl⟩
            · exact ⟨[], .inl rfl, rfl⟩
        obtain ⟨s, hs, e⟩ := this
        refine ⟨c :: (s ++ x.1), ?_, .inr ⟨c, s, x.1, rfl, hc, hs, h2⟩, by simp⟩
        rw [List.cons_append, List.append_assoc, ← h1, ← e]
    · simp only [Option.some.injEq, Prod.mk.injEq] at h; obtain ⟨rfl, rfl⟩ := h; exact ⟨[], rfl, .inl rfl, by simp⟩

theorem zero_of {ds : List Char} (hd : Digits ds) (hl : ¬ (ds.head? = some '0' ∧ ds.length > 1)) : ds.head? = some '0' → ds = ['0'] := by
  intro h
  rcases ds with _ | ⟨c, ds⟩
  · cases h
  · simp only [List.head?_cons, Option.some.injEq] at h
    subst h
    rcases ds with _ | ⟨d, ds⟩
    · rfl
    · exact absurd ⟨rfl, by simp⟩ hl

theorem foldl_ge (ds : List Char) : ∀ v, v ≤ ds.foldl (fun n c => n * 10 + (c.toNat - 48)) v := by
  induction ds with
  | nil => intro v; simp
  | cons c ds ih => intro v; exact Nat.le_trans (Nat.le_trans (by omega) (Nat.le_add_right (v * 10) (c.toNat - 48))) (ih _)

theorem ofDigits_pos {ds : List Char} (hd : Digits ds) (h : ds.head? ≠ some '0') : ofDigits ds ≠ 0 := by
  rcases ds with _ | ⟨c, ds⟩
  · exact absurd rfl hd.1
  · have hc := (isDigit_iff c).2 (hd.2 c (by simp))
    simp only [isDigit, decide_eq_true_eq] at hc
    have h1 : c.toNat ≠ 48 := by
      intro e; apply h; rw [char_eq e]; rfl
    have := foldl_ge ds (0 * 10 + (c.toNat - 48))
    simp only [ofDigits, List.foldl_cons]
    omega

theorem unsigned_sound {neg : Bool} {cs r : List Char} {j : Json} (h : unsigned neg cs = some (j, r)) :
    ∃ t, cs = t ++ r ∧ Num ((if neg then ['-'] else []) ++ t) j := by
  simp only [unsigned] at h
  cases hd : digits1 cs with
  | none => simp [hd] at h
  | some x =>
    obtain ⟨i, r1⟩ := x
    obtain ⟨rfl, h2, hall, _⟩ := digits1_sound hd
    simp only [hd, Option.bind_some] at h
    split at h
    · cases h
    · rename_i hz
      have hz := zero_of h2 hz
      cases hf : fraction r1 with
      | none => simp [hf] at h
      | some y =>
        obtain ⟨b1, r2⟩ := y
        obtain ⟨f, rfl, hf2, hb1⟩ := fraction_sound hf
        simp only [hf, Option.bind_some] at h
        cases he : exponent r2 with
        | none => simp [he] at h
        | some z =>
          obtain ⟨b2, r3⟩ := z
          obtain ⟨e, rfl, he2, hb2⟩ := exponent_sound he
          simp only [he, Option.map_some, Option.some.injEq, Prod.mk.injEq] at h
          obtain ⟨rfl, rfl⟩ := h
          refine ⟨i ++ f ++ e, by simp, ?_⟩
          by_cases hr : b1 = true ∨ b2 = true
          · have : (b1 || b2 || (neg && ofDigits i == 0)) = true := by rcases hr with h | h <;> simp [h]
            rw [if_pos this, ← List.append_assoc, ← List.append_assoc]
            refine .real ?_ h2 hz hf2 he2 (hr.imp hb1.1 hb2.1)
            cases neg <;> simp
          · have e1 : b1 = false := by cases b1 <;> simp_all
            have e2 : b2 = false := by cases b2 <;> simp_all
            have f0 : f = [] := by by_cases hh : f = [] <;> simp_all
            have x0 : e = [] := by by_cases hh : e = [] <;> simp_all
            subst e1 e2 f0 x0
            cases neg with
            | false => simpa using Num.nat h2 hz (decimal_of hall)
            | true =>
              by_cases h0 : i.head? = some '0'
              · have := hz h0; subst this; simpa [ofDigits] using Num.negZero
              · have := ofDigits_pos h2 h0
                simpa [this] using Num.neg h2 h0 (decimal_of hall)

theorem number_sound {cs r : List Char} {j : Json} (h : number cs = some (j, r)) : ∃ t, cs = t ++ r ∧ Num t j := by
  rcases cs with _ | ⟨c, cs⟩
  · cases h
  · simp only [number] at h
    split at h
    · rename_i hc; subst hc
      obtain ⟨t, rfl, ht⟩ := unsigned_sound h
      exact ⟨'-' :: t, rfl, by simpa using ht⟩
    · obtain ⟨t, ht, h2⟩ := unsigned_sound h
      exact ⟨t, ht, by simpa using h2⟩

theorem notDigit_of {c : Char} (h : c = '.' ∨ c = 'e' ∨ c = 'E') : isDigit c = false := by rcases h with rfl | rfl | rfl <;> rfl

theorem exp_head {e : List Char} (h : Exp e) {r : List Char} (hr : Stop r) : ∀ c, (e ++ r).head? = some c → isDigit c = false ∧ c ≠ '.' := by
  intro c hc
  rcases h with rfl | ⟨d, s, ds, rfl, hd, _, _⟩
  · exact ⟨(hr c hc).1, (hr c hc).2.1⟩
  · simp only [List.cons_append, List.head?_cons, Option.some.injEq] at hc
    subst hc
    rcases hd with rfl | rfl <;> decide

theorem frac_head {f e : List Char} (h : Frac f) (he : Exp e) {r : List Char} (hr : Stop r) :
    ∀ c, (f ++ (e ++ r)).head? = some c → isDigit c = false := by
  intro c hc
  rcases h with rfl | ⟨ds, rfl, _⟩
  · exact (exp_head he hr c hc).1
  · simp only [List.cons_append, List.head?_cons, Option.some.injEq] at hc
    subst hc; decide

theorem exponent_complete {e : List Char} (h : Exp e) {r : List Char} (hr : Stop r) : exponent (e ++ r) = some (!e.isEmpty, r) := by
  rcases h with rfl | ⟨c, s, ds, rfl, hc, hs, hd⟩
  · exact exponent_stop hr
  · have : sign (s ++ ds ++ r) = ds ++ r := by
      rcases hs with rfl | rfl | rfl
      · rcases ds with _ | ⟨d, ds⟩
        · exact absurd rfl hd.1
        · have hdd := (isDigit_iff d).2 (hd.2 d (by simp))
          simp only [List.nil_append, List.cons_append, sign]
          rw [if_neg]
          rintro (rfl | rfl) <;> revert hdd <;> decide
      · rfl
      · rfl
    simp only [List.cons_append, exponent, if_pos hc, this, digits1_complete hd (fun c h => (hr c h).1), Option.map_some]
    rfl

theorem fraction_complete {f e : List Char} (h : Frac f) (he : Exp e) {r : List Char} (hr : Stop r) :
    fraction (f ++ (e ++ r)) = some (!f.isEmpty, e ++ r) := by
  rcases h with rfl | ⟨ds, rfl, hd⟩
  · have hh := exp_head he hr
    cases hx : e ++ r with
    | nil => simp [fraction]
    | cons c t =>
      rw [hx] at hh
      simp [fraction, (hh c rfl).2]
  · simp only [List.cons_append, fraction, if_true, digits1_complete hd (fun c h => (exp_head he hr c h).1), Option.map_some]
    rfl

theorem unsigned_complete {neg : Bool} {i f e r : List Char} (hi : Digits i) (hz : i.head? = some '0' → i = ['0']) (hf : Frac f) (he : Exp e)
    (hr : Stop r) : unsigned neg (i ++ (f ++ (e ++ r))) =
      some (if (!f.isEmpty) || (!e.isEmpty) || (neg && ofDigits i == 0) then .real
        else .int (if neg then -(ofDigits i : Int) else ofDigits i), r) := by
  have h0 : ¬ (i.head? = some '0' ∧ i.length > 1) := by
    rintro ⟨h1, h2⟩; rw [hz h1] at h2; simp at h2
  simp only [unsigned, digits1_complete hi (frac_head hf he hr), Option.bind_some, if_neg h0, fraction_complete hf he hr, exponent_complete he hr,
    Option.map_some]

theorem digits_minus {i : List Char} (hi : Digits i) (x : List Char) : ∃ c t, i ++ x = c :: t ∧ c ≠ '-' ∧ isDigit c = true := by
  rcases i with _ | ⟨c, i⟩
  · exact absurd rfl hi.1
  · have := (isDigit_iff c).2 (hi.2 c (by simp))
    exact ⟨c, i ++ x, rfl, by rintro rfl; revert this; decide, this⟩

theorem number_plain {i : List Char} (hi : Digits i) (x : List Char) : number (i ++ x) = unsigned false (i ++ x) := by
  obtain ⟨c, t, e, hc, _⟩ := digits_minus hi x
  rw [e]; simp only [number, if_neg hc]

theorem number_complete {t : List Char} {j : Json} (h : Num t j) {r : List Char} (hr : Stop r) : number (t ++ r) = some (j, r) := by
  cases h with
  | nat hi hz hd =>
    have := unsigned_complete (neg := false) (f := []) (e := []) hi hz (.inl rfl) (.inl rfl) hr
    have hv := (decimal_iff.1 hd).2
    rw [number_plain hi]
    simp only [List.nil_append] at this
    rw [this]
    simp [ofDigits, hv]
  | neg hi hz hd =>
    have := unsigned_complete (neg := true) (f := []) (e := []) hi (fun h => absurd h hz) (.inl rfl) (.inl rfl) hr
    have hv := (decimal_iff.1 hd).2
    have h0 := ofDigits_pos hi hz
    simp only [List.nil_append] at this
    simp only [List.cons_append, number, if_true, this]
    simp only [ofDigits] at h0 ⊢
    simp [hv]
    rw [← hv]; exact h0
  | negZero =>
    have := unsigned_complete (neg := true) (i := ['0']) (f := []) (e := []) ⟨by simp, by decide⟩ (fun _ => rfl) (.inl rfl) (.inl rfl) hr
    simp only [List.nil_append, List.cons_append] at this
    simp only [List.cons_append, List.nil_append, number, if_true, this]
    simp [ofDigits]
  | real hm hi hz hf he hne =>
    rename_i m i f e
    have hb : ((!f.isEmpty) || (!e.isEmpty)) = true := by
      rcases hne with h | h
      · cases f <;> simp_all
      · cases e <;> simp_all
    rcases hm with rfl | rfl
    · simp only [List.nil_append, List.append_assoc]
      rw [number_plain hi, unsigned_complete hi hz hf he hr]
      simp [hb]
    · simp only [List.cons_append, List.nil_append, List.append_assoc, number, if_true]
      rw [unsigned_complete hi hz hf he hr]
      simp [hb]

theorem num_head {t : List Char} {j : Json} (h : Num t j) : ∃ c u, t = c :: u ∧ (isDigit c = true ∨ c = '-') := by
  cases h with
  | nat hi => obtain ⟨c, u, e, _, h⟩ := digits_minus hi []; exact ⟨c, u, by simpa using e, .inl h⟩
  | neg => exact ⟨_, _, rfl, .inr rfl⟩
  | negZero => exact ⟨_, _, rfl, .inr rfl⟩
  | real hm hi =>
    rename_i m i f e _ _ _ _
    rcases hm with rfl | rfl
    · obtain ⟨c, u, e1, _, h⟩ := digits_minus hi (f ++ e); exact ⟨c, u, by simpa using e1, .inl h⟩
    · exact ⟨_, _, rfl, .inr rfl⟩

end Verif.Json
