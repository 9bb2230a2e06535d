import Verif.Proof.JsonGrammar2

/-!
# The parser reads exactly the grammar
-/

namespace Verif.Json

theorem word_sound {w cs r : List Char} {v x : Json} (h : word w v cs = some (x, r)) : cs = w ++ r ∧ x = v := by
  simp only [word] at h
  split at h
  · rename_i hp
    simp only [Option.some.injEq, Prod.mk.injEq] at h
    obtain ⟨rfl, rfl⟩ := h
    obtain ⟨u, rfl⟩ := List.isPrefixOf_iff_prefix.1 hp
    simp
  · cases h

/-- Soundness for all three functions. -/
theorem sound (f : Nat) :
    (∀ cs v r, value f cs = some (v, r) → ∃ a t, cs = a ++ t ++ r ∧ Ws a ∧ IsValue t v) ∧
    (∀ cs l r, elems f cs = some (l, r) → ∃ t, cs = t ++ ']' :: r ∧ Elems t l) ∧
    (∀ cs l r, fields f cs = some (l, r) → ∃ t, cs = t ++ '}' :: r ∧ Fields t l) := by
  induction f with
  | zero => refine ⟨?_, ?_, ?_⟩ <;> intro cs v r h <;> simp [value, elems, fields] at h
  | succ f ih =>
    obtain ⟨ih1, ih2, ih3⟩ := ih
    refine ⟨?_, ?_, ?_⟩
    · intro cs v r h
      obtain ⟨a, ha, hw⟩ := skipWs_split cs
      simp only [value] at h
      cases hs : skipWs cs with
      | nil => simp [hs] at h
      | cons c x =>
        rw [hs] at ha
        simp only [hs] at h
        suffices hh : ∃ t, c :: x = t ++ r ∧ IsValue t v by
          obtain ⟨t, e, ht⟩ := hh
          exact ⟨a, t, by rw [List.append_assoc, ← e, ← ha], hw, ht⟩
        split at h
        · rename_i hc; subst hc
          cases hg : stringGo .text x with
          | none => simp [hg] at h
          | some y =>
            simp only [hg, Option.map_some, Option.some.injEq, Prod.mk.injEq] at h
            obtain ⟨rfl, rfl⟩ := h
            obtain ⟨t, rfl, ht⟩ := stringGo_sound _ (Nat.le_refl _) (s := y.1) (r := y.2) hg
            exact ⟨'"' :: (t ++ ['"']), by simp, .str ht⟩
        · split at h
          · rename_i hc; subst hc
            obtain ⟨b, hb, hwb⟩ := skipWs_split x
            cases hs2 : skipWs x with
            | nil => simp [hs2] at h
            | cons d x' =>
              rw [hs2] at hb
              simp only [hs2] at h
              split at h
              · rename_i hd; subst hd
                simp only [Option.some.injEq, Prod.mk.injEq] at h
                obtain ⟨rfl, rfl⟩ := h
                exact ⟨'[' :: (b ++ [']']), by simp [hb], .empty hwb⟩
              · cases he : elems f (d :: x') with
                | none => simp [he] at h
                | some y =>
                  simp only [he, Option.map_some, Option.some.injEq, Prod.mk.injEq] at h
                  obtain ⟨rfl, rfl⟩ := h
                  obtain ⟨t, e, ht⟩ := ih2 _ y.1 y.2 he
                  refine ⟨'[' :: ((b ++ t) ++ [']']), by simp [hb, e], .arr ?_⟩
                  clear he
                  generalize y.1 = l' at ht ⊢
                  cases ht with
                  | one h1 h2 h3 =>
                    rename_i a' t' b' v'
                    have := Elems.one (a := b ++ a') (fun c hc => (List.mem_append.1 hc).elim (hwb c) (h1 c)) h2 h3
                    simpa using this
                  | more h1 h2 h3 h4 =>
                    rename_i a' t' b' u' v' l'
                    have := Elems.more (a := b ++ a') (fun c hc => (List.mem_append.1 hc).elim (hwb c) (h1 c)) h2 h3 h4
                    simpa using this
          · split at h
            · rename_i hc; subst hc
              obtain ⟨b, hb, hwb⟩ := skipWs_split x
              cases hs2 : skipWs x with
              | nil => simp [hs2] at h
              | cons d x' =>
                rw [hs2] at hb
                simp only [hs2] at h
                split at h
                · rename_i hd; subst hd
                  simp only [Option.some.injEq, Prod.mk.injEq] at h
                  obtain ⟨rfl, rfl⟩ := h
                  exact ⟨'{' :: (b ++ ['}']), by simp [hb], .none_ hwb⟩
                · cases he : fields f (d :: x') with
                  | none => simp [he] at h
                  | some y =>
                    simp only [he, Option.map_some, Option.some.injEq, Prod.mk.injEq] at h
                    obtain ⟨rfl, rfl⟩ := h
                    obtain ⟨t, e, ht⟩ := ih3 _ y.1 y.2 he
                    refine ⟨'{' :: ((b ++ t) ++ ['}']), by simp [hb, e], .obj ?_⟩
                    clear he
                    generalize y.1 = l' at ht ⊢
                    cases ht with
                    | one h1 h2 h3 h4 h5 h6 =>
                      rename_i a' k' s' b' c' t' d' v'
                      have := Fields.one (a := b ++ a') (fun c hc => (List.mem_append.1 hc).elim (hwb c) (h1 c)) h2 h3 h4 h5 h6
                      simpa using this
                    | more h1 h2 h3 h4 h5 h6 h7 =>
                      rename_i a' k' s' b' c' t' d' u' v' l'
                      have := Fields.more (a := b ++ a') (fun c hc => (List.mem_append.1 hc).elim (hwb c) (h1 c)) h2 h3 h4 h5 h6 h7
                      simpa using this
            · split at h
              · obtain ⟨e, rfl⟩ := word_sound h; exact ⟨_, e, .null⟩
              · split at h
                · obtain ⟨e, rfl⟩ := word_sound h; exact ⟨_, e, .true_⟩
                · split at h
                  · obtain ⟨e, rfl⟩ := word_sound h; exact ⟨_, e, .false_⟩
                  · obtain ⟨t, e, ht⟩ := number_sound h; exact ⟨t, e, .num ht⟩
    · intro cs l r h
      simp only [elems] at h
      cases hv : value f cs with
      | none => simp [hv] at h
      | some y =>
        obtain ⟨v, x⟩ := y
        obtain ⟨a, t, rfl, hwa, ht⟩ := ih1 _ _ _ hv
        simp only [hv, Option.bind_some] at h
        obtain ⟨b, hb, hwb⟩ := skipWs_split x
        cases hs : skipWs x with
        | nil => simp [hs] at h
        | cons c x' =>
          rw [hs] at hb
          simp only [hs] at h
          split at h
          · rename_i hc; subst hc
            simp only [Option.some.injEq, Prod.mk.injEq] at h
            obtain ⟨rfl, rfl⟩ := h
            exact ⟨a ++ t ++ b, by simp [hb], .one hwa ht hwb⟩
          · split at h
            · rename_i hc; subst hc
              cases he : elems f x' with
              | none => simp [he] at h
              | some y =>
                simp only [he, Option.map_some, Option.some.injEq, Prod.mk.injEq] at h
                obtain ⟨rfl, rfl⟩ := h
                obtain ⟨u, e, hu⟩ := ih2 _ y.1 y.2 he
                exact ⟨a ++ t ++ b ++ ',' :: u, by simp [hb, e], .more hwa ht hwb hu⟩
            · cases h
    · intro cs l r h
      simp only [fields] at h
      obtain ⟨a, ha, hwa⟩ := skipWs_split cs
      cases hs : skipWs cs with
      | nil => simp [hs] at h
      | cons q r0 =>
        rw [hs] at ha
        simp only [hs] at h
        split at h
        · rename_i hq; subst hq
          cases hk : stringGo .text r0 with
          | none => simp [hk] at h
          | some y =>
            obtain ⟨s, x⟩ := y
            obtain ⟨k, rfl, hk'⟩ := stringGo_sound _ (Nat.le_refl _) hk
            simp only [hk, Option.bind_some] at h
            obtain ⟨b, hb, hwb⟩ := skipWs_split x
            cases hs1 : skipWs x with
            | nil => simp [hs1] at h
            | cons col r1 =>
              rw [hs1] at hb
              simp only [hs1] at h
              split at h
              · rename_i hcol; subst hcol
                cases hv : value f r1 with
                | none => simp [hv] at h
                | some z =>
                  obtain ⟨v, x2⟩ := z
                  obtain ⟨c, t, rfl, hwc, ht⟩ := ih1 _ _ _ hv
                  simp only [hv, Option.bind_some] at h
                  obtain ⟨d, hd, hwd⟩ := skipWs_split x2
                  cases hs2 : skipWs x2 with
                  | nil => simp [hs2] at h
                  | cons c' x' =>
                    rw [hs2] at hd
                    simp only [hs2] at h
                    split at h
                    · rename_i hc; subst hc
                      simp only [Option.some.injEq, Prod.mk.injEq] at h
                      obtain ⟨rfl, rfl⟩ := h
                      exact ⟨_, by rw [ha, hb, hd]; simp, .one hwa hk' hwb hwc ht hwd⟩
                    · split at h
                      · rename_i hc; subst hc
                        cases he : fields f x' with
                        | none => simp [he] at h
                        | some y =>
                          simp only [he, Option.map_some, Option.some.injEq, Prod.mk.injEq] at h
                          obtain ⟨rfl, rfl⟩ := h
                          obtain ⟨u, e, hu⟩ := ih3 _ y.1 y.2 he
                          exact ⟨_, by rw [ha, hb, hd, e]; simp, .more hwa hk' hwb hwc ht hwd hu⟩
                      · cases h
              · cases h
        · cases h

/-! ## Completeness -/

theorem value_head {t : List Char} {v : Json} (h : IsValue t v) : ∃ c u, t = c :: u ∧ starts c = true := by
  cases h with
  | num hn =>
    obtain ⟨c, u, e, hc⟩ := num_head hn
    refine ⟨c, u, e, ?_⟩
    rcases hc with hc | rfl
    · exact starts_digit hc
    · decide
  | _ => exact ⟨_, _, rfl, by decide⟩

theorem value_skip (f : Nat) {a : List Char} (h : Ws a) (x : List Char) : value f (a ++ x) = value f x := by
  cases f with
  | zero => rfl
  | succ f => simp only [value, skipWs_skip h]

theorem skip_once (x : List Char) : skipWs (skipWs x) = skipWs x := by
  obtain ⟨a, h1, h2⟩ := skipWs_split x
  have := skipWs_skip h2 (skipWs x)
  rw [← h1] at this
  exact this.symm

theorem elems_skip (f : Nat) (x : List Char) : elems f (skipWs x) = elems f x := by
  obtain ⟨a, h1, h2⟩ := skipWs_split x
  cases f with
  | zero => rfl
  | succ f =>
    have := value_skip f h2 (skipWs x)
    rw [← h1] at this
    simp only [elems, this]

theorem fields_skip (f : Nat) (x : List Char) : fields f (skipWs x) = fields f x := by
  cases f with
  | zero => rfl
  | succ f => simp only [fields, skip_once]

theorem ws_head {b : List Char} (h : Ws b) {c : Char} (hc : c = ',' ∨ c = ']' ∨ c = '}') (x : List Char) : Stop (b ++ c :: x) := by
  rcases b with _ | ⟨d, b⟩
  · exact stop_of hc x
  · intro e he
    simp only [List.cons_append, List.head?_cons, Option.some.injEq] at he
    subst he
    have := h d (by simp)
    simp only [List.mem_cons, List.not_mem_nil, or_false] at this
    rcases this with rfl | rfl | rfl | rfl <;> decide

theorem ws_stop {b : List Char} (h : Ws b) : Stop b := by
  rcases b with _ | ⟨d, b⟩
  · exact stop_nil
  · intro e he
    simp only [List.head?_cons, Option.some.injEq] at he
    subst he
    have := h d (by simp)
    simp only [List.mem_cons, List.not_mem_nil, or_false] at this
    rcases this with rfl | rfl | rfl | rfl <;> decide

theorem skip_to {b : List Char} (h : Ws b) {c : Char} (hc : isWs c = false) (x : List Char) : skipWs (b ++ c :: x) = c :: x := by
  rw [skipWs_skip h]; simp [skipWs, hc]

theorem starts_ws {c : Char} (h : starts c = true) : isWs c = false := by
  cases hc : isWs c <;> simp_all [starts]

theorem elems_head {t : List Char} {l : List Json} (h : Elems t l) (x : List Char) :
    ∃ d u, skipWs (t ++ x) = d :: u ∧ d ≠ ']' ∧ t ≠ [] := by
  cases h with
  | one h1 h2 h3 =>
    obtain ⟨c, u, rfl, hc⟩ := value_head h2
    refine ⟨c, _, by simp only [List.append_assoc, List.cons_append]; exact skip_to h1 (starts_ws hc) _, ?_, by simp⟩
    rintro rfl; revert hc; decide
  | more h1 h2 h3 h4 =>
    obtain ⟨c, u, rfl, hc⟩ := value_head h2
    refine ⟨c, _, by simp only [List.append_assoc, List.cons_append]; exact skip_to h1 (starts_ws hc) _, ?_, by simp⟩
    rintro rfl; revert hc; decide

theorem fields_head {t : List Char} {l : List (String × Json)} (h : Fields t l) (x : List Char) :
    ∃ u, skipWs (t ++ x) = '"' :: u ∧ t ≠ [] := by
  cases h with
  | one h1 => exact ⟨_, by simp only [List.append_assoc, List.cons_append]; exact skip_to h1 (by decide) _, by simp⟩
  | more h1 => exact ⟨_, by simp only [List.append_assoc, List.cons_append]; exact skip_to h1 (by decide) _, by simp⟩

/-- Completeness for a value. -/
def ValueOk (t : List Char) (v : Json) : Prop :=
  ∀ (f : Nat) (r : List Char), Stop r → t.length ≤ f → value f (t ++ r) = some (v, r)

/-- Completeness for the elements of an array. -/
def ElemsOk (t : List Char) (l : List Json) : Prop :=
  ∀ (f : Nat) (r : List Char), t.length + 1 ≤ f → elems f (t ++ ']' :: r) = some (l, r)

/-- Completeness for the members of an object. -/
def FieldsOk (t : List Char) (l : List (String × Json)) : Prop :=
  ∀ (f : Nat) (r : List Char), t.length + 1 ≤ f → fields f (t ++ '}' :: r) = some (l, r)

theorem null_ok : ValueOk "null".toList .null := by
  intro f r _ hf
  rcases f with _ | f
  · simp at hf
  · have := word_self "null".toList .null r
    simp only [value]
    rw [show skipWs ("null".toList ++ r) = "null".toList ++ r from rfl]
    simpa using this

theorem true_ok : ValueOk "true".toList (.bool true) := by
  intro f r _ hf
  rcases f with _ | f
  · simp at hf
  · have := word_self "true".toList (.bool true) r
    simp only [value]
    rw [show skipWs ("true".toList ++ r) = "true".toList ++ r from rfl]
    simpa using this

theorem false_ok : ValueOk "false".toList (.bool false) := by
  intro f r _ hf
  rcases f with _ | f
  · simp at hf
  · have := word_self "false".toList (.bool false) r
    simp only [value]
    rw [show skipWs ("false".toList ++ r) = "false".toList ++ r from rfl]
    simpa using this

theorem num_ok {t : List Char} {j : Json} (h : Num t j) : ValueOk t j := by
  intro f r hr hf
  obtain ⟨c, u, rfl, hc⟩ := num_head h
  rcases f with _ | f
  · simp at hf
  · have hn := number_complete h hr
    have hst : starts c = true := by
      rcases hc with hc | rfl
      · exact starts_digit hc
      · decide
    have hne : c ≠ '"' ∧ c ≠ '[' ∧ c ≠ '{' ∧ c ≠ 'n' ∧ c ≠ 't' ∧ c ≠ 'f' := by
      rcases hc with hc | rfl
      · refine ⟨?_, ?_, ?_, ?_, ?_, ?_⟩ <;> (rintro rfl; revert hc; decide)
      · decide
    simp only [List.cons_append] at hn ⊢
    simp only [value, skipWs_starts hst, if_neg hne.1, if_neg hne.2.1, if_neg hne.2.2.1, if_neg hne.2.2.2.1, if_neg hne.2.2.2.2.1, if_neg hne.2.2.2.2.2]
    exact hn

theorem str_ok {t s : List Char} (h : Chars t s) : ValueOk ('"' :: (t ++ ['"'])) (.str (String.ofList s)) := by
  intro f r _ hf
  rcases f with _ | f
  · simp at hf
  · simp only [List.cons_append, List.append_assoc, List.nil_append, value, skipWs_sep (c := '"') (by decide), if_true, stringGo_complete h r,
      Option.map_some]

theorem empty_ok {w : List Char} (h : Ws w) : ValueOk ('[' :: (w ++ [']'])) (.arr []) := by
  intro f r _ hf
  rcases f with _ | f
  · simp at hf
  · simp only [List.cons_append, List.append_assoc, List.nil_append, value, skipWs_starts (c := '[') (by decide), if_true, if_neg (show ¬ ('[' = '"') by decide),
      skip_to h (c := ']') (by decide)]

theorem none_ok {w : List Char} (h : Ws w) : ValueOk ('{' :: (w ++ ['}'])) (.obj []) := by
  intro f r _ hf
  rcases f with _ | f
  · simp at hf
  · simp only [List.cons_append, List.append_assoc, List.nil_append, value, skipWs_starts (c := '{') (by decide), if_true, if_neg (show ¬ ('{' = '"') by decide),
      if_neg (show ¬ ('{' = '[') by decide), skip_to h (c := '}') (by decide)]

theorem arr_ok {t : List Char} {l : List Json} (he : Elems t l) (h : ElemsOk t l) : ValueOk ('[' :: (t ++ [']'])) (.arr l) := by
  intro f r _ hf
  rcases f with _ | f
  · simp at hf
  · obtain ⟨d, u, e, hd, _⟩ := elems_head he (']' :: r)
    have h1 := h f r (by simpa using hf)
    rw [← elems_skip, e] at h1
    simp only [List.cons_append, List.append_assoc, List.nil_append, value, skipWs_starts (c := '[') (by decide), if_true, if_neg (show ¬ ('[' = '"') by decide),
      e, if_neg hd, h1, Option.map_some]

theorem obj_ok {t : List Char} {l : List (String × Json)} (he : Fields t l) (h : FieldsOk t l) : ValueOk ('{' :: (t ++ ['}'])) (.obj l) := by
  intro f r _ hf
  rcases f with _ | f
  · simp at hf
  · obtain ⟨u, e, _⟩ := fields_head he ('}' :: r)
    have h1 := h f r (by simpa using hf)
    rw [← fields_skip, e] at h1
    simp only [List.cons_append, List.append_assoc, List.nil_append, value, skipWs_starts (c := '{') (by decide), if_true, if_neg (show ¬ ('{' = '"') by decide),
      if_neg (show ¬ ('{' = '[') by decide), e, if_neg (show ¬ ('"' = '}') by decide), h1, Option.map_some]

theorem one_ok {a t b : List Char} {v : Json} (ha : Ws a) (h : ValueOk t v) (hb : Ws b) : ElemsOk (a ++ t ++ b) [v] := by
  intro f r hf
  rcases f with _ | f
  · simp at hf
  · simp only [List.length_append] at hf
    have h1 := h f (b ++ ']' :: r) (ws_head hb (by simp) r) (by omega)
    simp only [elems, List.append_assoc, value_skip f ha, h1, Option.bind_some, skip_to hb (c := ']') (by decide), if_true]

theorem more_ok {a t b u : List Char} {v : Json} {l : List Json} (ha : Ws a) (h : ValueOk t v) (hb : Ws b) (hu : ElemsOk u l) :
    ElemsOk (a ++ t ++ b ++ ',' :: u) (v :: l) := by
  intro f r hf
  rcases f with _ | f
  · simp at hf
  · simp only [List.length_append, List.length_cons] at hf
    have h1 := h f (b ++ ',' :: (u ++ ']' :: r)) (ws_head hb (by simp) _) (by omega)
    have h2 := hu f r (by omega)
    simp only [elems, List.append_assoc, List.cons_append, value_skip f ha, h1, Option.bind_some, skip_to hb (c := ',') (by decide),
      if_neg (show ¬ (',' = ']') by decide), if_true, h2, Option.map_some]

theorem oneField_ok {a k s b c t d : List Char} {v : Json} (ha : Ws a) (hk : Chars k s) (hb : Ws b) (hc : Ws c) (h : ValueOk t v) (hd : Ws d) :
    FieldsOk (a ++ '"' :: (k ++ '"' :: (b ++ ':' :: (c ++ t ++ d)))) [(String.ofList s, v)] := by
  intro f r hf
  rcases f with _ | f
  · simp at hf
  · simp only [List.length_append, List.length_cons] at hf
    have h1 := h f (d ++ '}' :: r) (ws_head hd (by simp) r) (by omega)
    simp only [fields, List.append_assoc, List.cons_append, skip_to ha (c := '"') (by decide), if_true, stringGo_complete hk, Option.bind_some,
      skip_to hb (c := ':') (by decide), value_skip f hc, h1, skip_to hd (c := '}') (by decide)]

theorem moreFields_ok {a k s b c t d u : List Char} {v : Json} {l : List (String × Json)} (ha : Ws a) (hk : Chars k s) (hb : Ws b) (hc : Ws c)
    (h : ValueOk t v) (hd : Ws d) (hu : FieldsOk u l) :
    FieldsOk (a ++ '"' :: (k ++ '"' :: (b ++ ':' :: (c ++ t ++ d ++ ',' :: u)))) ((String.ofList s, v) :: l) := by
  intro f r hf
  rcases f with _ | f
  · simp at hf
  · simp only [List.length_append, List.length_cons] at hf
    have h1 := h f (d ++ ',' :: (u ++ '}' :: r)) (ws_head hd (by simp) _) (by omega)
    have h2 := hu f r (by omega)
    simp only [fields, List.append_assoc, List.cons_append, skip_to ha (c := '"') (by decide), if_true, stringGo_complete hk, Option.bind_some,
      skip_to hb (c := ':') (by decide), value_skip f hc, h1, skip_to hd (c := ',') (by decide), if_neg (show ¬ (',' = '}') by decide), h2,
      Option.map_some]

theorem complete {t : List Char} {v : Json} (h : IsValue t v) : ValueOk t v :=
  IsValue.rec (motive_1 := fun t v _ => ValueOk t v) (motive_2 := fun t l _ => ElemsOk t l) (motive_3 := fun t l _ => FieldsOk t l)
    null_ok true_ok false_ok num_ok str_ok empty_ok (fun he ih => arr_ok he ih) none_ok (fun he ih => obj_ok he ih)
    (fun ha _ hb ih => one_ok ha ih hb) (fun ha _ hb _ ih1 ih2 => more_ok ha ih1 hb ih2)
    (fun ha hk hb hc _ hd ih => oneField_ok ha hk hb hc ih hd) (fun ha hk hb hc _ hd _ ih1 ih2 => moreFields_ok ha hk hb hc ih1 hd ih2) h

theorem parse_iff {cs : List Char} {j : Json} : parse cs = some j ↔ IsText cs j := by
  constructor
  · intro h
    simp only [parse] at h
    cases hv : value (cs.length + 1) cs with
    | none => simp [hv] at h
    | some y =>
      obtain ⟨v, r⟩ := y
      obtain ⟨a, t, e, ha, ht⟩ := (sound _).1 _ _ _ hv
      simp only [hv, Option.bind_some] at h
      split at h
      · rename_i hr
        simp only [Option.some.injEq] at h
        subst h
        exact ⟨a, t, r, e, ha, ht, ws_of_skip hr⟩
      · cases h
  · rintro ⟨a, t, b, rfl, ha, ht, hb⟩
    have h1 := complete ht ((a ++ t ++ b).length + 1) b (ws_stop hb) (by simp; omega)
    rw [← value_skip _ ha] at h1
    simp only [parse, List.append_assoc] at h1 ⊢
    simp only [h1, Option.bind_some, skipWs_all hb, if_true]

end Verif.Json
