import Verif.Model.Expand
import Verif.Spec.Expand

/-!
# Replacing one pattern after the other is expanding all at once
-/

namespace Verif.Expand

theorem replace_plain {c : Char} {v w s : List Char} (h : '%' ∉ w) : replace c v (w ++ s) = w ++ replace c v s := by
  induction w with
  | nil => rfl
  | cons x w ih =>
    simp only [List.mem_cons, not_or] at h
    have hx : x ≠ '%' := fun e => h.1 e.symm
    cases hw : w ++ s with
    | nil =>
      have : w = [] ∧ s = [] := by simpa using hw
      obtain ⟨rfl, rfl⟩ := this
      simp [replace]
    | cons y t =>
      rw [List.cons_append, hw, replace, if_neg (by simp [hx]), ← hw, ih h.2]
      rfl

theorem replace_percent {c y : Char} {v s : List Char} (h : y ≠ c) : replace c v ('%' :: y :: s) = '%' :: replace c v (y :: s) := by
  rw [replace, if_neg (by simp [h])]

theorem replace_same (c : Char) : ∀ s, replace c ['%', c] s = s := by
  intro s
  match s with
  | [] => rfl
  | [x] => rfl
  | x :: y :: s =>
    rw [replace]
    split
    · rename_i h
      rw [replace_same c s, h.1, h.2]; rfl
    · rw [replace_same c (y :: s)]
termination_by s => s.length

theorem expand_none : ∀ s, expand (fun _ => none) s = s := by
  intro s
  match s with
  | [] => rfl
  | [x] => rfl
  | x :: y :: s =>
    rw [expand, expand_none (y :: s)]
    simp
termination_by s => s.length

theorem NoDouble.tail {x : Char} {s : List Char} (h : NoDouble (x :: s)) : NoDouble s :=
  fun a b e => h (x :: a) b (by rw [e]; rfl)

/-- The first character of an expanded text is the first of the text, if that is not a `%`. -/
theorem expand_head {f : Char → Option (List Char)} {y : Char} (hy : y ≠ '%') (s : List Char) :
    expand f (y :: s) = y :: expand f s := by
  cases s with
  | nil => rfl
  | cons z s => rw [expand, if_neg hy]

/-- One more pattern. -/
theorem replace_expand {f : Char → Option (List Char)} {c : Char} {v : List Char} (hc : c ≠ '%') (hfc : f c = none) (hp : f '%' = none)
    (hf : ∀ y w, f y = some w → '%' ∉ w) : ∀ s, NoDouble s →
    replace c v (expand f s) = expand (fun y => if y = c then some v else f y) s := by
  intro s hs
  match s, hs with
  | [], _ => rfl
  | [x], _ => rfl
  | x :: y :: s, hs =>
    by_cases hx : x = '%'
    · subst hx
      have hy : y ≠ '%' := fun e => hs [] s (by rw [e]; rfl)
      by_cases hyc : y = c
      · subst hyc
        rw [expand, if_pos rfl, hfc]
        simp only
        rw [expand_head hy, replace, if_pos ⟨rfl, rfl⟩, replace_expand hc hfc hp hf s hs.tail.tail]
        rw [expand, if_pos rfl, if_pos rfl]
      · cases hfy : f y with
        | some w =>
          rw [expand, if_pos rfl, hfy]
          simp only
          rw [replace_plain (hf y w hfy), replace_expand hc hfc hp hf s hs.tail.tail]
          rw [expand, if_pos rfl, if_neg hyc, hfy]
        | none =>
          rw [expand, if_pos rfl, hfy]
          simp only
          rw [expand_head hy, replace_percent hyc, ← expand_head hy, replace_expand hc hfc hp hf (y :: s) hs.tail]
          rw [expand, if_pos rfl, if_neg hyc, hfy]
    · rw [expand_head hx, expand_head hx]
      have := replace_plain (c := c) (v := v) (w := [x]) (s := expand f (y :: s)) (by simpa using fun e => hx e.symm)
      simp only [List.cons_append, List.nil_append] at this
      rw [this, replace_expand hc hfc hp hf (y :: s) hs.tail]
termination_by s => s.length

end Verif.Expand
