import Verif.Proof.Standstill

/-!
# How often handlers start and cease to wait
-/

namespace Verif.Sys
open Verif Verif.Tracker

variable {c : Cfg} {lf : LogFile} {now : Int} {s s' : State}

/-- How often the handler can start or cease to wait. -/
def wRank : Handler → Nat
  | .ending _ _ _ _ | .reporting _ _ _ _ | .waiting _ _ _ => 3
  | .toRecv _ _ => 2
  | .inRecv _ _ => 1
  | _ => 0

def churn (s : State) : Nat := (s.handlers.map wRank).sum

theorem sum_set {α : Type} (f : α → Nat) (y : α) : ∀ {l : List α} {i : Nat} {x : α}, l[i]? = some x →
    ((l.set i y).map f).sum + f x = (l.map f).sum + f y
  | [], i, x, h => by simp at h
  | z :: l, 0, x, h => by
    simp only [List.getElem?_cons_zero, Option.some.injEq] at h
    subst h
    simp only [List.set_cons_zero, List.map_cons, List.sum_cons]
    omega
  | z :: l, i + 1, x, h => by
    simp only [List.getElem?_cons_succ] at h
    have := sum_set f y h
    simp only [List.set_cons_succ, List.map_cons, List.sum_cons]
    omega

theorem churn_step {a : Act} (hs : step c s a = .ok s') :
    churn s' + (waitAct a).toNat ≤ churn s + 3 * (isRequest a).toNat := by
  rcases step_handlers hs with h1 | ⟨r, x, rfl, h1, h2⟩ | ⟨i, x, x', h1, h2, h3⟩
  · have hw : waitAct a = false := by
      cases hw : waitAct a with
      | false => rfl
      | true =>
        exfalso
        have ne : ∀ {i : Nat} {x y : Handler}, s.handlers[i]? = some x → s.handlers.set i y = s.handlers → y = x := by
          intro i x y hx e
          have := congrArg (fun l => l[i]?) e
          simp only [List.getElem?_set_self (List.getElem?_eq_some_iff.1 hx).1, hx, Option.some.injEq] at this
          exact this
        cases a <;> simp only [waitAct, Bool.false_eq_true] at hw
        all_goals
          simp only [step] at hs
          repeat' split at hs
          all_goals first
            | (cases hs; done)
            | (obtain ⟨t, _, rfl⟩ := trk_ok.1 hs; exact absurd (ne (by assumption) h1) (by simp))
            | (simp only [Res.ok.injEq] at hs; subst hs; exact absurd (ne (by assumption) h1) (by simp))
    unfold churn
    rw [h1, hw]
    simp
  · unfold churn
    rw [h1]
    simp only [List.map_append, List.map_cons, List.map_nil, List.sum_append, List.sum_cons, List.sum_nil, waitAct, isRequest,
      Bool.toNat_false, Bool.toNat_true]
    cases h2 <;> simp [wRank]
  · unfold churn
    have h4 := sum_set wRank x' h1
    rw [h2]
    cases h3 <;> simp only [wRank, waitAct, isRequest, Bool.toNat_false, Bool.toNat_true] at h4 ⊢ <;> omega

theorem churn_runs {as : List Act} (hr : Runs c s as s') : churn s' + as.countP waitAct ≤ churn s + 3 * as.countP isRequest := by
  induction hr with
  | nil s => simp
  | @cons s s1 s' a as hp hs _ ih =>
    have h1 := churn_step hs
    simp only [List.countP_cons]
    have e1 : (if waitAct a = true then 1 else 0) = (waitAct a).toNat := by cases waitAct a <;> rfl
    have e2 : (if isRequest a = true then 1 else 0) = (isRequest a).toNat := by cases isRequest a <;> rfl
    rw [e1, e2]
    omega

end Verif.Sys
