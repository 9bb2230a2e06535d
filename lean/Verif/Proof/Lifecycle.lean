import Verif.Spec.Lifecycle

/-!
# The tasks behind `execute`: lemmas
-/

namespace Verif.Lifecycle
open Verif

variable {s s' : State} {as : List Act} {a : Act} {t : Nat}

theorem Runs.append {s1 s2 s3 : State} {as bs : List Act} (h1 : Runs s1 as s2) (h2 : Runs s2 bs s3) : Runs s1 (as ++ bs) s3 := by
  induction h1 with
  | nil => exact h2
  | cons hs _ ih => exact .cons hs (ih h2)

theorem Runs.snoc {s1 s2 s3 : State} (h1 : Runs s1 as s2) (hs : step s2 a = .ok s3) : Runs s1 (as ++ [a]) s3 :=
  h1.append (.cons hs (.nil _))

theorem Runs.snocInd {s0 : State} {Q : List Act → State → Prop} (h0 : Q [] s0)
    (hstep : ∀ as s a s', Runs s0 as s → Q as s → step s a = .ok s' → Q (as ++ [a]) s')
    {as : List Act} {s : State} (hr : Runs s0 as s) : Q as s := by
  have gen : ∀ {t : State} {as : List Act} {s : State}, Runs t as s → ∀ bs, Runs s0 bs t → Q bs t → Q (bs ++ as) s := by
    intro t as s h
    induction h with
    | nil => intro bs _ h; simpa using h
    | @cons s s1 s' a as hs _ ih =>
      intro bs hb hq
      have := ih (bs ++ [a]) (hb.snoc hs) (hstep _ _ _ _ hb hq hs)
      simpa using this
  have := gen hr [] (.nil _) h0
  simpa using this

/-- What always holds. -/
structure Inv (s : State) : Prop where
  proc : s.proc = .alive → s.prov = .running
  started : s.proc ≠ .none → s.addr = true
  running : s.prov = .running → s.proc ≠ .none
  addr : s.addr = true → s.http ≠ .starting ∧ s.http ≠ .dead
  noAddr : s.addr = false → s.http = .starting ∨ s.http = .dead
  httpReqs : s.http ≠ .up → s.http ≠ .draining → s.httpReqs = []
  adminReqs : s.admin ≠ .up → s.admin ≠ .draining → s.adminReqs = [] ∧ s.sock = false
  main : s.main ≠ .serving → s.hard = true
  prov : s.prov = .done → s.hard = true
  http : s.http = .draining ∨ s.http = .stopping ∨ s.http = .done → s.hard = true
  admin : s.admin = .draining ∨ s.admin = .done → s.hard = true
  dead : s.prov = .dead → s.http = .dead
  awaiting : s.prov = .awaiting → s.proc = .none
  httpSkip : s.http ≠ .skipped
  adminStop : s.admin ≠ .stopping
  returned : s.main = .returned → ended s.http = true ∧ ended s.admin = true ∧ (s.prov = .done ∨ s.prov = .dead)

theorem Inv.init (t : Nat) : Inv (init t) := by
  constructor <;> simp [Lifecycle.init]

set_option maxHeartbeats 1600000 in
theorem Inv.step (h : Inv s) (hs : step s a = .ok s') : Inv s' := by
  obtain ⟨h1, h2, h3, h4, h5, h6, h7, h8, h9, h10, h11, h12, h13, h14, h15, h16⟩ := h
  cases a with
  | _ =>
    simp only [Lifecycle.step] at hs
    repeat' split at hs
    all_goals first
      | (cases hs; done)
      | (simp only [Res.ok.injEq] at hs; subst hs; constructor <;> grind [ended])

theorem Runs.inv (hr : Runs (Lifecycle.init t) as s) : Inv s :=
  Runs.snocInd (Q := fun _ s => Inv s) (Inv.init t) (fun _ _ _ _ _ h hs => h.step hs) hr

/-! ### reasons -/

theorem reason_of_hard (hr : Runs (init t) as s) : (s.hard = true → ∃ a ∈ as, reason a = true) ∧
    (s.proc = .ended → ∃ a ∈ as, reason a = true) := by
  refine Runs.snocInd (Q := fun as s => (s.hard = true → ∃ a ∈ as, reason a = true) ∧
    (s.proc = .ended → ∃ a ∈ as, reason a = true)) ?_ ?_ hr
  · exact ⟨fun h => by simp [init] at h, fun h => by simp [init] at h⟩
  · intro as s a s' hr ih hs
    have keep : (∃ a ∈ as, reason a = true) → ∃ x ∈ as ++ [a], reason x = true := by
      rintro ⟨x, hx, h⟩
      exact ⟨x, List.mem_append_left _ hx, h⟩
    have new : reason a = true → ∃ x ∈ as ++ [a], reason x = true := fun h => ⟨a, by simp, h⟩
    have hi := hr.inv
    have h1 := hi.http
    have h2 : s.prov = .running → s.proc = .alive ∨ s.proc = .ended ∨ s.proc = .killed := by
      intro hp
      have := hi.running hp
      cases h : s.proc <;> simp_all
    obtain ⟨ih1, ih2⟩ := ih
    cases a with
    | provSpawn ok =>
      simp only [step] at hs
      split at hs
      · cases ok with
        | true =>
          simp only [if_true, Res.ok.injEq] at hs; subst hs
          exact ⟨fun h => keep (ih1 h), fun h => by cases h⟩
        | false =>
          simp only [Bool.false_eq_true, if_false, Res.ok.injEq] at hs; subst hs
          exact ⟨fun _ => new rfl, fun h => keep (ih2 h)⟩
      · cases hs
    | _ =>
      simp only [step] at hs
      repeat' split at hs
      all_goals first
        | (cases hs; done)
        | (simp only [Res.ok.injEq] at hs; subst hs; exact ⟨fun h => keep (ih1 h), fun h => keep (ih2 h)⟩)
        | (simp only [Res.ok.injEq] at hs; subst hs; exact ⟨fun _ => new rfl, fun _ => new rfl⟩)
        | (simp only [Res.ok.injEq] at hs; subst hs; exact ⟨fun _ => new rfl, fun h => keep (ih2 h)⟩)
        | (simp only [Res.ok.injEq] at hs; subst hs; exact ⟨fun h => keep (ih1 h), fun _ => new rfl⟩)
        | (simp only [Res.ok.injEq] at hs; subst hs; exact ⟨fun _ => keep (ih1 (by grind)), fun _ => keep (ih1 (by grind))⟩)
        | (simp only [Res.ok.injEq] at hs; subst hs; exact ⟨fun _ => keep (ih1 (by grind)), fun h => keep (ih2 h)⟩)
        | (simp only [Res.ok.injEq] at hs; subst hs; exact ⟨fun _ => keep (ih2 (by grind)), fun h => keep (ih2 h)⟩)

/-! ### the end -/

/-- How far a server is from its end. -/
def srvRank : Srv → Nat
  | .starting => 4
  | .up => 3
  | .draining => 2
  | .stopping => 1
  | _ => 0

/-- How far the provisioner is from its end. -/
def provRank : Prov → Nat
  | .awaiting => 2
  | .running => 1
  | _ => 0

/-- How much is to be done. -/
def todo (s : State) : Nat :=
  srvRank s.http + srvRank s.admin + provRank s.prov + s.httpReqs.length + s.adminReqs.length + (if s.main = .returned then 0 else 1)

theorem todo_step (hs : step s a = .ok s') : (inside a).toNat + todo s' ≤ todo s + (isRequest a).toNat := by
  cases a with
  | _ =>
    simp only [step] at hs
    repeat' split at hs
    all_goals first
      | (cases hs; done)
      | (simp only [Res.ok.injEq] at hs; subst hs
         simp_all [todo, srvRank, provRank, inside, isRequest, List.length_eraseIdx, ended]
         try grind [todo, srvRank, provRank, inside, isRequest, List.length_eraseIdx, ended])

theorem todo_runs (hr : Runs s as s') : as.countP inside + todo s' ≤ todo s + as.countP isRequest := by
  induction hr with
  | nil => simp
  | @cons s s1 s' a as hs _ ih =>
    have := todo_step hs
    rw [List.countP_cons, List.countP_cons]
    cases h1 : inside a <;> cases h2 : isRequest a <;> simp only [h1, h2, Bool.toNat_true, Bool.toNat_false] at this <;> simp <;> omega

/-- Nobody waits for anything but the time at which a request is due. -/
theorem can_go_on (h : Inv s) (hm : s.main = .joining) (hd : ∀ r ∈ s.httpReqs ++ s.adminReqs, ∀ d, r.due = some d → d ≤ s.now) :
    ∃ a s', inside a = true ∧ step s a = .ok s' := by
  have hh : s.hard = true := h.main (by rw [hm]; decide)
  have ans : ∀ r ∈ s.httpReqs ++ s.adminReqs, answerable s r = true := by
    intro r hr
    unfold answerable
    split
    · rfl
    · rename_i d hdu
      simp [hd r hr d hdu]
  cases hht : s.http with
  | starting => exact ⟨.httpUp, _, rfl, by simp only [step, hht, if_true]; rfl⟩
  | up => exact ⟨.httpSeeHard, _, rfl, by simp only [step, hht, hh, decide_true, Bool.and_self, if_true]; rfl⟩
  | draining =>
    cases hrq : s.httpReqs with
    | nil => exact ⟨.httpDrained, _, rfl, by simp only [step, hht, hrq, List.isEmpty_nil, decide_true, Bool.and_self, if_true]; rfl⟩
    | cons r rs =>
      refine ⟨.answer 0, { s with httpReqs := rs }, rfl, ?_⟩
      simp only [step, hrq, List.getElem?_cons_zero]
      rw [if_pos (ans r (by rw [hrq]; simp))]
      rfl
  | stopping => exact ⟨.httpDone, _, rfl, by simp only [step, hht, if_true]; rfl⟩
  | skipped => exact absurd hht h.httpSkip
  | _ =>
    cases had : s.admin with
    | starting => exact ⟨.adminUp, _, rfl, by simp only [step, had, if_true]; rfl⟩
    | up => exact ⟨.adminSeeHard, _, rfl, by simp only [step, had, hh, decide_true, Bool.and_self, if_true]; rfl⟩
    | draining =>
      cases hrq : s.adminReqs with
      | nil =>
        cases hso : s.sock with
        | true => exact ⟨.adminDrained, _, rfl, by simp only [step, had, hrq, hso, List.isEmpty_nil, decide_true, Bool.and_self, if_true]; rfl⟩
        | false => exact ⟨.adminDrained, { s with admin := .dead }, rfl, by simp [step, had, hrq, hso]⟩
      | cons r rs =>
        refine ⟨.adminAnswer 0, { s with adminReqs := rs }, rfl, ?_⟩
        simp only [step, hrq, List.getElem?_cons_zero]
        rw [if_pos (ans r (by rw [hrq]; simp))]
        rfl
    | stopping => exact absurd had h.adminStop
    | _ =>
      cases hpr : s.prov with
      | awaiting =>
        cases had : s.addr with
        | true => exact ⟨.provSpawn true, _, rfl, by simp only [step, hpr, had, decide_true, Bool.and_self, if_true]; rfl⟩
        | false =>
          have := h.noAddr had
          rw [hht] at this
          first
            | (rcases this with h | h <;> cases h; done)
            | (exact ⟨.provNoAddr, { s with prov := .dead }, rfl, by simp [step, hpr, hht, had]⟩)
      | running => exact ⟨.provCancel true, _, rfl, by simp only [step, hpr, hh, decide_true, Bool.and_self, if_true]; rfl⟩
      | _ => exact ⟨.joinDone, { s with main := .returned }, rfl, by simp [step, hm, hht, had, hpr, ended]⟩

theorem inside_keeps (hs : step s a = .ok s') (ha : inside a = true) : s'.now = s.now ∧ (s.main = .joining → s'.main = .joining ∨ s'.main = .returned) ∧
    ∀ r ∈ s'.httpReqs ++ s'.adminReqs, r ∈ s.httpReqs ++ s.adminReqs := by
  have er : ∀ {l : List Req} {i : Nat} {r : Req}, r ∈ l.eraseIdx i → r ∈ l := fun h => List.mem_of_mem_eraseIdx h
  cases a with
  | _ =>
    simp only [step] at hs
    repeat' split at hs
    all_goals first
      | (cases hs; done)
      | (cases ha; done)
      | (simp only [Res.ok.injEq] at hs; subst hs; refine ⟨rfl, ?_, ?_⟩ <;> first
          | (intro h; exact Or.inl h)
          | (intro h; exact Or.inr rfl)
          | (intro r hr; exact hr)
          | (intro r hr; rcases List.mem_append.1 hr with hr | hr <;> first
              | exact List.mem_append_left _ (er hr)
              | exact List.mem_append_right _ (er hr)
              | exact List.mem_append_left _ hr
              | exact List.mem_append_right _ hr))

theorem to_return : ∀ n (s : State), todo s ≤ n → Inv s → s.main = .joining →
    (∀ r ∈ s.httpReqs ++ s.adminReqs, ∀ d, r.due = some d → d ≤ s.now) →
    ∃ bs s', Runs s bs s' ∧ (∀ a ∈ bs, inside a = true) ∧ s'.main = .returned ∧ s'.now = s.now := by
  intro n
  induction n with
  | zero =>
    intro s hn _ hm
    simp [todo, hm] at hn
  | succ n ih =>
    intro s hn hi hm hd
    obtain ⟨a, s1, ha, hs⟩ := can_go_on hi hm hd
    obtain ⟨k1, k2, k3⟩ := inside_keeps hs ha
    have ht := todo_step hs
    have hq : isRequest a = false := by cases a <;> first | rfl | cases ha
    simp only [ha, hq, Bool.toNat_true, Bool.toNat_false] at ht
    rcases k2 hm with hm1 | hm1
    · obtain ⟨bs, s', h1, h2, h3, h4⟩ := ih s1 (by omega) (hi.step hs) hm1 (fun r hr d hdu => by rw [k1]; exact hd r (k3 r hr) d hdu)
      refine ⟨a :: bs, s', .cons hs h1, ?_, h3, by rw [h4, k1]⟩
      intro x hx
      rcases List.mem_cons.1 hx with rfl | hx
      · exact ha
      · exact h2 x hx
    · exact ⟨[a], s1, .cons hs (.nil _), by simpa using ha, hm1, k1⟩

theorem latest_ge {l : List Req} {r : Req} {d : Nat} (hr : r ∈ l) (hd : r.due = some d) : d ≤ latest l := by
  induction l with
  | nil => cases hr
  | cons x l ih =>
    simp only [latest]
    rcases List.mem_cons.1 hr with rfl | hr
    · rw [hd]; exact Nat.le_max_left _ _
    · exact Nat.le_trans (ih hr) (Nat.le_max_right _ _)

end Verif.Lifecycle
