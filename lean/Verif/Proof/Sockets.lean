import Verif.Spec.Sockets
import Verif.Proof.Json

/-!
# Lemmas for the socket files
-/

namespace Verif.Sockets
open Verif

/-! ### names -/

theorem strip_iff : ∀ (p s r : List Char), strip p s = some r ↔ s = p ++ r := by
  intro p
  induction p with
  | nil => intro s r; simp [strip]
  | cons c p ih =>
    intro s r
    cases s with
    | nil => simp [strip]
    | cons d s =>
      simp only [strip]
      by_cases h : c = d
      · subst h; simp [ih]
      · simp only [h, if_false, List.cons_append, List.cons.injEq]
        exact ⟨fun x => (by cases x), fun x => absurd x.1.symm h⟩

theorem dotSock_iff (s : List Char) : dotSock s = true ↔ ∃ c b, s = c :: (sock ++ b) ∧ c ≠ '\n' := by
  cases s with
  | nil => simp [dotSock]
  | cons c s =>
    simp only [dotSock, Bool.and_eq_true, bne_iff_ne, Option.isSome_iff_exists, strip_iff]
    constructor
    · rintro ⟨h, b, rfl⟩; exact ⟨c, b, rfl, h⟩
    · rintro ⟨c', b, h, hc⟩
      cases h; exact ⟨hc, b, rfl⟩

/-- What `digitsThen` finds. -/
theorem digitsThen_some {nd : Char → Bool} : ∀ {s ds : List Char}, digitsThen nd s = some ds →
    ∃ c b, s = ds ++ c :: (sock ++ b) ∧ ds ≠ [] ∧ (∀ x ∈ ds, nd x = true) ∧ c ≠ '\n' := by
  intro s
  induction s with
  | nil => intro ds h; simp [digitsThen] at h
  | cons c s ih =>
    intro ds h
    simp only [digitsThen] at h
    split at h
    · rename_i hc
      split at h
      · rename_i ds' hd
        cases h
        obtain ⟨c', b, h1, h2, h3, h4⟩ := ih hd
        exact ⟨c', b, by rw [h1]; rfl, by simp, by intro x hx; rcases List.mem_cons.1 hx with h | h; (subst h; exact hc); exact h3 x h, h4⟩
      · split at h
        · rename_i hd
          cases h
          obtain ⟨c', b, h1, h2⟩ := (dotSock_iff _).1 hd
          exact ⟨c', b, by rw [h1]; rfl, by simp, by intro x hx; rw [List.mem_singleton.1 hx]; exact hc, h2⟩
        · cases h
    · cases h

/-- It finds something if there is something. -/
theorem digitsThen_isSome {nd : Char → Bool} : ∀ {ds : List Char} {c : Char} {b : List Char}, ds ≠ [] → (∀ x ∈ ds, nd x = true) → c ≠ '\n' →
    ∃ ds', digitsThen nd (ds ++ c :: (sock ++ b)) = some ds' := by
  intro ds
  induction ds with
  | nil => intro c b h; exact absurd rfl h
  | cons d ds ih =>
    intro c b _ h2 h3
    have hd := h2 d (by simp)
    simp only [List.cons_append, digitsThen, hd, if_true]
    cases hx : digitsThen nd (ds ++ c :: (sock ++ b)) with
    | some ds' => exact ⟨_, rfl⟩
    | none =>
      cases ds with
      | nil =>
        have : dotSock ([] ++ c :: (sock ++ b)) = true := (dotSock_iff _).2 ⟨c, b, rfl, h3⟩
        rw [this]; exact ⟨_, rfl⟩
      | cons d' ds =>
        obtain ⟨ds', h⟩ := ih (c := c) (b := b) (by simp) (fun x hx => h2 x (List.mem_cons_of_mem _ hx)) h3
        rw [h] at hx; cases hx

theorem capture_some {nd : Char → Bool} : ∀ {name ds : List Char}, capture nd name = some ds → Looks nd name ds := by
  intro name
  induction name with
  | nil => intro ds h; simp [capture] at h
  | cons c s ih =>
    intro ds h
    simp only [capture, Option.or_eq_some_iff] at h
    rcases h with h | ⟨_, h⟩
    · obtain ⟨r, h1, h2⟩ := Option.bind_eq_some_iff.1 h
      obtain ⟨c', b, h3, h4, h5, h6⟩ := digitsThen_some h2
      exact ⟨[], c', b, by rw [(strip_iff _ _ _).1 h1, h3]; rfl, h4, h5, h6⟩
    · obtain ⟨a, c', b, h3, h4⟩ := ih h
      exact ⟨c :: a, c', b, by rw [h3]; rfl, h4⟩

theorem capture_isSome {nd : Char → Bool} : ∀ {name ds : List Char}, Looks nd name ds → ∃ ds', capture nd name = some ds' := by
  intro name
  induction name with
  | nil => intro ds h; obtain ⟨a, c, b, h, _⟩ := h; cases a <;> simp [wrk] at h
  | cons x s ih =>
    intro ds h
    obtain ⟨a, c, b, h1, h2, h3, h4⟩ := h
    simp only [capture]
    cases a with
    | nil =>
      obtain ⟨ds', hd⟩ := digitsThen_isSome (b := b) h2 h3 h4
      have : strip wrk (x :: s) = some (ds ++ c :: (sock ++ b)) := (strip_iff _ _ _).2 h1
      rw [this]
      exact ⟨ds', by simp [hd]⟩
    | cons y a =>
      simp only [List.cons_append, List.cons.injEq] at h1
      obtain ⟨ds', hd⟩ := ih ⟨a, c, b, h1.2, h2, h3, h4⟩
      rw [hd]
      cases hx : (strip wrk (x :: s)).bind (digitsThen nd) with
      | some d => exact ⟨d, by simp⟩
      | none => exact ⟨ds', by simp⟩

/-- Nothing but digits up to the dot: the whole number is found. -/
theorem digitsThen_exact {nd : Char → Bool} (hdot : nd '.' = false) : ∀ {ds : List Char}, ds ≠ [] → (∀ x ∈ ds, nd x = true) →
    digitsThen nd (ds ++ '.' :: sock) = some ds := by
  intro ds
  induction ds with
  | nil => intro h; exact absurd rfl h
  | cons d ds ih =>
    intro _ h
    have hd := h d (by simp)
    simp only [List.cons_append, digitsThen, hd, if_true]
    cases ds with
    | nil =>
      have : digitsThen nd ([] ++ '.' :: sock) = none := by simp [digitsThen, hdot]
      rw [this]
      rfl
    | cons d' ds =>
      rw [ih (by simp) (fun x hx => h x (List.mem_cons_of_mem _ hx))]

theorem ascii_of_isDigit {c : Char} (h : Json.isDigit c = true) : c.toNat < 128 := by
  simp [Json.isDigit] at h
  have := h.2
  omega

theorem decimal_nd {nd : Char → Bool} (hd : Digits nd) (p : Nat) : ∀ x ∈ Json.decimal p, nd x = true := by
  intro x hx
  have h := Json.decimal_digits p x hx
  rw [hd.ascii x (ascii_of_isDigit h)]; exact h

theorem dot_nd {nd : Char → Bool} (hd : Digits nd) : nd '.' = false := by
  rw [hd.ascii '.' (by decide)]; decide

theorem capture_sockName {nd : Char → Bool} (hd : Digits nd) (p : Nat) : capture nd (sockName p) = some (Json.decimal p) := by
  have h : strip wrk (sockName p) = some (Json.decimal p ++ '.' :: sock) := (strip_iff _ _ _).2 rfl
  have e : sockName p = 'w' :: (['r', 'k', '-'] ++ (Json.decimal p ++ '.' :: sock)) := rfl
  rw [e] at h ⊢
  simp only [capture, h]
  simp [digitsThen_exact (dot_nd hd) (Json.decimal_ne_nil p) (decimal_nd hd p)]

theorem parsePid_decimal {p : Nat} (h : p < 2 ^ 64) : parsePid (Json.decimal p) = some p := by
  unfold parsePid
  rw [Json.ofDigits_decimal, if_pos]
  rw [Bool.and_eq_true, List.all_eq_true]
  exact ⟨Json.decimal_digits p, by simpa using h⟩

theorem sockName_inj {p q : Nat} (h : sockName p = sockName q) : p = q := by
  unfold sockName at h
  have h1 := List.append_cancel_left h
  have h2 := List.append_cancel_right h1
  have := congrArg Json.ofDigits h2
  rwa [Json.ofDigits_decimal, Json.ofDigits_decimal] at this

/-! ### the directory -/

theorem has_iff {dir : List Entry} {n : List Char} : has dir n = true ↔ ∃ e ∈ dir, e.name = n := by simp [has]

theorem not_has_iff {dir : List Entry} {n : List Char} : has dir n = false ↔ ∀ e ∈ dir, e.name ≠ n := by simp [has]

theorem mem_unlink {dir : List Entry} {n : List Char} {e : Entry} : e ∈ unlink dir n ↔ e ∈ dir ∧ e.name ≠ n := by simp [unlink]

/-- No two files with the same name. -/
def Uniq (dir : List Entry) : Prop := dir.Pairwise (fun a b => a.name ≠ b.name)

theorem Uniq.unlink {dir : List Entry} (h : Uniq dir) (n : List Char) : Uniq (Sockets.unlink dir n) := List.Pairwise.filter _ h

theorem Uniq.snoc {dir : List Entry} (h : Uniq dir) {e : Entry} (hn : has dir e.name = false) : Uniq (dir ++ [e]) := by
  refine List.pairwise_append.2 ⟨h, by simp, ?_⟩
  intro a ha b hb
  rw [List.mem_singleton.1 hb]
  exact not_has_iff.1 hn a ha

theorem Uniq.eq {dir : List Entry} (h : Uniq dir) {a b : Entry} (ha : a ∈ dir) (hb : b ∈ dir) (e : a.name = b.name) : a = b := by
  induction dir with
  | nil => cases ha
  | cons x dir ih =>
    obtain ⟨h1, h2⟩ := List.pairwise_cons.1 h
    rcases List.mem_cons.1 ha with ha | ha <;> rcases List.mem_cons.1 hb with hb | hb
    · rw [ha, hb]
    · rw [ha] at e; exact absurd e (h1 b hb)
    · rw [hb] at e; exact absurd e.symm (h1 a ha)
    · exact ih h2 ha hb

theorem not_running_iff {s : State} {b p : Nat} : running s b p = false ↔ (b, p) ∉ s.procs := by
  simp [running]

theorem running_iff {s : State} {b p : Nat} : running s b p = true ↔ (b, p) ∈ s.procs := by
  simp [running]

/-! ### invariants -/

/-- Is the session going on? -/
def live (x : Sess) : Prop := x.st = .starting ∨ x.st = .serving

/-- What holds as long as everything is calm. -/
structure Inv (s : State) : Prop where
  uniq : Uniq s.dir
  serve : ∀ (i : Nat) (x : Sess), s.sess[i]? = some x → x.st = .serving → (⟨sockName x.pid, true, some i⟩ : Entry) ∈ s.dir
  start : ∀ (i : Nat) (x : Sess), s.sess[i]? = some x → x.st = .starting → has s.dir (sockName x.pid) = false
  lives : ∀ (i : Nat) (x : Sess), s.sess[i]? = some x → live x → x.box = 0 ∧ (0, x.pid) ∈ s.procs
  one : ∀ (i j : Nat) (x y : Sess), s.sess[i]? = some x → s.sess[j]? = some y → live x → live y → x.pid = y.pid → i = j
  doom : ∀ (c b : Nat) (n : List Char) (todo : List Entry), s.cleaners[c]? = some (⟨b, .doomed n todo⟩ : Cleaner) → ∀ p, n = sockName p → (0, p) ∉ s.procs
  cbox : ∀ (c : Nat) (x : Cleaner), s.cleaners[c]? = some x → x.box = 0
  pids : ∀ b p, (b, p) ∈ s.procs → b = 0 ∧ p < 2 ^ 22
  fine : ∀ (i : Nat) (x : Sess), s.sess[i]? = some x → x.st ≠ .panicked

theorem Inv.init : Inv init := by
  constructor <;> simp [Sockets.init, Uniq]

theorem getElem?_snoc {α : Type} {l : List α} {a b : α} {i : Nat} (h : (l ++ [a])[i]? = some b) : l[i]? = some b ∨ (i = l.length ∧ b = a) := by
  rw [List.getElem?_append] at h
  split at h
  · exact Or.inl h
  · right
    rename_i hn
    cases hi : i - l.length with
    | zero => rw [hi] at h; simp at h; exact ⟨by omega, h.symm⟩
    | succ k => rw [hi] at h; simp at h

theorem getElem?_setCases {α : Type} {l : List α} {a b : α} {i j : Nat} (h : (l.set i a)[j]? = some b) : (j = i ∧ b = a) ∨ (j ≠ i ∧ l[j]? = some b) := by
  rw [List.getElem?_set] at h
  split at h
  · split at h
    · rename_i e _; exact Or.inl ⟨e.symm, (Option.some.inj h).symm⟩
    · cases h
  · rename_i e; exact Or.inr ⟨fun h => e h.symm, h⟩

theorem Inv.step {nd : Char → Bool} (hd : Digits nd) {s s' : State} {a : Act} (h : Inv s) (hc : calm s a) (hs : step nd s a = .ok s') : Inv s' := by
  obtain ⟨c1, c2, c3, c4⟩ := hc
  cases a with
  | spawn b p =>
    simp only [Sockets.step] at hs
    split at hs
    · rename_i hx
      simp only [Res.ok.injEq] at hs; subst hs
      simp only [Bool.and_eq_true, Bool.not_eq_true', decide_eq_true_eq] at hx
      have hb : b = 0 := c1
      subst hb
      refine ⟨h.uniq, h.serve, h.start, ?_, h.one, ?_, h.cbox, ?_, h.fine⟩
      · intro i x hi hl
        obtain ⟨h1, h2⟩ := h.lives i x hi hl
        exact ⟨h1, List.mem_cons_of_mem _ h2⟩
      · intro c b n todo hcl q hq hm
        rcases List.mem_cons.1 hm with e | hm
        · have e : q = p := (Prod.mk.inj e).2
          subst e
          exact c4 _ (List.mem_of_getElem? hcl) n todo rfl hq
        · exact h.doom c b n todo hcl q hq hm
      · intro b q hm
        rcases List.mem_cons.1 hm with e | hm
        · obtain ⟨e1, e2⟩ := Prod.mk.inj e
          subst e1; subst e2; exact ⟨rfl, hx.2⟩
        · exact h.pids b q hm
    · cases hs
  | die b p =>
    simp only [Sockets.step, Res.ok.injEq] at hs; subst hs
    have key : ∀ (i : Nat) (x : Sess), (s.sess.map (fun x => if x.box = b && x.pid = p && (x.st = .starting || x.st = .serving) then { x with st := SessSt.killed } else x))[i]? = some x →
        (s.sess[i]? = some x ∧ (live x → ¬ (x.box = b ∧ x.pid = p))) ∨ x.st = .killed := by
      intro i x hi
      rw [List.getElem?_map, Option.map_eq_some_iff] at hi
      obtain ⟨y, hy, hi⟩ := hi
      split at hi
      · subst hi; exact Or.inr rfl
      · rename_i hn
        subst hi
        refine Or.inl ⟨hy, ?_⟩
        rintro hl ⟨e1, e2⟩
        apply hn
        rcases hl with hl | hl <;> simp [e1, e2, hl]
    refine ⟨h.uniq, ?_, ?_, ?_, ?_, ?_, h.cbox, ?_, ?_⟩
    · intro i x hi hst
      rcases key i x hi with hk | hk
      · exact h.serve i x hk.1 hst
      · rw [hk] at hst; cases hst
    · intro i x hi hst
      rcases key i x hi with hk | hk
      · exact h.start i x hk.1 hst
      · rw [hk] at hst; cases hst
    · intro i x hi hl
      rcases key i x hi with hk | hk
      · obtain ⟨h1, h2⟩ := h.lives i x hk.1 hl
        refine ⟨h1, List.mem_filter.2 ⟨h2, ?_⟩⟩
        rw [bne_iff_ne]
        intro e
        obtain ⟨e1, e2⟩ := Prod.mk.inj e
        exact hk.2 hl ⟨by rw [h1]; exact e1, e2⟩
      · rcases hl with hl | hl <;> (rw [hk] at hl; cases hl)
    · intro i j x y hi hj hl hl'
      rcases key i x hi with hk | hk
      · rcases key j y hj with hk' | hk'
        · exact h.one i j x y hk.1 hk'.1 hl hl'
        · rcases hl' with hl | hl <;> (rw [hk'] at hl; cases hl)
      · rcases hl with hl | hl <;> (rw [hk] at hl; cases hl)
    · intro c b n todo hcl q hq hm
      exact h.doom c b n todo hcl q hq (List.mem_filter.1 hm).1
    · intro b q hm
      exact h.pids b q (List.mem_filter.1 hm).1
    · intro i x hi
      rcases key i x hi with hk | hk
      · exact h.fine i x hk.1
      · rw [hk]; decide
  | start b p =>
    simp only [Sockets.step] at hs
    split at hs
    · rename_i hr
      simp only [Res.ok.injEq] at hs; subst hs
      have hb : b = 0 := c1
      subst hb
      have hp := running_iff.1 hr
      have hfree : ∀ (i : Nat) (x : Sess), s.sess[i]? = some x → live x → x.pid ≠ p := by
        intro i x hi hl e
        have := c2 x (List.mem_of_getElem? hi) (h.lives i x hi hl).1 e
        rcases hl with hl | hl
        · exact this.1 hl
        · exact this.2 hl
      refine ⟨h.uniq.unlink _, ?_, ?_, ?_, ?_, h.doom, h.cbox, h.pids, ?_⟩
      · intro i x hi hst
        rcases getElem?_snoc hi with hi | ⟨_, hi⟩
        · refine mem_unlink.2 ⟨h.serve i x hi hst, ?_⟩
          intro e
          exact hfree i x hi (Or.inr hst) (sockName_inj e)
        · rw [hi] at hst; cases hst
      · intro i x hi hst
        rcases getElem?_snoc hi with hi | ⟨_, hi⟩
        · refine not_has_iff.2 fun e he => ?_
          exact not_has_iff.1 (h.start i x hi hst) e (mem_unlink.1 he).1
        · rw [hi]
          exact not_has_iff.2 fun e he => (mem_unlink.1 he).2
      · intro i x hi hl
        rcases getElem?_snoc hi with hi | ⟨_, hi⟩
        · exact h.lives i x hi hl
        · rw [hi]; exact ⟨rfl, hp⟩
      · intro i j x y hi hj hl hl' e
        rcases getElem?_snoc hi with hi | ⟨hi', hi⟩ <;> rcases getElem?_snoc hj with hj | ⟨hj', hj⟩
        · exact h.one i j x y hi hj hl hl' e
        · rw [hj] at e; exact absurd e (hfree i x hi hl)
        · rw [hi] at e; exact absurd e.symm (hfree j y hj hl')
        · rw [hi', hj']
      · intro i x hi
        rcases getElem?_snoc hi with hi | ⟨_, hi⟩
        · exact h.fine i x hi
        · rw [hi]; intro e'; cases e'
    · cases hs
  | bind i =>
    simp only [Sockets.step] at hs
    split at hs
    · rename_i b p hi
      have hst := h.start i _ hi rfl
      obtain ⟨hb, hp⟩ := h.lives i _ hi (Or.inl rfl)
      rw [if_neg (by rw [hst]; decide)] at hs
      simp only [Res.ok.injEq] at hs; subst hs
      simp only at hb hp hst
      subst hb
      have hfree : ∀ (j : Nat) (x : Sess), j ≠ i → s.sess[j]? = some x → live x → x.pid ≠ p := by
        intro j x hj hx hl e
        exact hj (h.one j i x _ hx hi hl (Or.inl rfl) e)
      refine ⟨h.uniq.snoc hst, ?_, ?_, ?_, ?_, ?_, ?_, h.pids, ?_⟩
      · intro j x hj hsv
        rcases getElem?_setCases hj with ⟨e, hx⟩ | ⟨e, hx⟩
        · rw [hx, e]; simp
        · exact List.mem_append_left _ (h.serve j x hx hsv)
      · intro j x hj hsv
        rcases getElem?_setCases hj with ⟨e, hx⟩ | ⟨e, hx⟩
        · rw [hx] at hsv; cases hsv
        · refine not_has_iff.2 fun en he => ?_
          rcases List.mem_append.1 he with he | he
          · exact not_has_iff.1 (h.start j x hx hsv) en he
          · rw [List.mem_singleton.1 he]
            intro e'
            exact hfree j x e hx (Or.inl hsv) (sockName_inj e').symm
      · intro j x hj hl
        rcases getElem?_setCases hj with ⟨e, hx⟩ | ⟨e, hx⟩
        · rw [hx]; exact ⟨rfl, hp⟩
        · exact h.lives j x hx hl
      · intro j k x y hj hk hl hl' e
        rcases getElem?_setCases hj with ⟨e1, hx⟩ | ⟨e1, hx⟩ <;> rcases getElem?_setCases hk with ⟨e2, hy⟩ | ⟨e2, hy⟩
        · rw [e1, e2]
        · rw [hx] at e; exact absurd e.symm (hfree k y e2 hy hl')
        · rw [hy] at e; exact absurd e (hfree j x e1 hx hl)
        · exact h.one j k x y hx hy hl hl' e
      · intro c b n todo hcl
        rcases getElem?_snoc hcl with hcl | ⟨_, hcl⟩
        · exact h.doom c b n todo hcl
        · cases hcl
      · intro c x hcl
        rcases getElem?_snoc hcl with hcl | ⟨_, hcl⟩
        · exact h.cbox c x hcl
        · rw [hcl]
      · intro j x hj
        rcases getElem?_setCases hj with ⟨e, hx⟩ | ⟨e, hx⟩
        · rw [hx]; intro e'; cases e'
        · exact h.fine j x hx
    · cases hs
  | finish i =>
    simp only [Sockets.step] at hs
    split at hs
    · rename_i b p hi
      have hsv := h.serve i _ hi rfl
      rw [if_pos (has_iff.2 ⟨_, hsv, rfl⟩)] at hs
      simp only [Res.ok.injEq] at hs; subst hs
      have hfree : ∀ (j : Nat) (x : Sess), j ≠ i → s.sess[j]? = some x → live x → x.pid ≠ p := by
        intro j x hj hx hl e
        exact hj (h.one j i x _ hx hi hl (Or.inr rfl) e)
      have nolive : ¬ live ⟨b, p, .over⟩ := by rintro (h | h) <;> cases h
      refine ⟨h.uniq.unlink _, ?_, ?_, ?_, ?_, h.doom, h.cbox, h.pids, ?_⟩
      · intro j x hj hst
        rcases getElem?_setCases hj with ⟨e, hx⟩ | ⟨e, hx⟩
        · rw [hx] at hst; cases hst
        · refine mem_unlink.2 ⟨h.serve j x hx hst, fun e' => ?_⟩
          exact hfree j x e hx (Or.inr hst) (sockName_inj e')
      · intro j x hj hst
        rcases getElem?_setCases hj with ⟨e, hx⟩ | ⟨e, hx⟩
        · rw [hx] at hst; cases hst
        · exact not_has_iff.2 fun en he => not_has_iff.1 (h.start j x hx hst) en (mem_unlink.1 he).1
      · intro j x hj hl
        rcases getElem?_setCases hj with ⟨e, hx⟩ | ⟨e, hx⟩
        · rw [hx] at hl; exact absurd hl nolive
        · exact h.lives j x hx hl
      · intro j k x y hj hk hl hl' e
        rcases getElem?_setCases hj with ⟨e1, hx⟩ | ⟨e1, hx⟩
        · rw [hx] at hl; exact absurd hl nolive
        · rcases getElem?_setCases hk with ⟨e2, hy⟩ | ⟨e2, hy⟩
          · rw [hy] at hl'; exact absurd hl' nolive
          · exact h.one j k x y hx hy hl hl' e
      · intro j x hj
        rcases getElem?_setCases hj with ⟨e, hx⟩ | ⟨e, hx⟩
        · rw [hx]; intro e'; cases e'
        · exact h.fine j x hx
    · cases hs
  | list c =>
    simp only [Sockets.step] at hs
    split at hs
    · rename_i b hcl
      simp only [Res.ok.injEq] at hs; subst hs
      refine ⟨h.uniq, h.serve, h.start, h.lives, h.one, ?_, ?_, h.pids, h.fine⟩
      · intro c' b' n todo hcl'
        rcases getElem?_setCases hcl' with ⟨e, hx⟩ | ⟨e, hx⟩
        · cases hx
        · exact h.doom c' b' n todo hx
      · intro c' x hcl'
        rcases getElem?_setCases hcl' with ⟨e, hx⟩ | ⟨e, hx⟩
        · rw [hx]; have := h.cbox c _ hcl; exact this
        · exact h.cbox c' x hx
    · cases hs
  | look c =>
    have gen : ∀ b st st', s.cleaners[c]? = some ⟨b, st⟩ → (∀ n todo, st' = .doomed n todo → ∀ p, n = sockName p → (0, p) ∉ s.procs) →
        Inv { s with cleaners := s.cleaners.set c ⟨b, st'⟩ } := by
      intro b st st' hcl hdo
      refine ⟨h.uniq, h.serve, h.start, h.lives, h.one, ?_, ?_, h.pids, h.fine⟩
      · intro c' b' n todo hcl'
        rcases getElem?_setCases hcl' with ⟨e, hx⟩ | ⟨e, hx⟩
        · cases hx; exact hdo n todo rfl
        · exact h.doom c' b' n todo hx
      · intro c' x hcl'
        rcases getElem?_setCases hcl' with ⟨e, hx⟩ | ⟨e, hx⟩
        · rw [hx]; have := h.cbox c _ hcl; exact this
        · exact h.cbox c' x hx
    simp only [Sockets.step] at hs
    split at hs
    · rename_i b hcl
      simp only [Res.ok.injEq] at hs; subst hs
      exact gen b _ _ hcl (by intro n todo e; cases e)
    · rename_i b e todo hcl
      simp only [Res.ok.injEq] at hs; subst hs
      refine gen b _ _ hcl ?_
      intro n todo' hl p hn hm
      have hb := h.cbox c _ hcl
      simp only at hb
      subst hb
      simp only [lookAt] at hl
      repeat' split at hl
      all_goals first | (cases hl; done) | skip
      rename_i ds hcap hsock _ m hpar hrun
      simp only [CleanSt.doomed.injEq] at hl
      rw [← hl.1] at hn
      rw [hn, capture_sockName hd, Option.some.injEq] at hcap
      subst hcap
      have hlt := (h.pids _ _ hm).2
      rw [parsePid_decimal (Nat.lt_trans hlt (by decide)), Option.some.injEq] at hpar
      subst hpar
      apply hrun
      rw [running_iff]
      rw [toPid, Nat.mod_eq_of_lt (Nat.lt_trans hlt (by decide))]
      exact hm
    · cases hs
  | remove c =>
    simp only [Sockets.step] at hs
    split at hs
    · rename_i b name todo hcl
      have hdo := h.doom c b name todo hcl
      have hcb := h.cbox c _ hcl
      have hnl : ∀ (i : Nat) (x : Sess), s.sess[i]? = some x → live x → sockName x.pid ≠ name := by
        intro i x hi hl e
        exact hdo x.pid e.symm (h.lives i x hi hl).2
      have hcl2 : ∀ st : CleanSt, (∀ n t, st ≠ .doomed n t) → (∀ (c' b' : Nat) (n : List Char) (t : List Entry), (s.cleaners.set c ⟨b, st⟩)[c']? = some (⟨b', .doomed n t⟩ : Cleaner) →
          ∀ p, n = sockName p → (0, p) ∉ s.procs) ∧ (∀ (c' : Nat) (x : Cleaner), (s.cleaners.set c ⟨b, st⟩)[c']? = some x → x.box = 0) := by
        intro st hst
        refine ⟨?_, ?_⟩
        · intro c' b' n t hx
          rcases getElem?_setCases hx with ⟨e, hx⟩ | ⟨e, hx⟩
          · cases hx; exact absurd rfl (hst n t)
          · exact h.doom c' b' n t hx
        · intro c' x hx
          rcases getElem?_setCases hx with ⟨e, hx⟩ | ⟨e, hx⟩
          · rw [hx]; exact hcb
          · exact h.cbox c' x hx
      split at hs
      · simp only [Res.ok.injEq] at hs; subst hs
        have h2 := hcl2 (.scanning todo) (by intro n t e; cases e)
        refine ⟨h.uniq.unlink _, ?_, ?_, h.lives, h.one, h2.1, h2.2, h.pids, h.fine⟩
        · intro i x hi hst
          exact mem_unlink.2 ⟨h.serve i x hi hst, hnl i x hi (Or.inr hst)⟩
        · intro i x hi hst
          exact not_has_iff.2 fun en he => not_has_iff.1 (h.start i x hi hst) en (mem_unlink.1 he).1
      · simp only [Res.ok.injEq] at hs; subst hs
        have h2 := hcl2 .failed (by intro n t e; cases e)
        exact ⟨h.uniq, h.serve, h.start, h.lives, h.one, h2.1, h2.2, h.pids, h.fine⟩
    · cases hs
  | create name sk =>
    simp only [Sockets.step] at hs
    split at hs
    · cases hs
    · rename_i hn
      simp only [Res.ok.injEq] at hs; subst hs
      have hf : ∀ p, name ≠ sockName p := c3
      refine ⟨h.uniq.snoc (by simpa using hn), ?_, ?_, h.lives, h.one, h.doom, h.cbox, h.pids, h.fine⟩
      · intro i x hi hst
        exact List.mem_append_left _ (h.serve i x hi hst)
      · intro i x hi hst
        refine not_has_iff.2 fun en he => ?_
        rcases List.mem_append.1 he with he | he
        · exact not_has_iff.1 (h.start i x hi hst) en he
        · rw [List.mem_singleton.1 he]; exact hf _
  | delete name =>
    simp only [Sockets.step, Res.ok.injEq] at hs; subst hs
    have hf : ∀ p, name ≠ sockName p := c3
    refine ⟨h.uniq.unlink _, ?_, ?_, h.lives, h.one, h.doom, h.cbox, h.pids, h.fine⟩
    · intro i x hi hst
      exact mem_unlink.2 ⟨h.serve i x hi hst, fun e => hf _ e.symm⟩
    · intro i x hi hst
      exact not_has_iff.2 fun en he => not_has_iff.1 (h.start i x hi hst) en (mem_unlink.1 he).1

theorem Runs.inv {nd : Char → Bool} (hd : Digits nd) {as : List Act} {s : State} (h : Runs nd calm Sockets.init as s) : Inv s := by
  induction h with
  | nil => exact Inv.init
  | snoc _ hc hs ih => exact ih.step hd hc hs

/-! ### what a cleaner removes -/

theorem Runs.append {nd : Char → Bool} {ok : State → Act → Prop} {as bs : List Act} {s s1 s2 : State} (h1 : Runs nd ok s as s1)
    (h2 : Runs nd ok s1 bs s2) : Runs nd ok s (as ++ bs) s2 := by
  induction h2 with
  | nil => rw [List.append_nil]; exact h1
  | snoc _ hc hs ih => rw [← List.append_assoc]; exact .snoc ih hc hs

/-- At some moment of a run. -/
def At (nd : Char → Bool) (as : List Act) (P : State → Prop) : Prop :=
  ∃ as1 as2 s1, as = as1 ++ as2 ∧ Runs nd anything init as1 s1 ∧ P s1

theorem At.snoc {nd : Char → Bool} {as : List Act} {P : State → Prop} (h : At nd as P) (a : Act) : At nd (as ++ [a]) P := by
  obtain ⟨as1, as2, s1, h1, h2⟩ := h
  exact ⟨as1, as2 ++ [a], s1, by rw [h1, List.append_assoc], h2⟩

theorem At.now {nd : Char → Bool} {as : List Act} {s : State} {P : State → Prop} (hr : Runs nd anything init as s) (h : P s) : At nd as P :=
  ⟨as, [], s, by simp, hr, h⟩

/-- Why a name is doomed. -/
def Why (nd : Char → Bool) (as : List Act) (b : Nat) (name : List Char) : Prop :=
  At nd as (fun s => ∃ e ∈ s.dir, e.name = name ∧ e.socket = true) ∧
  ∃ ds n, capture nd name = some ds ∧ parsePid ds = some n ∧ At nd as (fun s => (b, toPid n) ∉ s.procs)

/-- What is known about the lists of the cleaners. -/
structure Seen (nd : Char → Bool) (as : List Act) (s : State) : Prop where
  todo : ∀ (c b : Nat) (todo : List Entry), s.cleaners[c]? = some (⟨b, .scanning todo⟩ : Cleaner) → ∀ e ∈ todo, At nd as (fun s => e ∈ s.dir)
  doom : ∀ (c b : Nat) (n : List Char) (todo : List Entry), s.cleaners[c]? = some (⟨b, .doomed n todo⟩ : Cleaner) →
    Why nd as b n ∧ ∀ e ∈ todo, At nd as (fun s => e ∈ s.dir)

theorem Why.snoc {nd : Char → Bool} {as : List Act} {b : Nat} {n : List Char} (h : Why nd as b n) (a : Act) : Why nd (as ++ [a]) b n := by
  obtain ⟨h1, ds, m, h2, h3, h4⟩ := h
  exact ⟨h1.snoc a, ds, m, h2, h3, h4.snoc a⟩

theorem Seen.snoc {nd : Char → Bool} {as : List Act} {s : State} (h : Seen nd as s) (a : Act) : Seen nd (as ++ [a]) s :=
  ⟨fun c b todo hc e he => (h.todo c b todo hc e he).snoc a,
    fun c b n todo hc => ⟨(h.doom c b n todo hc).1.snoc a, fun e he => ((h.doom c b n todo hc).2 e he).snoc a⟩⟩

theorem Seen.set {nd : Char → Bool} {as : List Act} {s s' : State} (h : Seen nd as s) {c b : Nat} {st : CleanSt}
    (h1 : ∀ todo, st = .scanning todo → ∀ e ∈ todo, At nd as (fun s => e ∈ s.dir))
    (h2 : ∀ n todo, st = .doomed n todo → Why nd as b n ∧ ∀ e ∈ todo, At nd as (fun s => e ∈ s.dir))
    (hs : s'.cleaners = s.cleaners.set c ⟨b, st⟩) : Seen nd as s' := by
  refine ⟨?_, ?_⟩
  · intro c' b' todo hc
    rw [hs] at hc
    rcases getElem?_setCases hc with ⟨_, hx⟩ | ⟨_, hx⟩
    · cases hx; exact h1 _ rfl
    · exact h.todo c' b' todo hx
  · intro c' b' n todo hc
    rw [hs] at hc
    rcases getElem?_setCases hc with ⟨_, hx⟩ | ⟨_, hx⟩
    · cases hx; exact h2 _ _ rfl
    · exact h.doom c' b' n todo hx

theorem Seen.same {nd : Char → Bool} {as : List Act} {s s' : State} (h : Seen nd as s) (hs : s'.cleaners = s.cleaners) : Seen nd as s' :=
  ⟨by rw [hs]; exact h.todo, by rw [hs]; exact h.doom⟩

theorem seen {nd : Char → Bool} {as : List Act} {s : State} (hr : Runs nd anything init as s) : Seen nd as s := by
  induction hr with
  | nil => constructor <;> simp [init]
  | @snoc s1 s' a as hr _ hs ih =>
    have ih2 := ih.snoc a
    cases a with
    | list c =>
      simp only [step] at hs
      split at hs
      · rename_i b hcl
        simp only [Res.ok.injEq] at hs; subst hs
        refine ih2.set (c := c) (b := b) (st := .scanning s1.dir) ?_ (by intro n t e; cases e) rfl
        intro todo e en hen
        cases e
        exact (At.now hr hen).snoc _
      · cases hs
    | look c =>
      simp only [step] at hs
      split at hs
      · rename_i b hcl
        simp only [Res.ok.injEq] at hs; subst hs
        exact ih2.set (c := c) (b := b) (st := .finished) (by intro t e; cases e) (by intro n t e; cases e) rfl
      · rename_i b e todo hcl
        simp only [Res.ok.injEq] at hs; subst hs
        have ht := ih2.todo c b _ hcl
        refine ih2.set (c := c) (b := b) (st := lookAt nd s1 b e todo) ?_ ?_ rfl
        · intro t hl
          simp only [lookAt] at hl
          have : t = todo := by
            repeat' split at hl
            all_goals first | (cases hl; rfl) | (cases hl; done)
          rw [this]
          exact fun x hx => ht x (List.mem_cons_of_mem _ hx)
        · intro n t hl
          simp only [lookAt] at hl
          repeat' split at hl
          all_goals first | (cases hl; done) | skip
          rename_i ds hcap hsock _ m hpar hrun
          simp only [CleanSt.doomed.injEq] at hl
          obtain ⟨e1, e2⟩ := hl
          subst e1; subst e2
          refine ⟨⟨?_, ds, m, hcap, hpar, ?_⟩, fun x hx => ht x (List.mem_cons_of_mem _ hx)⟩
          · obtain ⟨as1, as2, s2, h1, h2, h3⟩ := ht e (by simp)
            exact ⟨as1, as2, s2, h1, h2, e, h3, rfl, hsock⟩
          · refine (At.now (P := fun s => (b, toPid m) ∉ s.procs) hr ?_).snoc _
            exact not_running_iff.1 (by simpa using hrun)
      · cases hs
    | remove c =>
      simp only [step] at hs
      split at hs
      · rename_i b name todo hcl
        split at hs
        · simp only [Res.ok.injEq] at hs; subst hs
          refine ih2.set (c := c) (b := b) (st := .scanning todo) ?_ (by intro n t e; cases e) rfl
          intro t e
          cases e
          exact (ih2.doom c b name todo hcl).2
        · simp only [Res.ok.injEq] at hs; subst hs
          exact ih2.set (c := c) (b := b) (st := .failed) (by intro t e; cases e) (by intro n t e; cases e) rfl
      · cases hs
    | bind i =>
      simp only [step] at hs
      split at hs
      · split at hs
        · simp only [Res.ok.injEq] at hs; subst hs; exact ih2.same rfl
        · simp only [Res.ok.injEq] at hs; subst hs
          refine ⟨?_, ?_⟩
          · intro c b todo hcl
            rcases getElem?_snoc hcl with hcl | ⟨_, hcl⟩
            · exact ih2.todo c b todo hcl
            · cases hcl
          · intro c b n todo hcl
            rcases getElem?_snoc hcl with hcl | ⟨_, hcl⟩
            · exact ih2.doom c b n todo hcl
            · cases hcl
      · cases hs
    | _ =>
      simp only [step] at hs
      repeat' split at hs
      all_goals first
        | (cases hs; done)
        | (simp only [Res.ok.injEq] at hs; subst hs; exact ih2.same rfl)

theorem uniq_step {nd : Char → Bool} {s s' : State} {a : Act} (h : Uniq s.dir) (hs : step nd s a = .ok s') : Uniq s'.dir := by
  cases a with
  | _ =>
    simp only [step] at hs
    repeat' split at hs
    all_goals first
      | (cases hs; done)
      | (simp only [Res.ok.injEq] at hs; subst hs; first | exact h | exact h.unlink _ | (rename_i hx; exact h.snoc (by simpa using hx)))

theorem uniq_runs {nd : Char → Bool} {ok : State → Act → Prop} {as : List Act} {s : State} (hr : Runs nd ok init as s) : Uniq s.dir := by
  induction hr with
  | nil => simp [init, Uniq]
  | snoc _ _ hs ih => exact uniq_step ih hs

/-! ### a cleaner alone -/

/-- The files it leaves. -/
def keep (nd : Char → Bool) (s : State) (b : Nat) (l : List Entry) : List Entry := l.filter (fun e => !stale nd s b e)

/-- Where a cleaner is that began in the state `s`. -/
def Alone (nd : Char → Bool) (s : State) (b : Nat) (dir : List Entry) : CleanSt → Prop
  | .ready => dir = s.dir
  | .scanning todo => ∃ l, s.dir = l ++ todo ∧ dir = keep nd s b l ++ todo ∧ ∀ e ∈ l, bad nd e = false
  | .doomed n todo => ∃ l e, s.dir = l ++ e :: todo ∧ dir = keep nd s b l ++ e :: todo ∧ (∀ e ∈ l, bad nd e = false) ∧ e.name = n ∧
      stale nd s b e = true ∧ bad nd e = false
  | .finished => dir = keep nd s b s.dir ∧ ∀ e ∈ s.dir, bad nd e = false
  | .failed => False
  | .panicked => ∃ l e todo, s.dir = l ++ e :: todo ∧ dir = keep nd s b l ++ e :: todo ∧ (∀ e ∈ l, bad nd e = false) ∧ bad nd e = true

theorem unlink_mid {l t : List Entry} {e : Entry} (h : Uniq (l ++ e :: t)) : unlink (l ++ e :: t) e.name = l ++ t := by
  obtain ⟨_, h2, h3⟩ := List.pairwise_append.1 h
  obtain ⟨h4, _⟩ := List.pairwise_cons.1 h2
  unfold unlink
  rw [List.filter_append, List.filter_cons_of_neg (by simp)]
  rw [List.filter_eq_self.2, List.filter_eq_self.2]
  · intro a ha; rw [bne_iff_ne]; exact fun e' => h4 a ha e'.symm
  · intro a ha; rw [bne_iff_ne]; exact h3 a ha e (by simp)

/-- The three outcomes of a look. -/
theorem lookAt_cases (nd : Char → Bool) (s : State) (b : Nat) (e : Entry) (todo : List Entry) :
    (lookAt nd s b e todo = .scanning todo ∧ stale nd s b e = false ∧ bad nd e = false) ∨
    (lookAt nd s b e todo = .doomed e.name todo ∧ stale nd s b e = true ∧ bad nd e = false) ∨
    (lookAt nd s b e todo = .panicked ∧ stale nd s b e = false ∧ bad nd e = true) := by
  unfold lookAt stale bad
  cases hc : capture nd e.name with
  | none => simp
  | some ds =>
    cases hk : e.socket with
    | false => simp
    | true =>
      cases hp : parsePid ds with
      | none => simp [hp]
      | some n =>
        cases hr : running s b (toPid n) with
        | true => simp [hp, hr]
        | false => simp [hp, hr]

theorem stale_congr {nd : Char → Bool} {s s' : State} (h : s'.procs = s.procs) (b : Nat) (e : Entry) : stale nd s' b e = stale nd s b e := by
  unfold stale running
  rw [h]

theorem alone_step {nd : Char → Bool} {s s1 s2 : State} {b c : Nat} {st : CleanSt} {a : Act} (hu : Uniq s.dir) (hp : s1.procs = s.procs)
    (hc : s1.cleaners[c]? = some ⟨b, st⟩) (h : Alone nd s b s1.dir st) (ha : alone c s1 a) (hs : step nd s1 a = .ok s2) :
    s2.procs = s.procs ∧ ∃ st', s2.cleaners[c]? = some ⟨b, st'⟩ ∧ Alone nd s b s2.dir st' := by
  have hlt : c < s1.cleaners.length := (List.getElem?_eq_some_iff.1 hc).1
  have hset : ∀ x, (s1.cleaners.set c x)[c]? = some x := fun x => by rw [List.getElem?_set, if_pos rfl, if_pos hlt]
  cases a with
  | list c' =>
    have e : c' = c := ha
    subst e
    simp only [step, hc] at hs
    cases st with
    | ready =>
      simp only [Res.ok.injEq] at hs; subst hs
      have h : s1.dir = s.dir := h
      exact ⟨hp, _, hset _, [], by simp [h], by simp [keep], by simp⟩
    | _ => cases hs
  | look c' =>
    have e : c' = c := ha
    subst e
    simp only [step, hc] at hs
    cases st with
    | scanning todo =>
      obtain ⟨l, h1, h2, h3⟩ := h
      cases todo with
      | nil =>
        simp only [Res.ok.injEq] at hs; subst hs
        rw [List.append_nil] at h1 h2
        exact ⟨hp, _, hset _, by rw [h2, h1], by rw [h1]; exact h3⟩
      | cons e todo =>
        simp only [Res.ok.injEq] at hs; subst hs
        refine ⟨hp, _, hset _, ?_⟩
        rcases lookAt_cases nd s1 b e todo with ⟨e1, e2, e3⟩ | ⟨e1, e2, e3⟩ | ⟨e1, e2, e3⟩ <;> rw [e1] <;> rw [stale_congr hp] at e2
        · refine ⟨l ++ [e], by rw [h1]; simp, ?_, ?_⟩
          · show s1.dir = _
            rw [h2]; simp [keep, List.filter_append, e2]
          · intro x hx
            rcases List.mem_append.1 hx with hx | hx
            · exact h3 x hx
            · rw [List.mem_singleton.1 hx]; exact e3
        · exact ⟨l, e, h1, h2, h3, rfl, e2, e3⟩
        · exact ⟨l, e, todo, h1, h2, h3, e3⟩
    | _ => cases hs
  | remove c' =>
    have e : c' = c := ha
    subst e
    simp only [step, hc] at hs
    cases st with
    | doomed n todo =>
      obtain ⟨l, e, h1, h2, h3, h4, h5, h6⟩ := h
      subst h4
      have hh : has s1.dir e.name = true := has_iff.2 ⟨e, by rw [h2]; simp, rfl⟩
      simp only [hh, if_true, Res.ok.injEq] at hs; subst hs
      refine ⟨hp, _, hset _, l ++ [e], by rw [h1]; simp, ?_, ?_⟩
      · show unlink s1.dir e.name = _
        rw [h2, unlink_mid]
        · simp [keep, List.filter_append, h5]
        · rw [h1] at hu
          refine List.Pairwise.sublist ?_ hu
          exact List.Sublist.append List.filter_sublist (List.Sublist.refl _)
      · intro x hx
        rcases List.mem_append.1 hx with hx | hx
        · exact h3 x hx
        · rw [List.mem_singleton.1 hx]; exact h6
    | _ => cases hs
  | _ => exact absurd ha id

theorem alone_runs {nd : Char → Bool} {s s' : State} {b c : Nat} {as : List Act} (hu : Uniq s.dir) (hc : s.cleaners[c]? = some ⟨b, .ready⟩)
    (hr : Runs nd (alone c) s as s') : s'.procs = s.procs ∧ ∃ st, s'.cleaners[c]? = some ⟨b, st⟩ ∧ Alone nd s b s'.dir st := by
  induction hr with
  | nil => exact ⟨rfl, _, hc, rfl⟩
  | snoc _ ha hs ih =>
    obtain ⟨h1, st, h2, h3⟩ := ih
    exact alone_step hu h1 h2 h3 ha hs

/-- How much is left to do. -/
def left (s : State) : CleanSt → Nat
  | .ready => 2 * s.dir.length + 2
  | .scanning todo => 2 * todo.length + 1
  | .doomed _ todo => 2 * todo.length + 2
  | _ => 0

theorem alone_ends {nd : Char → Bool} {s : State} {b c : Nat} (hu : Uniq s.dir) (hc : s.cleaners[c]? = some ⟨b, .ready⟩) :
    ∀ (k : Nat) (as : List Act) (s1 : State) (st : CleanSt), left s st ≤ k → Runs nd (alone c) s as s1 → s1.cleaners[c]? = some ⟨b, st⟩ →
      ∃ bs s2 st2, Runs nd (alone c) s bs s2 ∧ s2.cleaners[c]? = some ⟨b, st2⟩ ∧ (st2 = .finished ∨ st2 = .panicked) := by
  intro k
  induction k with
  | zero =>
    intro as s1 st hk hr hcl
    obtain ⟨_, st', h2, h3⟩ := alone_runs hu hc hr
    rw [hcl] at h2
    cases h2
    cases st with
    | finished => exact ⟨as, s1, _, hr, hcl, Or.inl rfl⟩
    | panicked => exact ⟨as, s1, _, hr, hcl, Or.inr rfl⟩
    | failed => exact absurd h3 id
    | _ => simp [left] at hk
  | succ k ih =>
    intro as s1 st hk hr hcl
    have hlt : c < s1.cleaners.length := (List.getElem?_eq_some_iff.1 hcl).1
    have hset : ∀ x, (s1.cleaners.set c x)[c]? = some x := fun x => by rw [List.getElem?_set, if_pos rfl, if_pos hlt]
    obtain ⟨_, st', h2, h3⟩ := alone_runs hu hc hr
    rw [hcl] at h2
    cases h2
    cases st with
    | finished => exact ⟨as, s1, _, hr, hcl, Or.inl rfl⟩
    | panicked => exact ⟨as, s1, _, hr, hcl, Or.inr rfl⟩
    | failed => exact absurd h3 id
    | ready =>
      have hs : step nd s1 (.list c) = .ok { s1 with cleaners := s1.cleaners.set c ⟨b, .scanning s1.dir⟩ } := by simp only [step, hcl]
      refine ih _ _ (.scanning s1.dir) ?_ (.snoc (a := .list c) hr rfl hs) (hset _)
      have : s1.dir = s.dir := h3
      simp only [left] at hk ⊢; rw [this]; omega
    | scanning todo =>
      cases todo with
      | nil =>
        have hs : step nd s1 (.look c) = .ok { s1 with cleaners := s1.cleaners.set c ⟨b, .finished⟩ } := by simp only [step, hcl]
        exact ih _ _ .finished (by simp [left]) (.snoc (a := .look c) hr rfl hs) (hset _)
      | cons e todo =>
        have hs : step nd s1 (.look c) = .ok { s1 with cleaners := s1.cleaners.set c ⟨b, lookAt nd s1 b e todo⟩ } := by simp only [step, hcl]
        refine ih _ _ (lookAt nd s1 b e todo) ?_ (.snoc (a := .look c) hr rfl hs) (hset _)
        simp only [left, List.length_cons] at hk
        rcases lookAt_cases nd s1 b e todo with ⟨e1, _⟩ | ⟨e1, _⟩ | ⟨e1, _⟩ <;> rw [e1] <;> simp only [left] <;> omega
    | doomed n todo =>
      obtain ⟨l, e, h1, h2, h3, h4, h5, h6⟩ := h3
      have hh : has s1.dir n = true := has_iff.2 ⟨e, by rw [h2]; simp, h4⟩
      have hs : step nd s1 (.remove c) = .ok { s1 with
          dir := unlink s1.dir n
          cleaners := s1.cleaners.set c ⟨b, .scanning todo⟩ } := by simp only [step, hcl, hh, if_true]
      refine ih _ _ (.scanning todo) ?_ (.snoc (a := .remove c) hr rfl hs) (hset _)
      simp only [left] at hk ⊢; omega

/-! ### concrete runs -/

/-- All characters are ASCII. -/
def Ascii (l : List Char) : Prop := ∀ c ∈ l, c.toNat < 128

instance (l : List Char) : Decidable (Ascii l) := inferInstanceAs (Decidable (∀ c ∈ l, c.toNat < 128))

theorem digitsThen_congr {nd nd' : Char → Bool} : ∀ {l : List Char}, (∀ c ∈ l, nd c = nd' c) → digitsThen nd l = digitsThen nd' l := by
  intro l
  induction l with
  | nil => intro _; rfl
  | cons c l ih =>
    intro h
    simp only [digitsThen, h c (by simp), ih (fun x hx => h x (List.mem_cons_of_mem _ hx))]

theorem capture_congr {nd nd' : Char → Bool} : ∀ {l : List Char}, (∀ c ∈ l, nd c = nd' c) → capture nd l = capture nd' l := by
  intro l
  induction l with
  | nil => intro _; rfl
  | cons c l ih =>
    intro h
    simp only [capture, ih (fun x hx => h x (List.mem_cons_of_mem _ hx))]
    congr 1
    cases hs : strip wrk (c :: l) with
    | none => rfl
    | some r =>
      simp only [Option.bind_some]
      refine digitsThen_congr fun x hx => h x ?_
      rw [(strip_iff _ _ _).1 hs]
      exact List.mem_append_right _ hx

/-- All names in lists. -/
def AsciiDir (l : List Entry) : Prop := ∀ e ∈ l, Ascii e.name

/-- All names in the state. -/
structure AsciiState (s : State) : Prop where
  dir : AsciiDir s.dir
  scan : ∀ (c b : Nat) (todo : List Entry), s.cleaners[c]? = some (⟨b, .scanning todo⟩ : Cleaner) → AsciiDir todo
  doom : ∀ (c b : Nat) (n : List Char) (todo : List Entry), s.cleaners[c]? = some (⟨b, .doomed n todo⟩ : Cleaner) → AsciiDir todo

theorem ascii_sockName (p : Nat) : Ascii (sockName p) := by
  intro c hc
  unfold sockName at hc
  rcases List.mem_append.1 hc with h | h
  · exact (by decide : ∀ c ∈ wrk, c.toNat < 128) c h
  · rcases List.mem_append.1 h with h | h
    · exact ascii_of_isDigit (Json.decimal_digits p c h)
    · exact (by decide : ∀ c ∈ '.' :: sock, c.toNat < 128) c h

theorem AsciiDir.unlink {l : List Entry} (h : AsciiDir l) (n : List Char) : AsciiDir (Sockets.unlink l n) :=
  fun e he => h e (mem_unlink.1 he).1

theorem AsciiState.set {s s' : State} (h : AsciiState s) {c b : Nat} {st : CleanSt} (hd : AsciiDir s'.dir)
    (h1 : ∀ todo, st = .scanning todo → AsciiDir todo) (h2 : ∀ n todo, st = .doomed n todo → AsciiDir todo)
    (hs : s'.cleaners = s.cleaners.set c ⟨b, st⟩) : AsciiState s' := by
  refine ⟨hd, ?_, ?_⟩
  · intro c' b' todo hc
    rw [hs] at hc
    rcases getElem?_setCases hc with ⟨_, hx⟩ | ⟨_, hx⟩
    · cases hx; exact h1 _ rfl
    · exact h.scan c' b' todo hx
  · intro c' b' n todo hc
    rw [hs] at hc
    rcases getElem?_setCases hc with ⟨_, hx⟩ | ⟨_, hx⟩
    · cases hx; exact h2 _ _ rfl
    · exact h.doom c' b' n todo hx

theorem ascii_step {nd : Char → Bool} {s s' : State} {a : Act} (h : AsciiState s) (ha : ∀ n k, a = .create n k → Ascii n)
    (hs : step nd s a = .ok s') : AsciiState s' := by
  cases a with
  | look c =>
    simp only [step] at hs
    split at hs
    · simp only [Res.ok.injEq] at hs; subst hs
      exact h.set h.dir (by intro t e; cases e) (by intro n t e; cases e) rfl
    · rename_i b e todo hcl
      simp only [Res.ok.injEq] at hs; subst hs
      have ht : AsciiDir todo := fun x hx => h.scan c b _ hcl x (List.mem_cons_of_mem _ hx)
      refine h.set h.dir ?_ ?_ rfl
      · intro t hl
        rcases lookAt_cases nd s b e todo with ⟨e1, _⟩ | ⟨e1, _⟩ | ⟨e1, _⟩ <;> rw [e1] at hl <;> cases hl
        exact ht
      · intro n t hl
        rcases lookAt_cases nd s b e todo with ⟨e1, _⟩ | ⟨e1, _⟩ | ⟨e1, _⟩ <;> rw [e1] at hl <;> cases hl
        exact ht
    · cases hs
  | list c =>
    simp only [step] at hs
    split at hs
    · simp only [Res.ok.injEq] at hs; subst hs
      exact h.set h.dir (by intro t e; cases e; exact h.dir) (by intro n t e; cases e) rfl
    · cases hs
  | remove c =>
    simp only [step] at hs
    split at hs
    · rename_i b name todo hcl
      split at hs
      · simp only [Res.ok.injEq] at hs; subst hs
        exact h.set (h.dir.unlink _) (by intro t e; cases e; exact h.doom c b name _ hcl) (by intro n t e; cases e) rfl
      · simp only [Res.ok.injEq] at hs; subst hs
        exact h.set h.dir (by intro t e; cases e) (by intro n t e; cases e) rfl
    · cases hs
  | bind i =>
    simp only [step] at hs
    split at hs
    · split at hs
      · simp only [Res.ok.injEq] at hs; subst hs; exact ⟨h.dir, h.scan, h.doom⟩
      · simp only [Res.ok.injEq] at hs; subst hs
        refine ⟨?_, ?_, ?_⟩
        · intro e he
          rcases List.mem_append.1 he with he | he
          · exact h.dir e he
          · rw [List.mem_singleton.1 he]; exact ascii_sockName _
        · intro c b todo hcl
          rcases getElem?_snoc hcl with hcl | ⟨_, hcl⟩
          · exact h.scan c b todo hcl
          · cases hcl
        · intro c b n todo hcl
          rcases getElem?_snoc hcl with hcl | ⟨_, hcl⟩
          · exact h.doom c b n todo hcl
          · cases hcl
    · cases hs
  | create name k =>
    simp only [step] at hs
    split at hs
    · cases hs
    · simp only [Res.ok.injEq] at hs; subst hs
      refine ⟨?_, h.scan, h.doom⟩
      intro e he
      rcases List.mem_append.1 he with he | he
      · exact h.dir e he
      · rw [List.mem_singleton.1 he]; exact ha _ _ rfl
  | _ =>
    simp only [step] at hs
    repeat' split at hs
    all_goals first
      | (cases hs; done)
      | (simp only [Res.ok.injEq] at hs; subst hs; exact ⟨h.dir, h.scan, h.doom⟩)
      | (simp only [Res.ok.injEq] at hs; subst hs; exact ⟨h.dir.unlink _, h.scan, h.doom⟩)

theorem step_congr {nd : Char → Bool} (hd : Digits nd) {s : State} (h : AsciiState s) (a : Act) : step nd s a = step Json.isDigit s a := by
  cases a with
  | look c =>
    simp only [step]
    split
    · rfl
    · rename_i b e todo hcl
      have : capture nd e.name = capture Json.isDigit e.name :=
        capture_congr fun x hx => hd.ascii x (h.scan c b _ hcl e (by simp) x hx)
      simp only [lookAt, this]
    · rfl
  | _ => rfl

/-- Does an action bring only ASCII names? -/
def asciiAct : Act → Bool
  | .create n _ => n.all (fun c => decide (c.toNat < 128))
  | _ => true

/-- Concrete runs with ASCII names are the same for all `nd`. -/
theorem runs_of_replay {nd : Char → Bool} (hd : Digits nd) {ok : State → Act → Prop} {s0 : State} : ∀ {as as0 : List Act} {s s' : State},
    Runs nd ok s0 as0 s → AsciiState s → as.all asciiAct = true → replay Json.isDigit s as = .ok s' →
    (∀ bs a cs s1, as = bs ++ a :: cs → replay Json.isDigit s bs = .ok s1 → ok s1 a) → Runs nd ok s0 (as0 ++ as) s' := by
  intro as
  induction as with
  | nil => intro as0 s s' hr _ _ h _; simp only [replay, Res.ok.injEq] at h; subst h; rw [List.append_nil]; exact hr
  | cons a as ih =>
    intro as0 s s' hr ha hall h hok
    simp only [replay] at h
    have h0 := hok [] a as s rfl rfl
    split at h
    · rename_i s1 h1
      have hs : step nd s a = .ok s1 := by rw [step_congr hd ha]; exact h1
      simp only [List.all_cons, Bool.and_eq_true] at hall
      have := ih (.snoc hr h0 hs) (ascii_step ha (by
        intro n k e
        rw [e] at hall
        have := hall.1
        simp only [asciiAct, List.all_eq_true, decide_eq_true_eq] at this
        exact this) hs) hall.2 h (by
          intro bs a' cs s2 e h2
          exact hok (a :: bs) a' cs s2 (by rw [e]; rfl) (by simp only [replay, h1]; exact h2))
      rw [List.append_assoc] at this
      exact this
    · cases h
    · cases h

theorem AsciiState.init : AsciiState init := by constructor <;> simp [Sockets.init, AsciiDir]

/-- `oneBox`, decidable. -/
def oneBoxB : Act → Bool
  | .spawn b _ | .start b _ => b == 0
  | _ => true

/-- `oneSession`, decidable. -/
def oneSessionB (s : State) : Act → Bool
  | .start b p => s.sess.all (fun x => !(x.box == b && x.pid == p) || (x.st != .starting && x.st != .serving))
  | _ => true

/-- `noForeign`, a decidable part of it. -/
def noForeignB : Act → Bool
  | .create _ _ | .delete _ => false
  | _ => true

/-- `noReuse`, decidable. -/
def noReuseB (s : State) : Act → Bool
  | .spawn _ p => s.cleaners.all (fun c => match c.st with | .doomed n _ => n != sockName p | _ => true)
  | _ => true

theorem oneBox_of {s : State} {a : Act} (h : oneBoxB a = true) : oneBox s a := by
  cases a <;> simp_all [oneBoxB, oneBox]

theorem oneSession_of {s : State} {a : Act} (h : oneSessionB s a = true) : oneSession s a := by
  cases a with
  | start b p =>
    simp only [oneSessionB, List.all_eq_true] at h
    intro x hx e1 e2
    have := h x hx
    simp [e1, e2] at this
    exact this
  | _ => trivial

theorem noForeign_of {s : State} {a : Act} (h : noForeignB a = true) : noForeign s a := by
  cases a <;> simp_all [noForeignB, noForeign]

theorem noReuse_of {s : State} {a : Act} (h : noReuseB s a = true) : noReuse s a := by
  cases a with
  | spawn b p =>
    simp only [noReuseB, List.all_eq_true] at h
    intro c hc n todo e
    have := h c hc
    rw [e] at this
    simpa using this
  | _ => trivial

/-- Does every action of a concrete run meet a condition? -/
def checks (okb : State → Act → Bool) : State → List Act → Bool
  | _, [] => true
  | s, a :: as => okb s a && match step Json.isDigit s a with | .ok s1 => checks okb s1 as | _ => true

theorem checks_spec {okb : State → Act → Bool} : ∀ {as : List Act} {s : State}, checks okb s as = true → ∀ bs a cs s1, as = bs ++ a :: cs →
    replay Json.isDigit s bs = .ok s1 → okb s1 a = true := by
  intro as
  induction as with
  | nil => intro s _ bs a cs s1 e; cases bs <;> cases e
  | cons x as ih =>
    intro s h bs a cs s1 e hr
    simp only [checks, Bool.and_eq_true] at h
    cases bs with
    | nil =>
      simp only [replay, Res.ok.injEq] at hr
      subst hr
      cases e
      exact h.1
    | cons y bs =>
      cases e
      simp only [replay] at hr
      split at hr
      · rename_i s2 h2
        rw [h2] at h
        exact ih h.2 bs a cs s1 rfl hr
      · cases hr
      · cases hr

/-- A concrete run all of whose actions meet a condition. -/
theorem runs_of_checks {nd : Char → Bool} (hd : Digits nd) {ok : State → Act → Prop} {okb : State → Act → Bool}
    (hok : ∀ s a, okb s a = true → ok s a) {as : List Act} {s' : State} (h1 : as.all asciiAct = true)
    (h2 : replay Json.isDigit init as = .ok s') (h3 : checks okb init as = true) : Runs nd ok init as s' := by
  have := runs_of_replay hd (ok := ok) (.nil init) AsciiState.init h1 h2
    (fun bs a cs s1 e hr => hok s1 a (checks_spec h3 bs a cs s1 e hr))
  exact this

/-- The same with no restriction on the actions. -/
theorem runs_of_replay' {nd : Char → Bool} (hd : Digits nd) {as : List Act} {s' : State} (h1 : as.all asciiAct = true)
    (h2 : replay Json.isDigit init as = .ok s') : Runs nd anything init as s' := by
  have := runs_of_replay hd (ok := anything) (.nil init) AsciiState.init h1 h2 (by intros; trivial)
  exact this

end Verif.Sockets
