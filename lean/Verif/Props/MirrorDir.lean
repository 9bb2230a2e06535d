import Verif.Spec.MirrorDir
import Verif.Props.Construct

/-!
# Where printed lines go, over the life of a process (logging.rs:23, 93-106)
-/

namespace Verif.Props.MirrorDir
open Verif Verif.Json Verif.Construct Verif.Props.Construct

/-- One operation moves the mirror exactly if it is a constructor that opens its `log.txt`. -/
theorem mirror_step (s : Proc) (o : Op) :
    (∃ a e, o = .new a e ∧ OpensMirror s a e ∧ (step s o).1.mirror = some a.path.1) ∨
    ((∀ a e, o = .new a e → ¬ OpensMirror s a e) ∧ (step s o).1.mirror = s.mirror) := by
  cases o with
  | new a e =>
    obtain ⟨m1, m2, m3⟩ := mirror_and_poison (s := s) (a := a) (e := e)
    refine Classical.byCases (p := OpensMirror s a e) (fun h => .inl ⟨a, e, rfl, h, (m1 h.reads h.healthy h.opens).1⟩) (fun h => .inr ⟨?_, ?_⟩)
    · intro a' e' he; cases he; exact h
    · show (construct s a e).1.mirror = s.mirror
      refine Classical.byCases (p := ∃ n lf, Reads s a e n lf) (fun hr => ?_) (fun hr => (m3 (.inl hr)).1)
      cases hp : s.poisoned with
      | true => exact (m3 (.inr hp)).1
      | false =>
        cases hm : e.mirrorOpens with
        | true => exact absurd ⟨hr, hp, hm⟩ h
        | false => exact (m2 hr hm).1
  | drop p bs => exact .inr ⟨(by intro a e h; cases h), rfl⟩
  | print => exact .inr ⟨(by intro a e h; cases h), rfl⟩
  | flush => exact .inr ⟨(by intro a e h; cases h), rfl⟩

theorem run_snoc (ops : List Op) (o : Op) (s : Proc) : (run s (ops ++ [o])).1 = (step (run s ops).1 o).1 := by
  rw [run_append]; rfl

theorem snoc_ind {motive : List Op → Prop} (h0 : motive []) (h1 : ∀ l o, motive l → motive (l ++ [o])) : ∀ l, motive l := by
  intro l
  have : ∀ l : List Op, motive l.reverse := by
    intro l
    induction l with
    | nil => exact h0
    | cons o l ih => rw [List.reverse_cons]; exact h1 _ _ ih
  have := this l.reverse
  rwa [List.reverse_reverse] at this

/-- Where a decomposition of `l ++ [o]` splits. -/
theorem snoc_split {l pre post : List Op} {o x : Op} (h : l ++ [o] = pre ++ x :: post) :
    (l = pre ∧ o = x ∧ post = []) ∨ ∃ post', post = post' ++ [o] ∧ l = pre ++ x :: post' := by
  rcases List.eq_nil_or_concat post with rfl | ⟨post', y, rfl⟩
  · have := List.append_inj' h rfl
    exact .inl ⟨this.1, by simpa using this.2, rfl⟩
  · rw [List.concat_eq_append] at h ⊢
    have h' : l ++ [o] = (pre ++ x :: post') ++ [y] := by simpa using h
    have := List.append_inj' h' rfl
    have e : o = y := by simpa using this.2
    exact .inr ⟨post', by rw [e], this.1⟩

/-- What a process prints goes to the `log.txt` beside the log of the last constructor that opened one (also if this constructor failed, or its graph has been dropped since). -/
theorem mirror_is_last (ops : List Op) (d : String) : (run init ops).1.mirror = some d ↔
    ∃ pre a e post, ops = pre ++ .new a e :: post ∧ a.path.1 = d ∧ OpensMirror (run init pre).1 a e ∧
      ∀ p1 a' e' p2, post = p1 ++ .new a' e' :: p2 → ¬ OpensMirror (run init (pre ++ .new a e :: p1)).1 a' e' := by
  revert ops
  apply snoc_ind
  · constructor
    · intro h; cases h
    · rintro ⟨pre, a, e, post, h, _⟩; simp at h
  · intro l o ih
    rw [run_snoc]
    rcases mirror_step (run init l).1 o with ⟨a, e, rfl, ho, hm⟩ | ⟨hno, hm⟩
    · rw [hm, Option.some.injEq]
      constructor
      · intro hd
        exact ⟨l, a, e, [], rfl, hd, ho, fun p1 a' e' p2 h => by simp at h⟩
      · rintro ⟨pre, a', e', post, h, hd, ho', hlast⟩
        rcases snoc_split h with ⟨rfl, he, rfl⟩ | ⟨post', rfl, rfl⟩
        · cases he; exact hd
        · exact absurd ho (hlast post' a e [] rfl)
    · rw [hm, ih]
      constructor
      · rintro ⟨pre, a, e, post, rfl, hd, ho, hlast⟩
        refine ⟨pre, a, e, post ++ [o], by simp, hd, ho, fun p1 a' e' p2 h => ?_⟩
        rcases snoc_split h with ⟨rfl, he, rfl⟩ | ⟨p2', rfl, rfl⟩
        · exact hno a' e' he
        · exact hlast p1 a' e' p2' rfl
      · rintro ⟨pre, a, e, post, h, hd, ho, hlast⟩
        rcases snoc_split h with ⟨rfl, he, rfl⟩ | ⟨post', rfl, rfl⟩
        · exact absurd ho (hno a e he)
        · exact ⟨pre, a, e, post', rfl, hd, ho, fun p1 a' e' p2 h => hlast p1 a' e' (p2 ++ [o]) (by rw [h]; simp)⟩

/-- Before the first such constructor nothing is mirrored, and only then. -/
theorem mirror_none_iff (ops : List Op) : (run init ops).1.mirror = none ↔
    ∀ pre a e post, ops = pre ++ .new a e :: post → ¬ OpensMirror (run init pre).1 a e := by
  revert ops
  apply snoc_ind
  · exact ⟨fun _ pre a e post h => by simp at h, fun _ => rfl⟩
  · intro l o ih
    rw [run_snoc]
    rcases mirror_step (run init l).1 o with ⟨a, e, rfl, ho, hm⟩ | ⟨hno, hm⟩
    · rw [hm]
      exact ⟨(by intro h; cases h), fun h => absurd ho (h l a e [] rfl)⟩
    · rw [hm, ih]
      constructor
      · intro h pre a e post hs
        rcases snoc_split hs with ⟨rfl, he, rfl⟩ | ⟨post', rfl, rfl⟩
        · exact hno a e he
        · exact h pre a e post' rfl
      · intro h pre a e post hs
        exact h pre a e (post ++ [o]) (by rw [hs]; simp)

/-- Two graphs in two directories: what the first one's `execute` prints goes to the `log.txt` of the second, also when the second has been dropped, until the next constructor; one that is refused because of the
lock does not count. -/
theorem other_graph_violated : (demoRun [.new (demoArgs "/w" "wf.log" none) .good, .new (demoArgs "/x" "wf.log" none) .good, .drop ("/x", "wf.log") [], .print,
      .new (demoArgs "/w" "wf.log" none) .good, .print]).2 = (some "/x", false) ∧ (demoRun [.print, .flush]).2 = (none, false) :=
  ⟨by decide +kernel, by decide +kernel⟩

#print axioms mirror_is_last
#print axioms mirror_none_iff
#print axioms other_graph_violated

end Verif.Props.MirrorDir
