import Verif.Proof.Expand
import Verif.Props.System

/-!
# C149: `%` patterns in the options of the remote runner; C150: job ids
-/

namespace Verif.Props.Expand
open Verif.Expand

/-- The meaning of the patterns of `--disconnect-err-msg`. -/
def messageValue (e : Env) (c : Char) : Option (List Char) :=
  if c = 'h' then some e.host else if c = 'c' then e.cluster else if c = 'x' then e.jobName
  else if c = 'j' then some (slurmJobid e) else if c = 'u' then some e.user else none

/-- The meaning of the patterns of `--slurm-error-logfile`. -/
def logfileValue (e : Env) (c : Char) : Option (List Char) :=
  if c = 'j' then e.jobId else if c = 'u' then some e.user else none

/-- **C149.** If no value contains `%` and the option has no `%%`, the message is the option with all patterns expanded at once; a
pattern whose variable is not set stays. -/
theorem message_expanded (e : Env) (s : List Char) (hv : ∀ c v, messageValue e c = some v → '%' ∉ v) (hs : NoDouble s) :
    disconnectMessage e s = expand (messageValue e) s := by
  have hu : '%' ∉ e.user := hv 'u' _ (by simp [messageValue])
  have hj : '%' ∉ slurmJobid e := hv 'j' _ (by simp [messageValue])
  have hopt : ∀ (f : Char → Option (List Char)) (c : Char) (o : Option (List Char)), c ≠ '%' → f c = none → f '%' = none →
      (∀ y w, f y = some w → '%' ∉ w) →
      replace c (o.getD ['%', c]) (expand f s) = expand (fun y => if y = c then o else f y) s := by
    intro f c o hc hfc hp hf
    cases o with
    | some v => exact replace_expand hc hfc hp hf s hs
    | none =>
      rw [Option.getD_none, replace_same]
      congr 1
      funext y
      split
      · subst_vars; exact hfc
      · rfl
  unfold disconnectMessage
  have h1 : replace 'u' e.user s = expand (fun y => if y = 'u' then some e.user else none) s := by
    have := replace_expand (f := fun _ => none) (c := 'u') (v := e.user) (by decide) rfl rfl (by simp) s hs
    rwa [expand_none] at this
  have hok : ∀ (f : Char → Option (List Char)) (c : Char) (o : Option (List Char)), (∀ y w, f y = some w → '%' ∉ w) →
      (∀ w, o = some w → '%' ∉ w) → ∀ y w, (if y = c then o else f y) = some w → '%' ∉ w := by
    intro f c o hf ho y w h
    split at h
    · exact ho w h
    · exact hf y w h
  have g1 := hok (fun _ => none) 'u' (some e.user) (by simp) (by rintro w ⟨⟩; exact hu)
  have g2 := hok _ 'j' (some (slurmJobid e)) g1 (by rintro w ⟨⟩; exact hj)
  have g3 := hok _ 'x' e.jobName g2 (fun w hw => hv 'x' w (by simp [messageValue, hw]))
  have g4 := hok _ 'c' e.cluster g3 (fun w hw => hv 'c' w (by simp [messageValue, hw]))
  rw [h1, replace_expand (by decide) (by simp) (by simp) g1 s hs, hopt _ 'x' e.jobName (by decide) (by simp) (by simp) g2,
    hopt _ 'c' e.cluster (by decide) (by simp) (by simp) g3, replace_expand (by decide) (by simp) (by simp) g4 s hs]
  rfl

/-- **C149 (the log file).** The same for the path of Slurm's error file. Without `SLURM_JOB_ID` the runner panics when the option
is given, whether `%j` occurs in it or not. -/
theorem logfile_expanded (e : Env) (s : List Char) :
    (e.jobId = none → ∃ m, errorLogfile e s = .panic m) ∧
    ((∀ c v, logfileValue e c = some v → '%' ∉ v) → NoDouble s → e.jobId ≠ none →
      errorLogfile e s = .ok (expand (logfileValue e) s)) := by
  refine ⟨fun h => ⟨_, by simp only [errorLogfile, h]; rfl⟩, fun hv hs hj => ?_⟩
  cases hjj : e.jobId with
  | none => exact absurd hjj hj
  | some j =>
    have hu : '%' ∉ e.user := hv 'u' _ (by simp [logfileValue])
    have h1 : replace 'u' e.user s = expand (fun y => if y = 'u' then some e.user else none) s := by
      have := replace_expand (f := fun _ => none) (c := 'u') (v := e.user) (by decide) rfl rfl (by simp) s hs
      rwa [expand_none] at this
    simp only [errorLogfile, hjj]
    rw [h1, replace_expand (by decide) (by simp) (by simp) (by
      intro y w h
      split at h
      · cases h; exact hu
      · cases h) s hs]
    congr 2
    funext y
    simp only [logfileValue, hjj]

/-- An environment. -/
def env1 : Env := ⟨"joan".toList, some "12".toList, some "3".toList, some "50%cpu".toList, some "east".toList, some "15".toList, "n1".toList⟩

/-- **C149 (violated by `%%`).** The template has a plain `%` before a pattern: the user's name is "joan", and `%j` at the border is
taken for a pattern. -/
theorem double_percent_violated : disconnectMessage env1 "at 100%%u".toList = "at 10012_3oan".toList ∧
    expand (messageValue env1) "at 100%%u".toList = "at 100%joan".toList := by decide +kernel

/-- **C149 (violated by a value with `%`).** The name of the job is "50%cpu": in the message `%c` of this name is replaced by the
name of the cluster. -/
theorem value_with_percent_violated : disconnectMessage env1 "lost %x".toList = "lost 50eastpu".toList ∧
    expand (messageValue env1) "lost %x".toList = "lost 50%cpu".toList := by decide +kernel

/-- Non-trivial case of `message_expanded`. -/
def env2 : Env := ⟨"joan".toList, some "12".toList, some "3".toList, none, some "east".toList, some "15".toList, "n1".toList⟩
example : (∀ c v, messageValue env2 c = some v → '%' ∉ v) ∧
    disconnectMessage env2 "%u lost %j/%x on %c:%h (100%)".toList = "joan lost 12_3/%x on east:n1 (100%)".toList := by
  refine ⟨?_, by decide +kernel⟩
  intro c v h
  simp only [messageValue] at h
  repeat' split at h
  all_goals first | (cases h; decide +kernel) | (simp [env2] at h; subst h; decide) | cases h

/-! ## Job ids -/

/-- A runner in an array job. -/
def InArray (e : Env) (job task : List Char) : Prop := e.arrayJob = some job ∧ e.arrayTask = some task

/-- **C150.** Runners in array jobs have the same job id iff they belong to the same task of the same array (ids without `_`). -/
theorem array_ids_distinct (e e' : Env) (j t j' t' : List Char) (h : InArray e j t) (h' : InArray e' j' t') (hj : '_' ∉ j) (hj' : '_' ∉ j') :
    slurmJobid e = slurmJobid e' ↔ j = j' ∧ t = t' := by
  have key : ∀ (a b x y : List Char), '_' ∉ a → '_' ∉ b → a ++ '_' :: x = b ++ '_' :: y → a = b ∧ x = y := by
    intro a
    induction a with
    | nil =>
      intro b x y _ hb e
      cases b with
      | nil => simpa using e
      | cons c b => simp only [List.nil_append, List.cons_append, List.cons.injEq] at e; rw [← e.1] at hb; exact absurd (by simp) hb
    | cons c a ih =>
      intro b x y ha hb e
      cases b with
      | nil => simp only [List.nil_append, List.cons_append, List.cons.injEq] at e; rw [e.1] at ha; exact absurd (by simp) ha
      | cons d b =>
        simp only [List.cons_append, List.cons.injEq] at e
        obtain ⟨h1, h2⟩ := ih b x y (fun h => ha (List.mem_cons_of_mem _ h)) (fun h => hb (List.mem_cons_of_mem _ h)) e.2
        exact ⟨by rw [e.1, h1], h2⟩
  simp only [slurmJobid, h.1, h.2, h'.1, h'.2, Option.getD_some]
  constructor
  · exact key j j' t t' hj hj'
  · rintro ⟨rfl, rfl⟩; rfl

/-- **C150 (violated outside arrays).** All runners that are not in an array job have one and the same job id, `_`, whatever their job. -/
theorem ids_outside_arrays_violated (e : Env) (h1 : e.arrayJob = none) (h2 : e.arrayTask = none) : slurmJobid e = ['_'] := by
  simp [slurmJobid, h1, h2]

/-- **C150 (what follows).** When one such job is reported as safe to cancel, the server refuses every later `/start` of every runner outside
arrays, in any continuation. -/
theorem one_marked_all_refused (e : Env) (h1 : e.arrayJob = none) (h2 : e.arrayTask = none) {c : Sys.Cfg} {s s1 s2 s3 : Sys.State}
    (jid : Option (Option String)) (hno : ∀ x ∈ s.conns, x.2.jobid ≠ "_")
    (hm : Sys.step c s (.request ⟨some c.secret, jid, .mark ["_"]⟩) = .ok s1) {as : List Sys.Act} (hr : Sys.Runs c s1 as s2) {rt : Nat}
    (hs : Sys.step c s2 (.request ⟨some c.secret, some (some (String.ofList (slurmJobid e))), .start rt⟩) = .ok s3) :
    s3 = { s2 with handlers := s2.handlers ++ [.done (some .gone)] } := by
  have hid : String.ofList (slurmJobid e) = "_" := by
    rw [ids_outside_arrays_violated e h1 h2]
  rw [hid] at hs
  refine System.marked_start_refused ?_ hr hs
  simp only [Sys.step] at hm
  split at hm
  · cases hm
  · simp only [Sys.takeRequest, ne_eq, not_true_eq_false, if_false, Res.ok.injEq] at hm
    subst hm
    simp only [Sys.markH, Sys.reply, List.mem_append]
    right
    simp only [List.mem_filter, List.mem_singleton, true_and, Bool.not_eq_true']
    rw [← Bool.not_eq_true, List.contains_iff_mem, List.mem_map]
    simp only [not_exists, not_and]
    exact hno

/-- Non-trivial case: a runner of job "15", not in an array. -/
example : slurmJobid ⟨"joan".toList, none, none, none, none, some "15".toList, "n1".toList⟩ = "_".toList ∧
    slurmJobid env1 = "12_3".toList := by decide +kernel

end Verif.Props.Expand
