import Verif.Lemmas.Async3
import Mathlib.Tactic.NormNum

/-! # Properties of the asynchronous evaluator (C28 - C33, C80) -/

namespace Gama
open PyM Spec

section
variable {Fn V E Ω : Type}

/-! ## C28 -/

/-- **C28.** In every schedule, a returned future is that of a job submitted before, it reports a
call of that job's function with that job's arguments, and no job is returned twice.  (A job is
known by its id, which no two submissions share.) -/
theorem C28_own_result (J : Jobs Fn V E Ω) (n : Nat) (limit : Option ℚ) (logfile : Bool)
    (D : List (Str × V)) (es : List (AsyncEvent Fn V Ω)) :
    let tr := (asyncRun J es (entered n limit logfile D)).1
    (∀ pre f post, tr = pre ++ .returned f :: post →
      (∃ j, .submitted j ∈ pre ∧ SameJob j f ∧ Reports J D j f) ∧
      ∀ g, .returned g ∈ pre → g.id ≠ f.id) ∧
    (∀ pre j post, tr = pre ++ .submitted j :: post → ∀ g, .submitted g ∈ pre → g.id ≠ j.id) := by
  intro tr
  have hg := (good_entered (Fn := Fn) (E := E) J n limit logfile D).run es
  rw [List.nil_append] at hg
  refine ⟨fun pre f post he => hg.trace pre f post he, ?_⟩
  have := run_induct (J := J) (D := D) (C := fun _ _ => True)
    (P := fun tr _ => ∀ pre j post, tr = pre ++ .submitted j :: post →
      ∀ g, .submitted g ∈ pre → g.id ≠ j.id) ?_ es [] _
    (good_entered (Fn := Fn) (E := E) J n limit logfile D) (by intro pre j post h; simp at h)
    (along_true es _)
  · rw [List.nil_append] at this
    exact this
  · intro tr s e hgood h _
    have old : ∀ o : AsyncObs Fn V E, (∀ f, o ≠ .submitted f) →
        ∀ pre j post, tr ++ [o] = pre ++ .submitted j :: post →
          ∀ g, .submitted g ∈ pre → g.id ≠ j.id := by
      intro o ho pre j post he
      rcases List.eq_nil_or_concat post with rfl | ⟨post', x, rfl⟩
      · obtain ⟨-, h2⟩ := List.append_inj' he rfl
        simp at h2
        exact absurd h2 (ho j)
      · rw [List.concat_eq_append, ← List.cons_append, ← List.append_assoc] at he
        obtain ⟨h1, -⟩ := List.append_inj' he rfl
        exact h pre j post' h1
    refine step_cases (P := fun o _ => ∀ pre j post, tr ++ [o] = pre ++ .submitted j :: post →
      ∀ g, .submitted g ∈ pre → g.id ≠ j.id) J s e (old _ (by simp)) ?_ (fun _ _ _ => old _ (by simp))
      (fun _ _ _ => old _ (by simp)) ?_ (fun _ _ _ => old _ (by simp))
    · intro fn args kwargs _ _ pre j post he
      rcases List.eq_nil_or_concat post with rfl | ⟨post', x, rfl⟩
      · obtain ⟨h1, h2⟩ := List.append_inj' he rfl
        simp at h2
        subst h1; subst h2
        intro g hg e
        have := (hgood.blank g hg).2.2
        dsimp only at e
        omega
      · rw [List.concat_eq_append, ← List.cons_append, ← List.append_assoc] at he
        obtain ⟨h1, -⟩ := List.append_inj' he rfl
        exact h pre j post' h1
    · intro r₁ r₂ r₃ o b _ _
      refine old _ ?_
      intro f
      cases (waitIteration r₁ r₂ r₃ o s).1 with
      | error e => simp [pollObs]
      | ok x => cases x <;> simp [pollObs]

/-- Consequence: a returned future with a result has the value its function returned (up to the
replacement of a MemoryError in it), one with a raised exception that exception. -/
theorem C28_result_is_return_value {J : Jobs Fn V E Ω} {D : List (Str × V)} {j f : Future Fn V E}
    (h : Reports J D j f) :
    (∀ v, f.result = some v → ∃ kw ω u, J.call j.fn j.args kw ω = .returns u ∧
      (v = u ∨ J.probe u = .memoryError ∧ v = J.withoutMemoryError u)) ∧
    (∀ e, f.exception = some (.raised e) → ∃ kw ω, J.call j.fn j.args kw ω = .raises e) := by
  obtain ⟨kw, ω, _, h⟩ := h
  cases hc : J.call j.fn j.args kw ω with
  | escapes => rw [hc] at h; exact absurd h id
  | raises e =>
    rw [hc] at h
    obtain ⟨h1, h2⟩ := h
    refine ⟨fun v hv => (by rw [h1] at hv; cases hv), fun e' he => ⟨kw, ω, ?_⟩⟩
    rw [h2] at he
    injection he with he
    injection he with he
    rw [hc, he]
  | returns u =>
    rw [hc] at h
    refine ⟨fun v hv => ⟨kw, ω, u, hc, ?_⟩, fun e he => ?_⟩
    · rcases h with ⟨h1, _⟩ | ⟨hp, h1, _⟩ | ⟨_, h1, _⟩
      · rw [h1] at hv; injection hv with hv; exact Or.inl hv.symm
      · rw [h1] at hv; injection hv with hv; exact Or.inr ⟨hp, hv.symm⟩
      · rw [h1] at hv; cases hv
    · rcases h with ⟨_, h1⟩ | ⟨_, _, h1⟩ | ⟨_, _, h1⟩ <;> rw [h1] at he <;> cases he

/-! ## Examples -/

namespace Ex

/-- Jobs on numbers: function 0 returns its first argument, 1 raises, 2 exits the process; result 7
has no attribute `error`, 8 holds a MemoryError. -/
def jobs : Jobs Nat Nat Nat Unit where
  call fn args _ _ := match fn with
    | 0 => .returns (args.headD 0)
    | 1 => .raises 5
    | _ => .escapes
  probe v := if v = 7 then .raises else if v = 8 then .memoryError else if v = 0 then .falsy else .fine
  withoutMemoryError _ := 9

def reading (mb : ℚ) : Readings := ⟨0, fun _ => some mb⟩

/-- Poll with nothing special about memory. -/
def poll : AsyncEvent Nat Nat Unit := .iterate (reading 0) (reading 0) (reading 0) .ok

def pool (n : Nat) (limit : Option ℚ) : Evaluator Nat Nat Nat := entered n limit false []

/-- Two jobs on two workers that finish in the other order. -/
def crossed : List (AsyncEvent Nat Nat Unit) :=
  [.submit 0 [3] [], .submit 0 [4] [], .worker 0 .take, .worker 1 .take, .worker 1 (.finish ()),
    .worker 0 (.finish ()), .wait, poll, .wait, poll]

example : (asyncRun jobs crossed (pool 2 none)).1 =
    [.submitted ⟨0, 0, [3], [], none, none⟩, .submitted ⟨1, 0, [4], [], none, none⟩,
      .nothing, .nothing, .nothing, .nothing, .nothing, .returned ⟨1, 0, [4], [], some 4, none⟩,
      .nothing, .returned ⟨0, 0, [3], [], some 3, none⟩] := rfl

end Ex

/-! ## Iterations in which memory control does nothing -/

theorem usageLoop_present {r : Readings} {s : Evaluator Fn V E} : ∀ {ps : List Nat},
    (∀ p ∈ ps, r.worker p ≠ none) → ∃ us, usageLoop r ps s = (.ok us, s) := by
  intro ps
  induction ps with
  | nil => intro _; exact ⟨[], rfl⟩
  | cons p ps ih =>
    intro h
    obtain ⟨us, hu⟩ := ih fun q hq => h q (List.mem_cons_of_mem _ hq)
    unfold usageLoop
    cases hp : r.worker p with
    | none => exact absurd hp (h p List.mem_cons_self)
    | some mb => exact ⟨(p, mb) :: us, by dsimp only; rw [bind_ok hu]; rfl⟩

theorem logUsage_present {r : Readings} {s : Evaluator Fn V E}
    (h : ∀ p ∈ s.procs, r.worker p ≠ none) : logUsage r s = (.ok (), s) := by
  unfold logUsage
  rw [bind_ok get_run]
  split
  · obtain ⟨us, hu⟩ := usageLoop_present h
    have : memoryUsage r s = (.ok us, s) := hu
    rw [bind_ok this]; rfl
  · rfl

/-- All processes are there and the total is within the limit. -/
def Spec.WithinLimit (s : Evaluator Fn V E) (r : Readings) : Prop :=
  ∀ L, s.limit = some L → r.main + (s.procs.filterMap r.worker).sum ≤ L

theorem controlMemory_within {r r' : Readings} {o : StopOutcome} {s : Evaluator Fn V E}
    (hok : ProcsOK s) (h : WithinLimit s r) (hp : ∀ p ∈ s.procs, r.worker p ≠ none) :
    controlMemory r r' o s = (.ok (), s) := by
  unfold controlMemory
  rw [bind_ok get_run]
  cases hL : s.limit with
  | none => rfl
  | some L =>
    dsimp only
    obtain ⟨us, hu⟩ := usageLoop_present hp
    have hm : memoryUsage r s = (.ok us, s) := hu
    have hus := wp_ok (wp_procs_usage r s.procs s hok hok.1 fun _ h => h) hu
    rw [bind_ok hm, if_neg]
    · rfl
    · rw [hus.2.2.1, usage_total]
      exact not_lt.2 (h L hL)

theorem waitIteration_calm {r₁ r₂ r₃ : Readings} {o : StopOutcome} {s : Evaluator Fn V E}
    (hok : ProcsOK s) (h : WithinLimit s r₁) (h1 : ∀ p ∈ s.procs, r₁.worker p ≠ none)
    (h3 : ∀ p ∈ s.procs, r₃.worker p ≠ none) :
    waitIteration r₁ r₂ r₃ o s = pollOutput s := by
  unfold waitIteration
  rw [bind_ok (controlMemory_within hok h h1), bind_ok (logUsage_present h3)]

/-! ## Invariants of schedules -/

theorem pollOutput_procs (s : Evaluator Fn V E) : (pollOutput s).2.procs = s.procs ∧
    (pollOutput s).2.workers = s.workers ∧ (pollOutput s).2.limit = s.limit ∧
    (pollOutput s).2.nJobs = s.nJobs ∧ (pollOutput s).2.commands = s.commands ∧
    (pollOutput s).2.input = s.input := by
  rw [pollOutput_run]
  cases s.output with
  | nil => exact ⟨rfl, rfl, rfl, rfl, rfl, rfl⟩
  | cons f rest =>
    dsimp only
    cases dget s.futures f.id <;> exact ⟨rfl, rfl, rfl, rfl, rfl, rfl⟩

/-- Process bookkeeping of a pool of `n` workers. -/
structure Pool (n : Nat) (limit : Option ℚ) (s : Evaluator Fn V E) : Prop where
  ok : ProcsOK s
  le : s.procs.length ≤ n
  pos : 1 ≤ n → 1 ≤ s.procs.length
  nJobs : s.nJobs = n
  limit : s.limit = limit

theorem pool_entered (n : Nat) (limit : Option ℚ) (logfile : Bool) (D : List (Str × V)) :
    Pool n limit (entered n limit logfile D : Evaluator Fn V E) := by
  obtain ⟨ws, ps, h1, h2, h3, he⟩ := entered_run (Fn := Fn) (E := E) n limit logfile D
  rw [he]
  refine ⟨⟨?_, ?_⟩, ?_, ?_, rfl, rfl⟩
  · show ps.Nodup
    rw [h3]; exact List.nodup_range
  · intro p hp
    have hp : p ∈ ps := hp
    rw [h3, List.mem_range] at hp
    show p < ws.length
    omega
  · show ps.length ≤ n
    rw [h3, List.length_range]
  · intro h
    show 1 ≤ ps.length
    rw [h3, List.length_range]; exact h

theorem pool_iteration {n : Nat} {limit : Option ℚ} {s : Evaluator Fn V E} (h : Pool n limit s)
    (r₁ r₂ r₃ : Readings) (o : StopOutcome) : Pool n limit (waitIteration r₁ r₂ r₃ o s).2 := by
  have hc := wp_procs_control r₁ r₂ o h.ok
  have hcf := wp_frame_control r₁ r₂ o s
  unfold waitIteration
  have mk : ∀ s1 : Evaluator Fn V E, Controlled r₁ r₂ s s1 → Frame s s1 → Pool n limit s1 :=
    fun s1 a b => ⟨a.ok, le_trans a.le h.le, fun hn => a.pos (h.pos hn), b.nJobs.trans h.nJobs,
      b.limit.trans h.limit⟩
  cases hr : controlMemory r₁ r₂ o s with
  | mk r s1 =>
    cases r with
    | error e =>
      rw [bind_error hr]
      exact mk s1 (wp_error hc hr) (wp_error hcf hr)
    | ok u =>
      have c1 := wp_ok hc hr
      have c2 := wp_ok hcf hr
      have p1 := mk s1 c1 c2
      rw [bind_ok hr]
      have hl := wp_procs_log r₃ p1.ok
      have hlf := wp_frame_log r₃ s1
      cases hr2 : logUsage r₃ s1 with
      | mk r s2 =>
        cases r with
        | error e => exact (wp_error hl hr2).elim
        | ok u2 =>
          have l := wp_ok hl hr2
          have f2 := wp_ok hlf hr2
          rw [bind_ok hr2]
          obtain ⟨q1, q2, q3, q4, -, -⟩ := pollOutput_procs s2
          refine ⟨⟨q1 ▸ l.1.1, fun p hp => ?_⟩, ?_, fun hn => ?_, ?_, ?_⟩
          · rw [q1] at hp; rw [q2]; exact l.1.2 p hp
          · rw [q1, l.2.1]; exact p1.le
          · rw [q1, l.2.1]; exact p1.pos hn
          · rw [q4, f2.nJobs]; exact p1.nJobs
          · rw [q3, f2.limit]; exact p1.limit

theorem pool_step {J : Jobs Fn V E Ω} {n : Nat} {limit : Option ℚ} {s : Evaluator Fn V E}
    (h : Pool n limit s) (e : AsyncEvent Fn V Ω) : Pool n limit (asyncStep J s e).2 := by
  refine step_cases (P := fun _ s' => Pool n limit s') J s e h ?_ ?_ (fun _ _ _ => h) ?_ ?_
  · intro fn args kwargs _ _
    exact ⟨h.ok, h.le, h.pos, h.nJobs, h.limit⟩
  · intro _ _ _
    exact ⟨h.ok, h.le, h.pos, h.nJobs, h.limit⟩
  · intro r₁ r₂ r₃ o b _ _
    have := pool_iteration h r₁ r₂ r₃ o
    exact ⟨this.ok, this.le, this.pos, this.nJobs, this.limit⟩
  · intro pid a _
    obtain ⟨-, -, w3, w4, w5, w6, -, -⟩ := workerStep_frame (J := J) (s := s) pid a
    refine ⟨⟨w5 ▸ h.ok.1, fun p hp => ?_⟩, w5 ▸ h.le, w5 ▸ h.pos, w3.trans h.nJobs, w4.trans h.limit⟩
    rw [w5] at hp; rw [w6]; exact h.ok.2 p hp

theorem pool_run {J : Jobs Fn V E Ω} {n : Nat} {limit : Option ℚ} (es : List (AsyncEvent Fn V Ω)) :
    ∀ {s : Evaluator Fn V E}, Pool n limit s → Pool n limit (asyncRun J es s).2 := by
  induction es with
  | nil => intro s h; exact h
  | cons e es ih => intro s h; exact ih (pool_step h e)

/-! ## C32 -/

/-- **C32.** In every schedule of a pool of `n ≥ 1` workers the number of worker processes stays
between 1 and `n`. -/
theorem C32_number_of_workers (J : Jobs Fn V E Ω) (n : Nat) (hn : 1 ≤ n) (limit : Option ℚ)
    (logfile : Bool) (D : List (Str × V)) (es : List (AsyncEvent Fn V Ω)) :
    let s := (asyncRun J es (entered n limit logfile D)).2
    1 ≤ s.procs.length ∧ s.procs.length ≤ n := by
  have h := pool_run (J := J) es (pool_entered (Fn := Fn) (V := V) (E := E) n limit logfile D)
  exact ⟨h.pos hn, h.le⟩

/-- **C32.** One check of the memory use stops at most one of the workers that are running (the
others whose process has vanished are replaced), only if a limit is set and the total exceeds it,
and it stops the one that uses most. -/
theorem C32_stops_only_over_limit (J : Jobs Fn V E Ω) (n : Nat) (limit : Option ℚ)
    (logfile : Bool) (D : List (Str × V)) (es : List (AsyncEvent Fn V Ω)) (r r' : Readings)
    (o : StopOutcome) :
    let s : Evaluator Fn V E := (asyncRun J es (entered n limit logfile D)).2
    let s' := (controlMemory r r' o s).2
    ∀ q ∈ s.procs, r.worker q ≠ none → r'.worker q ≠ none → q ∉ s'.procs →
      (∃ L, limit = some L ∧ L < r.main + (s.procs.filterMap r.worker).sum) ∧
      (∀ q₂ ∈ s.procs, r.worker q₂ ≠ none → r'.worker q₂ ≠ none → q₂ ∉ s'.procs → q₂ = q) ∧
      (∀ q₂ ∈ s.procs, ∀ a b, r.worker q = some a → r.worker q₂ = some b → b ≤ a) := by
  intro s s'
  have h := pool_run (J := J) es (pool_entered (Fn := Fn) (V := V) (E := E) n limit logfile D)
  have hc := wp_procs_control r r' o h.ok
  have : Controlled r r' s s' := by
    cases hr : controlMemory r r' o s with
    | mk x t =>
      have e : s' = t := by show (controlMemory r r' o s).2 = t; rw [hr]
      rw [e]
      cases x with
      | ok u => have c1 := wp_ok hc hr; exact c1
      | error e => exact wp_error hc hr
  intro q hq h1 h2 h3
  have := this.stopped q hq h1 h2 h3
  rwa [h.limit] at this

/-- Of two workers over the limit the larger one is stopped for good: no job has completed, so all
of the checks failed. -/
example : ((controlMemory ⟨10, fun p => some (p + 1 : Nat)⟩ (Ex.reading 0) .ok
    (Ex.pool 2 (some 12))).2.procs) = [0] := by decide +kernel

/-- The last worker is restarted instead. -/
example : ((controlMemory ⟨10, fun p => some (p + 5 : Nat)⟩ (Ex.reading 0) .ok
    (Ex.pool 1 (some 12))).2.procs) = [1] := by decide +kernel

/-! ## C30 -/

/-- **C30.** Waiting raises RuntimeError if (and only if) all submitted jobs have been returned. -/
theorem C30_wait_without_jobs (J : Jobs Fn V E Ω) (n : Nat) (limit : Option ℚ) (logfile : Bool)
    (D : List (Str × V)) (es : List (AsyncEvent Fn V Ω)) :
    let run := asyncRun J es (entered n limit logfile D : Evaluator Fn V E)
    run.2.waiting = false →
    (submittedCount run.1 = returnedCount run.1 →
      asyncStep J run.2 .wait = (.raised .runtimeError, run.2)) ∧
    (submittedCount run.1 ≠ returnedCount run.1 →
      asyncStep J run.2 .wait = (.nothing, { run.2 with waiting := true })) := by
  intro run hw
  have hc := run_induct (J := J) (D := D) (C := fun _ _ => True) (P := Counted)
    (fun tr s e hg h _ => counted_step tr s e hg h) es [] _
    (good_entered (Fn := Fn) (E := E) J n limit logfile D)
    (by
      obtain ⟨ws, ps, -, -, -, he⟩ := entered_run (Fn := Fn) (E := E) n limit logfile D
      rw [he]; rfl) (along_true es _)
  rw [List.nil_append] at hc
  have hc : run.2.futures.length + returnedCount run.1 = submittedCount run.1 := hc
  have hb : ¬ (false = true) := by simp
  refine ⟨fun h => ?_, fun h => ?_⟩
  · simp only [asyncStep, hw, if_neg hb]
    rw [waitBegin_run, if_pos (by omega)]
  · simp only [asyncStep, hw, if_neg hb]
    rw [waitBegin_run, if_neg (by omega)]

/-- No worker is stopped by this event: the limit is not exceeded. -/
def Spec.NoStop (s : Evaluator Fn V E) : AsyncEvent Fn V Ω → Prop
  | .iterate r₁ _ _ _ => WithinLimit s r₁
  | _ => True

/-- ... and no worker runs out of memory while receiving a job. -/
def Spec.NoStopNoLoss (s : Evaluator Fn V E) : AsyncEvent Fn V Ω → Prop
  | .iterate r₁ _ _ _ => WithinLimit s r₁
  | .worker _ .takeFails => False
  | _ => True

/-- **C30**, second half, in full: the backlog is tracked as long as no worker is stopped. -/
def C30_claim : Prop :=
  ∀ (Fn V E Ω : Type) (J : Jobs Fn V E Ω) (n : Nat) (limit : Option ℚ) (logfile : Bool)
    (D : List (Str × V)) (es : List (AsyncEvent Fn V Ω)),
    Along J NoStop es (entered n limit logfile D : Evaluator Fn V E) →
    (asyncRun J es (entered n limit logfile D : Evaluator Fn V E)).2.jobQueueSize =
      (submittedCount (asyncRun J es (entered n limit logfile D : Evaluator Fn V E)).1 : Int) -
      returnedCount (asyncRun J es (entered n limit logfile D : Evaluator Fn V E)).1 - n

theorem wp_jqs_usage (r : Readings) : ∀ (ps : List Nat) (s : Evaluator Fn V E),
    wp (usageLoop r ps) (fun _ s' => s'.jobQueueSize = s.jobQueueSize)
      (fun _ s' => s'.jobQueueSize = s.jobQueueSize) s := by
  intro ps
  induction ps with
  | nil => intro s; exact wp_pure.2 rfl
  | cons p ps ih =>
    intro s
    unfold usageLoop
    cases r.worker p with
    | some mb =>
      simp only [wp_bind]
      exact wp_mono (fun _ s' h => wp_pure.2 h) (fun _ _ h => h) (ih s)
    | none =>
      simp only [wp_bind, wp_modify, startWorker]
      exact wp_mono (fun _ _ h => h) (fun _ _ h => h) (ih _)

theorem wp_jqs_log (r : Readings) (s : Evaluator Fn V E) :
    wp (logUsage r) (fun _ s' => s'.jobQueueSize = s.jobQueueSize)
      (fun _ s' => s'.jobQueueSize = s.jobQueueSize) s := by
  simp only [logUsage, wp_bind, wp_get, memoryUsage, wp_ite]
  refine ⟨fun _ => ?_, fun _ => wp_pure.2 rfl⟩
  exact wp_mono (fun _ _ h => wp_pure.2 h) (fun _ _ h => h) (wp_jqs_usage r _ s)

/-- Within the limit an iteration is a poll after harmless bookkeeping. -/
theorem waitIteration_within {r₁ r₂ r₃ : Readings} {o : StopOutcome} {s : Evaluator Fn V E}
    (hok : ProcsOK s) (h : WithinLimit s r₁) :
    ∃ s1, Frame s s1 ∧ SameJobs s s1 ∧ s1.jobQueueSize = s.jobQueueSize ∧
      waitIteration r₁ r₂ r₃ o s = pollOutput s1 := by
  have hctl : ∃ s1, controlMemory r₁ r₂ o s = (.ok (), s1) ∧ s1.jobQueueSize = s.jobQueueSize := by
    unfold controlMemory
    rw [bind_ok get_run]
    cases hL : s.limit with
    | none => exact ⟨s, rfl, rfl⟩
    | some L =>
      dsimp only
      have hw := wp_and (wp_procs_usage r₁ s.procs s hok hok.1 fun _ h => h)
        (wp_jqs_usage r₁ s.procs s)
      cases hu : usageLoop r₁ s.procs s with
      | mk r s1 =>
        have hm : memoryUsage r₁ s = (r, s1) := hu
        cases r with
        | error e => exact (wp_error hw hu).1.elim
        | ok us =>
          obtain ⟨h1, h2⟩ := wp_ok hw hu
          refine ⟨s1, ?_, h2⟩
          rw [bind_ok hm, if_neg]
          · rfl
          · rw [h1.2.2.1, usage_total]
            exact not_lt.2 (h L hL)
  obtain ⟨s1, h1, hj1⟩ := hctl
  have f1 := wp_ok (wp_frame_control r₁ r₂ o s) h1
  have g1 := wp_ok (wp_jobs_control r₁ r₂ o s) h1
  have p1 := wp_ok (wp_procs_control r₁ r₂ o hok) h1
  have hlw := wp_and (wp_procs_log r₃ p1.ok) (wp_jqs_log r₃ s1)
  unfold waitIteration
  rw [bind_ok h1]
  cases hl : logUsage r₃ s1 with
  | mk r s2 =>
    cases r with
    | error e => exact (wp_error hlw hl).1.elim
    | ok u =>
      have f2 := wp_ok (wp_frame_log r₃ s1) hl
      have g2 := wp_ok (wp_jobs_log r₃ s1) hl
      have j2 := (wp_ok hlw hl).2
      exact ⟨s2, f1.trans f2, g2.trans g1, j2.trans hj1, bind_ok hl⟩

/-- What C30 keeps along a schedule. -/
structure Backlog (n : Nat) (limit : Option ℚ) (tr : List (AsyncObs Fn V E))
    (s : Evaluator Fn V E) : Prop where
  pool : Pool n limit s
  counted : Counted tr s
  cons : Conserved s
  size : s.jobQueueSize = (s.futures.length : Int) - n

theorem conserved_entered (n : Nat) (limit : Option ℚ) (logfile : Bool) (D : List (Str × V)) :
    Conserved (entered n limit logfile D : Evaluator Fn V E) := by
  obtain ⟨ws, ps, h1, -, -, he⟩ := entered_run (Fn := Fn) (E := E) n limit logfile D
  rw [he]
  unfold Conserved inFlight
  have : ws.filterMap Worker.job = [] := by
    rw [List.filterMap_eq_nil_iff]
    intro w hw
    rw [h1 w hw]; rfl
  show (([] ++ ws.filterMap Worker.job ++ []).map Future.id).Perm []
  rw [this]
  exact List.Perm.refl _

theorem pollOutput_jqs {s : Evaluator Fn V E} (h : Conserved s) (hd : DictOK s.futures) :
    (pollOutput s).2.jobQueueSize - (pollOutput s).2.futures.length =
      s.jobQueueSize - s.futures.length := by
  have hne := (h.poll hd).2
  rw [pollOutput_run] at hne ⊢
  cases ho : s.output with
  | nil => rfl
  | cons f rest =>
    rw [ho] at hne
    dsimp only at hne ⊢
    cases hg : dget s.futures f.id with
    | none => rw [hg] at hne; exact absurd rfl (hne _)
    | some m =>
      have := ddel_length hg
      dsimp only
      omega

theorem backlog_step {J : Jobs Fn V E Ω} {D : List (Str × V)} {n : Nat} {limit : Option ℚ}
    (tr : List (AsyncObs Fn V E)) (s : Evaluator Fn V E) (e : AsyncEvent Fn V Ω)
    (hg : Good J D tr s) (h : Backlog n limit tr s) (hc : NoStopNoLoss s e) :
    Backlog n limit (tr ++ [(asyncStep J s e).1]) (asyncStep J s e).2 := by
  refine ⟨pool_step h.pool e, counted_step tr s e hg h.counted, ?_, ?_⟩
  · refine step_cases (P := fun _ s' => Conserved s') J s e h.cons ?_ (fun _ _ _ => h.cons)
      (fun _ _ _ => h.cons) ?_ ?_
    · intro fn args kwargs _ _
      exact h.cons.submit (fun hk => absurd (hg.key_lt hk) (Nat.lt_irrefl _)) fn args kwargs
    · intro r₁ r₂ r₃ o b he _
      subst he
      obtain ⟨s1, f1, g1, j1, e1⟩ := waitIteration_within (r₂ := r₂) (r₃ := r₃) (o := o) h.pool.ok hc
      rw [e1]
      exact ((h.cons.frame f1 g1).poll (f1.futures ▸ hg.dict)).1
    · intro pid a he
      subst he
      refine h.cons.worker pid ?_
      rintro rfl
      exact hc
  · refine step_cases (P := fun _ s' => s'.jobQueueSize = (s'.futures.length : Int) - n) J s e h.size ?_
      (fun _ _ _ => h.size) (fun _ _ _ => h.size) ?_ ?_
    · intro fn args kwargs _ _
      rw [submit_run]
      have hnk : s.nextId ∉ s.futures.map Prod.fst := fun hk => absurd (hg.key_lt hk) (Nat.lt_irrefl _)
      have := h.size
      dsimp only
      rw [dset_length_new hnk, List.length_append, List.length_singleton]
      push_cast
      omega
    · intro r₁ r₂ r₃ o b he _
      subst he
      obtain ⟨s1, f1, g1, j1, e1⟩ := waitIteration_within (r₂ := r₂) (r₃ := r₃) (o := o) h.pool.ok hc
      rw [e1]
      have hp := pollOutput_jqs (h.cons.frame f1 g1) (f1.futures ▸ hg.dict)
      rw [j1, f1.futures] at hp
      have := h.size
      dsimp only
      omega
    · intro pid a _
      obtain ⟨w1, w2, -⟩ := workerStep_frame (J := J) (s := s) pid a
      rw [w1, w2]
      exact h.size

theorem backlog_run {J : Jobs Fn V E Ω} {D : List (Str × V)} {n : Nat} {limit : Option ℚ}
    {logfile : Bool} {es : List (AsyncEvent Fn V Ω)}
    (hc : Along J NoStopNoLoss es (entered n limit logfile D : Evaluator Fn V E)) :
    Backlog n limit (asyncRun J es (entered n limit logfile D : Evaluator Fn V E)).1
      (asyncRun J es (entered n limit logfile D : Evaluator Fn V E)).2 := by
  have := run_induct (J := J) (D := D) (C := NoStopNoLoss) (P := Backlog n limit)
    backlog_step es [] _ (good_entered (Fn := Fn) (E := E) J n limit logfile D)
    ⟨pool_entered n limit logfile D, by
      obtain ⟨ws, ps, -, -, -, he⟩ := entered_run (Fn := Fn) (E := E) n limit logfile D
      rw [he]; rfl, conserved_entered n limit logfile D, by
      obtain ⟨ws, ps, -, -, -, he⟩ := entered_run (Fn := Fn) (E := E) n limit logfile D
      rw [he]
      show -(n : Int) = ((([] : List (Nat × Future Fn V E)).length : Nat) : Int) - n
      simp⟩ hc
  rw [List.nil_append] at this
  exact this

/-- **C30**, as far as it holds: while no worker is stopped and none runs out of memory while it
receives a job, `job_queue_size` is the number of unreturned jobs minus the number of workers. -/
theorem C30_backlog_partial (J : Jobs Fn V E Ω) (n : Nat) (limit : Option ℚ) (logfile : Bool)
    (D : List (Str × V)) (es : List (AsyncEvent Fn V Ω))
    (hc : Along J NoStopNoLoss es (entered n limit logfile D : Evaluator Fn V E)) :
    let run := asyncRun J es (entered n limit logfile D : Evaluator Fn V E)
    run.2.jobQueueSize = (submittedCount run.1 : Int) - returnedCount run.1 - n := by
  intro run
  have h := backlog_run hc
  have h1 : run.2.jobQueueSize = (run.2.futures.length : Int) - n := h.size
  have h2 : run.2.futures.length + returnedCount run.1 = submittedCount run.1 := h.counted
  omega

/-- A worker that runs out of memory while it receives the second job reports the first one
again: the second poll raises KeyError. -/
def Ex.duplicated : List (AsyncEvent Nat Nat Unit) :=
  [.submit 0 [3] [], .submit 0 [4] [], .worker 0 .take, .worker 0 (.finish ()), .worker 0 .takeFails,
    .wait, Ex.poll, .wait, Ex.poll]

theorem C30_false : ¬ C30_claim := by
  intro h
  have := h Nat Nat Nat Unit Ex.jobs 1 none false [] Ex.duplicated
    (by
      unfold Ex.duplicated
      refine ⟨trivial, trivial, trivial, trivial, trivial, trivial, ?_, trivial, ?_, trivial⟩ <;>
      · intro L hL
        cases hL)
  exact absurd this (by decide +kernel)

example : (asyncRun Ex.jobs Ex.crossed (Ex.pool 2 none)).2.jobQueueSize = -2 := by decide +kernel

/-! ## C29 -/

/-- A job the evaluator still knows where to find: queued, at a running worker, finished or
returned. -/
def Spec.Accounted (tr : List (AsyncObs Fn V E)) (s : Evaluator Fn V E) (j : Future Fn V E) : Prop :=
  (∃ f, .returned f ∈ tr ∧ f.id = j.id) ∨ j ∈ s.input ∨ (∃ f ∈ s.output, f.id = j.id) ∨
    ∃ w ∈ s.workers, w.alive = true ∧ w.busy = true ∧ w.cur = some j

/-- **C29** in full. -/
def C29_claim : Prop :=
  ∀ (Fn V E Ω : Type) (J : Jobs Fn V E Ω) (n : Nat) (limit : Option ℚ) (logfile : Bool)
    (D : List (Str × V)) (es : List (AsyncEvent Fn V Ω)) (j : Future Fn V E),
    .submitted j ∈ (asyncRun J es (entered n limit logfile D)).1 →
    Accounted (asyncRun J es (entered n limit logfile D)).1
      (asyncRun J es (entered n limit logfile D)).2 j

/-- The job of a worker that is stopped for its memory use is lost. -/
def Ex.killed : List (AsyncEvent Nat Nat Unit) :=
  [.submit 0 [3] [], .worker 0 .take, .wait,
    .iterate (Ex.reading 20) (Ex.reading 20) (Ex.reading 20) .ok]

/-- The job of a worker that cannot make sense of the result is lost, too. -/
def Ex.noError : List (AsyncEvent Nat Nat Unit) :=
  [.submit 0 [7] [], .worker 0 .take, .worker 0 (.finish ()), .wait, Ex.poll]

/-- Where nothing is in the queues, nothing returned and no worker busy, nothing is accounted for. -/
theorem not_accounted {tr : List (AsyncObs Fn V E)} {s : Evaluator Fn V E} {j : Future Fn V E}
    (h1 : returnedCount tr = 0) (h2 : s.input.isEmpty = true) (h3 : s.output.isEmpty = true)
    (h4 : s.workers.all (fun w => !(w.alive && w.busy)) = true) : ¬ Accounted tr s j := by
  have hr : ∀ f, AsyncObs.returned f ∉ tr := by
    intro f
    induction tr with
    | nil => simp
    | cons x tr ih =>
      cases x <;> simp only [returnedCount] at h1 <;> first
        | (intro hf; rcases List.mem_cons.1 hf with hf | hf
           · cases hf
           · exact ih h1 hf)
        | omega
  rintro (⟨f, hf, _⟩ | hj | ⟨f, hf, _⟩ | ⟨w, hw, ha, hb, _⟩)
  · exact hr f hf
  · rw [List.isEmpty_iff.1 h2] at hj; simp at hj
  · rw [List.isEmpty_iff.1 h3] at hf; simp at hf
  · have := List.all_eq_true.1 h4 w hw
    rw [ha, hb] at this
    simp at this

/-- **C29 is false**: stopping a worker loses its job. -/
theorem C29_false : ¬ C29_claim := by
  intro h
  have := h Nat Nat Nat Unit Ex.jobs 1 (some 10) false [] Ex.killed ⟨0, 0, [3], [], none, none⟩
    (by
      have : (asyncRun Ex.jobs Ex.killed (entered 1 (some 10) false [])).1 =
        AsyncObs.submitted ⟨0, 0, [3], [], none, none⟩ ::
          (asyncRun Ex.jobs Ex.killed (entered 1 (some 10) false [])).1.tail := rfl
      rw [this]; exact List.mem_cons_self)
  exact not_accounted (by decide +kernel) (by decide +kernel) (by decide +kernel) (by decide +kernel) this

/-- ... and so does a result without an `error` attribute, without any memory limit. -/
theorem C29_false_result : ∃ j, .submitted j ∈ (asyncRun Ex.jobs Ex.noError (Ex.pool 1 none)).1 ∧
    ¬ Accounted (asyncRun Ex.jobs Ex.noError (Ex.pool 1 none)).1
      (asyncRun Ex.jobs Ex.noError (Ex.pool 1 none)).2 j := by
  refine ⟨⟨0, 0, [7], [], none, none⟩, ?_, ?_⟩
  · have : (asyncRun Ex.jobs Ex.noError (Ex.pool 1 none)).1 =
        AsyncObs.submitted ⟨0, 0, [7], [], none, none⟩ ::
          (asyncRun Ex.jobs Ex.noError (Ex.pool 1 none)).1.tail := rfl
    rw [this]; exact List.mem_cons_self
  · exact not_accounted (by decide +kernel) (by decide +kernel) (by decide +kernel) (by decide +kernel)

/-- No worker is stopped, dies or fails to receive a job. -/
def Spec.Calm (s : Evaluator Fn V E) : AsyncEvent Fn V Ω → Prop
  | .iterate r₁ _ r₃ _ => WithinLimit s r₁ ∧
      ∀ p ∈ s.procs, r₁.worker p ≠ none ∧ r₃.worker p ≠ none
  | .worker _ .takeFails => False
  | .worker _ .die => False
  | _ => True

/-- Functions that raise nothing but `Exception`s and return nothing the daemon chokes on. -/
def Spec.Reliable (J : Jobs Fn V E Ω) : Prop :=
  ∀ fn args kw ω, J.call fn args kw ω ≠ .escapes ∧
    ∀ v, J.call fn args kw ω = .returns v → J.probe v ≠ .raises

theorem reliable_some {J : Jobs Fn V E Ω} (hJ : Reliable J) {f : Future Fn V E}
    (hb : f.result = none) (D : List (Str × V)) (ω : Ω) :
    ∃ f', (execute J f D ω).bind (inspectResult J) = some f' := by
  obtain ⟨h1, h2⟩ := hJ f.fn f.args (dget (dmerge f.kwargs D)) ω
  unfold execute
  cases hc : J.call f.fn f.args (dget (dmerge f.kwargs D)) ω with
  | escapes => exact absurd hc h1
  | raises e =>
    dsimp only [Option.bind_some, inspectResult]
    rw [hb]
    exact ⟨_, rfl⟩
  | returns v =>
    dsimp only [Option.bind_some, inspectResult]
    have := h2 v hc
    cases hp : J.probe v <;> first | exact ⟨_, rfl⟩ | exact absurd hp this

/-- What holds along calm schedules. -/
structure Live (n : Nat) (limit : Option ℚ) (tr : List (AsyncObs Fn V E)) (s : Evaluator Fn V E) :
    Prop where
  back : Backlog n limit tr s
  alive : ∀ w ∈ s.workers, w.alive = true
  commands : s.commands = 0
  number : s.workers.length = n
  known : ∀ j, .submitted j ∈ tr → Key s j.id ∨ ∃ f, .returned f ∈ tr ∧ f.id = j.id

theorem live_entered (n : Nat) (limit : Option ℚ) (logfile : Bool) (D : List (Str × V)) :
    Live n limit [] (entered n limit logfile D : Evaluator Fn V E) := by
  have hb : Backlog n limit [] (entered n limit logfile D : Evaluator Fn V E) := by
    have J : Jobs Fn V E Unit := ⟨fun _ _ _ _ => .escapes, fun _ => .falsy, id⟩
    exact backlog_run (J := J) (es := []) (D := D) trivial
  obtain ⟨ws, ps, h1, h2, -, he⟩ := entered_run (Fn := Fn) (E := E) n limit logfile D
  refine ⟨hb, ?_, ?_, ?_, by simp⟩
  · rw [he]; intro w hw; rw [h1 w hw]
  · rw [he]; rfl
  · rw [he]; exact h2

theorem calm_noStopNoLoss {s : Evaluator Fn V E} {e : AsyncEvent Fn V Ω} (h : Calm s e) :
    NoStopNoLoss s e := by
  cases e with
  | iterate r₁ r₂ r₃ o => exact h.1
  | submit fn args kwargs => trivial
  | wait => trivial
  | worker pid a => cases a <;> first | trivial | exact h

theorem live_step {J : Jobs Fn V E Ω} (hJ : Reliable J) {D : List (Str × V)} {n : Nat}
    {limit : Option ℚ} (tr : List (AsyncObs Fn V E)) (s : Evaluator Fn V E) (e : AsyncEvent Fn V Ω)
    (hg : Good J D tr s) (h : Live n limit tr s) (hc : Calm s e) :
    Live n limit (tr ++ [(asyncStep J s e).1]) (asyncStep J s e).2 := by
  have hb := backlog_step tr s e hg h.back (calm_noStopNoLoss hc)
  -- what happens to workers and commands
  have hw : (∀ w ∈ (asyncStep J s e).2.workers, w.alive = true) ∧ (asyncStep J s e).2.commands = 0 ∧
      (asyncStep J s e).2.workers.length = n := by
    have same : (∀ w ∈ s.workers, w.alive = true) ∧ s.commands = 0 ∧ s.workers.length = n :=
      ⟨h.alive, h.commands, h.number⟩
    refine step_cases (P := fun _ s' => (∀ w ∈ s'.workers, w.alive = true) ∧ s'.commands = 0 ∧
      s'.workers.length = n) J s e same (fun _ _ _ _ _ => same) (fun _ _ _ => same)
      (fun _ _ _ => same) ?_ ?_
    · intro r₁ r₂ r₃ o b he _
      subst he
      rw [waitIteration_calm h.back.pool.ok hc.1 (fun p hp => (hc.2 p hp).1)
        (fun p hp => (hc.2 p hp).2)]
      obtain ⟨-, q2, -, -, q5, -⟩ := pollOutput_procs s
      dsimp only
      rw [q2, q5]
      exact same
    · intro pid a he
      subst he
      obtain ⟨-, -, -, -, -, w6, -, -⟩ := workerStep_frame (J := J) (s := s) pid a
      refine and_assoc.1 ⟨?_, w6.trans h.number⟩
      have hset : ∀ (l : List (Worker Fn V E)) (w : Worker Fn V E), (∀ x ∈ l, x.alive = true) →
          w.alive = true → ∀ x ∈ l.set pid w, x.alive = true := by
        intro l w hl hw x hx
        rcases List.mem_or_eq_of_mem_set hx with hx | rfl
        · exact hl x hx
        · exact hw
      unfold workerStep
      cases hw : s.workers[pid]? with
      | none => exact ⟨h.alive, h.commands⟩
      | some w =>
        dsimp only
        rw [if_pos (h.alive w (List.mem_of_getElem? hw))]
        cases a with
        | takeFails => exact absurd hc id
        | die => exact absurd hc id
        | stop =>
          dsimp only
          rw [if_neg (by rw [h.commands]; omega)]
          exact ⟨h.alive, h.commands⟩
        | take =>
          dsimp only
          split
          · exact ⟨h.alive, h.commands⟩
          · cases s.input with
            | nil => exact ⟨h.alive, h.commands⟩
            | cons f rest => exact ⟨hset _ _ h.alive rfl, h.commands⟩
        | finish ω =>
          dsimp only
          split
          · rename_i hbusy
            obtain ⟨f, hcur, hf⟩ := hg.busy w (List.mem_of_getElem? hw) hbusy
            rw [hcur]
            dsimp only
            obtain ⟨f', hf'⟩ := reliable_some hJ (hg.blank f hf).1 s.defaults ω
            rw [hf']
            exact ⟨hset _ _ h.alive rfl, h.commands⟩
          · exact ⟨h.alive, h.commands⟩
  refine ⟨hb, hw.1, hw.2.1, hw.2.2, ?_⟩
  have old : ∀ (o : AsyncObs Fn V E) (s' : Evaluator Fn V E), s'.futures = s.futures →
      (∀ f, o ≠ .submitted f) → ∀ j, AsyncObs.submitted j ∈ tr ++ [o] →
      Key s' j.id ∨ ∃ f, AsyncObs.returned f ∈ tr ++ [o] ∧ f.id = j.id := by
    intro o s' hs ho j hj
    rcases List.mem_append.1 hj with hj | hj
    · refine (h.known j hj).imp (fun hk => by unfold Key; rw [hs]; exact hk) ?_
      rintro ⟨f, hf, e⟩
      exact ⟨f, List.mem_append_left _ hf, e⟩
    · simp at hj
      exact absurd hj.symm (ho j)
  refine step_cases (P := fun o s' => ∀ j, AsyncObs.submitted j ∈ tr ++ [o] →
      Key s' j.id ∨ ∃ f, AsyncObs.returned f ∈ tr ++ [o] ∧ f.id = j.id) J s e
    (old _ s rfl (by simp)) ?_ (fun _ _ _ => old _ _ rfl (by simp)) (fun _ _ _ => old _ s rfl (by simp)) ?_
    (fun pid a _ => old _ _ (workerStep_frame pid a).1 (by simp))
  · intro fn args kwargs _ _ j hj
    rw [submit_run]
    rcases List.mem_append.1 hj with hj | hj
    · refine (h.known j hj).imp (fun hk => mem_keys_dset.2 (Or.inr hk)) ?_
      rintro ⟨f, hf, e⟩
      exact ⟨f, List.mem_append_left _ hf, e⟩
    · simp at hj
      subst hj
      exact Or.inl (mem_keys_dset.2 (Or.inl rfl))
  · intro r₁ r₂ r₃ o b he _
    subst he
    rw [waitIteration_calm h.back.pool.ok hc.1 (fun p hp => (hc.2 p hp).1) (fun p hp => (hc.2 p hp).2)]
    rw [pollOutput_run]
    cases ho : s.output with
    | nil => exact old _ _ rfl (by simp [pollObs])
    | cons f rest =>
      dsimp only
      cases hd : dget s.futures f.id with
      | none => exact old _ _ rfl (by simp [pollObs])
      | some m =>
        intro j hj
        have hmid := (hg.pend _ _ (dget_mem hd)).1
        have hj : AsyncObs.submitted j ∈ tr := by
          rcases List.mem_append.1 hj with hj | hj
          · exact hj
          · simp [pollObs] at hj
        by_cases e : j.id = f.id
        · refine Or.inr ⟨_, List.mem_append_right _ (by simp only [pollObs]; exact List.mem_cons_self), ?_⟩
          rw [e]; exact hmid
        · refine (h.known j hj).imp (fun hk => ?_) ?_
          · show j.id ∈ (ddel s.futures f.id).map Prod.fst
            by_contra hn
            rw [← dget_eq_none, dget_ddel hg.dict, if_neg (fun h => e h.symm), dget_eq_none] at hn
            exact hn hk
          · rintro ⟨x, hx, e⟩
            exact ⟨x, List.mem_append_left _ hx, e⟩

theorem live_run {J : Jobs Fn V E Ω} (hJ : Reliable J) {D : List (Str × V)} {n : Nat}
    {limit : Option ℚ} (es : List (AsyncEvent Fn V Ω)) {tr : List (AsyncObs Fn V E)}
    {s : Evaluator Fn V E} (hg : Good J D tr s) (h : Live n limit tr s) (hc : Along J Calm es s) :
    Live n limit (tr ++ (asyncRun J es s).1) (asyncRun J es s).2 :=
  run_induct (live_step hJ) es tr s hg h hc

/-- **C29**, as far as it holds: if functions are reliable and no worker is stopped, dies or fails
to receive a job, every submitted job is queued, at a running worker, finished or returned. -/
theorem C29_accounted_partial (J : Jobs Fn V E Ω) (hJ : Reliable J) (n : Nat) (limit : Option ℚ)
    (logfile : Bool) (D : List (Str × V)) (es : List (AsyncEvent Fn V Ω))
    (hc : Along J Calm es (entered n limit logfile D : Evaluator Fn V E)) (j : Future Fn V E)
    (hj : .submitted j ∈ (asyncRun J es (entered n limit logfile D)).1) :
    Accounted (asyncRun J es (entered n limit logfile D)).1
      (asyncRun J es (entered n limit logfile D)).2 j := by
  have hg0 := good_entered (Fn := Fn) (E := E) J n limit logfile D
  have hg := hg0.run es
  have h := live_run hJ es hg0 (live_entered n limit logfile D) hc
  rw [List.nil_append] at hg h
  rcases h.known j hj with hk | hr
  · right
    have hin := h.back.cons.mem_iff.2 hk
    unfold inFlight at hin
    rw [List.mem_map] at hin
    obtain ⟨f, hf, e⟩ := hin
    rcases List.mem_append.1 hf with hf | hf
    · rcases List.mem_append.1 hf with hf | hf
      · have := hg.subs f j (hg.input f hf) hj e
        subst this
        exact Or.inl hf
      · right; right
        rw [List.mem_filterMap] at hf
        obtain ⟨w, hw, hwj⟩ := hf
        unfold Worker.job at hwj
        split at hwj
        · rename_i hb
          obtain ⟨f', h1, h2⟩ := hg.busy w hw hb
          rw [h1] at hwj
          injection hwj with hwj
          subst hwj
          have := hg.subs f' j h2 hj e
          subst this
          exact ⟨w, hw, h.alive w hw, hb, h1⟩
        · cases hwj
    · exact Or.inr (Or.inl ⟨f, hf, e⟩)
  · exact Or.inl hr

theorem asyncRun_append (J : Jobs Fn V E Ω) (a b : List (AsyncEvent Fn V Ω)) :
    ∀ s : Evaluator Fn V E, asyncRun J (a ++ b) s =
      ((asyncRun J a s).1 ++ (asyncRun J b (asyncRun J a s).2).1, (asyncRun J b (asyncRun J a s).2).2) := by
  induction a with
  | nil => intro s; rfl
  | cons e a ih =>
    intro s
    rw [List.cons_append, asyncRun, ih]
    rfl

theorem along_append {J : Jobs Fn V E Ω} {C : Evaluator Fn V E → AsyncEvent Fn V Ω → Prop}
    (a b : List (AsyncEvent Fn V Ω)) : ∀ {s : Evaluator Fn V E}, Along J C a s →
      Along J C b (asyncRun J a s).2 → Along J C (a ++ b) s := by
  induction a with
  | nil => intro s _ h; exact h
  | cons e a ih => intro s h k; exact ⟨h.1, ih h.2 k⟩

/-- A schedule without submissions. -/
def Spec.NoSubmit (es : List (AsyncEvent Fn V Ω)) : Prop :=
  ∀ fn args kwargs, AsyncEvent.submit fn args kwargs ∉ es

/-- A worker that has a job can finish it. -/
theorem finish_busy {J : Jobs Fn V E Ω} (hJ : Reliable J) {D : List (Str × V)} {n : Nat}
    {limit : Option ℚ} {tr : List (AsyncObs Fn V E)} {s : Evaluator Fn V E} (hg : Good J D tr s)
    (h : Live n limit tr s) {pid : Nat} {w : Worker Fn V E} (hw : s.workers[pid]? = some w)
    (hb : w.busy = true) (ω : Ω) : (workerStep J pid (.finish ω) s).output ≠ [] := by
  have hm := List.mem_of_getElem? hw
  obtain ⟨f, hcur, hf⟩ := hg.busy w hm hb
  obtain ⟨f', hf'⟩ := reliable_some hJ (hg.blank f hf).1 s.defaults ω
  unfold workerStep
  rw [hw]
  dsimp only
  rw [if_pos (h.alive w hm), if_pos hb, hcur]
  dsimp only
  rw [hf']
  simp

/-- From a live state with unreturned jobs, some schedule produces output. -/
theorem produce_output {J : Jobs Fn V E Ω} (hJ : Reliable J) (ω : Ω) {D : List (Str × V)} {n : Nat}
    (hn : 1 ≤ n) {limit : Option ℚ} {tr : List (AsyncObs Fn V E)} {s : Evaluator Fn V E}
    (hg : Good J D tr s) (h : Live n limit tr s) (hp : 0 < s.futures.length) :
    ∃ es, NoSubmit es ∧ Along J Calm es s ∧ (asyncRun J es s).2.output ≠ [] ∧
      (asyncRun J es s).2.futures = s.futures := by
  by_cases ho : s.output = []
  · by_cases hbusy : ∃ (pid : Nat) (w : Worker Fn V E), s.workers[pid]? = some w ∧ w.busy = true
    · obtain ⟨pid, w, hw, hb⟩ := hbusy
      exact ⟨[.worker pid (.finish ω)], by intro fn a k; simp, ⟨trivial, trivial⟩,
        finish_busy hJ hg h hw hb ω, (workerStep_frame pid (.finish ω)).1⟩
    · have hnone : s.workers.filterMap Worker.job = [] := by
        rw [List.filterMap_eq_nil_iff]
        intro w hw
        obtain ⟨pid, hpid⟩ := List.getElem?_of_mem hw
        unfold Worker.job
        rw [if_neg]
        intro hb
        exact hbusy ⟨pid, w, hpid, hb⟩
      have hlen := h.back.cons.length_eq
      unfold inFlight at hlen
      rw [ho, hnone] at hlen
      simp only [List.append_nil, List.length_map] at hlen
      cases hi : s.input with
      | nil => rw [hi] at hlen; simp at hlen; omega
      | cons f rest =>
        have hpos : 0 < s.workers.length := by rw [h.number]; omega
        have hw0 : s.workers[0]? = some s.workers[0] := List.getElem?_eq_getElem hpos
        have hnb : ¬ (s.workers[0].busy = true) := fun hb => hbusy ⟨0, _, hw0, hb⟩
        have hal : s.workers[0].alive = true := h.alive _ (List.getElem_mem hpos)
        have hstep : workerStep J 0 (.take : WorkerAct Ω) s =
            { s with input := rest, workers := s.workers.set 0 ⟨some f, true, true⟩ } := by
          unfold workerStep
          rw [hw0]
          dsimp only
          rw [if_pos hal, if_neg hnb, hi]
        have hg' := hg.step (.worker 0 .take)
        have h' := live_step hJ tr s (.worker 0 .take) hg h trivial
        refine ⟨[.worker 0 .take, .worker 0 (.finish ω)], by intro fn a k; simp,
          ⟨trivial, trivial, trivial⟩, ?_,
          ((workerStep_frame 0 (.finish ω)).1).trans (workerStep_frame (J := J) 0 .take).1⟩
        refine finish_busy hJ hg' h' (w := ⟨some f, true, true⟩) ?_ rfl ω
        show (workerStep J 0 (.take : WorkerAct Ω) s).workers[0]? = _
        rw [hstep]
        show (s.workers.set 0 ⟨some f, true, true⟩)[0]? = _
        rw [List.getElem?_set_self hpos]
  · exact ⟨[], by intro fn a k; simp, trivial, ho, rfl⟩

/-- Readings within the limit. -/
def calmReading (s : Evaluator Fn V E) : Readings :=
  ⟨match s.limit with | none => 0 | some L => L, fun _ => some 0⟩

theorem calmReading_within (s : Evaluator Fn V E) : WithinLimit s (calmReading s) := by
  intro L hL
  have : ∀ l : List Nat, ((l.filterMap fun _ => some (0 : ℚ)).sum) = 0 := by
    intro l
    induction l with
    | nil => rfl
    | cons x l ih => simpa using ih
  unfold calmReading
  rw [hL]
  dsimp only
  rw [this, add_zero]

/-- A finished job is returned by the next wait. -/
theorem return_one {J : Jobs Fn V E Ω} {D : List (Str × V)} {n : Nat} {limit : Option ℚ}
    {tr : List (AsyncObs Fn V E)} {s : Evaluator Fn V E} (hg : Good J D tr s)
    (h : Live n limit tr s) (ho : s.output ≠ []) :
    ∃ es, NoSubmit es ∧ Along J Calm es s ∧
      (asyncRun J es s).2.futures.length + 1 = s.futures.length := by
  -- an iteration while waiting
  have key : ∀ t : Evaluator Fn V E, t.waiting = true → ProcsOK t → Conserved t →
      DictOK t.futures → t.output ≠ [] → ∀ (it : AsyncEvent Fn V Ω),
      it = .iterate (calmReading t) (calmReading t) (calmReading t) .ok →
      Calm t it ∧ (asyncStep J t it).2.futures.length + 1 = t.futures.length := by
    intro t hw hok hcons hd hne it hit
    have hcalm : ∀ p ∈ t.procs, (calmReading t).worker p ≠ none ∧ (calmReading t).worker p ≠ none :=
      fun p _ => ⟨by simp [calmReading], by simp [calmReading]⟩
    subst hit
    refine ⟨⟨calmReading_within t, hcalm⟩, ?_⟩
    simp only [asyncStep, hw, if_true]
    rw [waitIteration_calm hok (calmReading_within t) (fun p hp => (hcalm p hp).1)
      (fun p hp => (hcalm p hp).1)]
    have hpoll := (hcons.poll hd).2
    rw [pollOutput_run] at hpoll ⊢
    cases hout : t.output with
    | nil => exact absurd hout hne
    | cons f rest =>
      rw [hout] at hpoll
      dsimp only at hpoll ⊢
      cases hdg : dget t.futures f.id with
      | none => rw [hdg] at hpoll; exact absurd rfl (hpoll _)
      | some m => exact ddel_length hdg
  cases hw : s.waiting with
  | true =>
    obtain ⟨k1, k2⟩ := key s hw h.back.pool.ok h.back.cons hg.dict ho _ rfl
    exact ⟨[_], by intro fn a k; simp, ⟨k1, trivial⟩, k2⟩
  | false =>
    have hb : ¬ (false = true) := by simp
    have hlen : s.futures.length ≠ 0 := by
      intro h0
      have := h.back.cons.length_eq
      rw [List.length_map, h0] at this
      have := List.eq_nil_of_length_eq_zero this
      unfold inFlight at this
      rw [List.map_eq_nil_iff, List.append_eq_nil_iff] at this
      exact ho this.2
    have hst : asyncStep J s .wait = (.nothing, { s with waiting := true }) := by
      simp only [asyncStep, hw, if_neg hb]
      rw [waitBegin_run, if_neg hlen]
    obtain ⟨k1, k2⟩ := key { s with waiting := true } rfl h.back.pool.ok h.back.cons hg.dict ho _ rfl
    refine ⟨[.wait, .iterate (calmReading { s with waiting := true })
      (calmReading { s with waiting := true }) (calmReading { s with waiting := true }) .ok],
      ?_, ⟨trivial, ?_, trivial⟩, ?_⟩
    · intro fn a k; simp
    · rw [hst]; exact k1
    · show (asyncStep J (asyncStep J s .wait).2 _).2.futures.length + 1 = _
      rw [hst]; exact k2

/-- **C29**, the consequence: under the same conditions waiting for all unreturned jobs can always
be completed, without submitting anything else. -/
theorem C29_all_returned_partial (J : Jobs Fn V E Ω) (hJ : Reliable J) [Nonempty Ω] (n : Nat)
    (hn : 1 ≤ n) (limit : Option ℚ) (logfile : Bool) (D : List (Str × V))
    (es : List (AsyncEvent Fn V Ω))
    (hc : Along J Calm es (entered n limit logfile D : Evaluator Fn V E)) :
    ∃ more, NoSubmit more ∧
      Along J Calm (es ++ more) (entered n limit logfile D : Evaluator Fn V E) ∧
      let tr := (asyncRun J (es ++ more) (entered n limit logfile D : Evaluator Fn V E)).1
      returnedCount tr = submittedCount tr := by
  have hg0 := good_entered (Fn := Fn) (E := E) J n limit logfile D
  have hg := hg0.run es
  have h := live_run hJ es hg0 (live_entered n limit logfile D) hc
  rw [List.nil_append] at hg h
  obtain ⟨ω⟩ := ‹Nonempty Ω›
  have key : ∀ (k : Nat) (tr : List (AsyncObs Fn V E)) (s : Evaluator Fn V E), Good J D tr s →
      Live n limit tr s → s.futures.length = k →
      ∃ more, NoSubmit more ∧ Along J Calm more s ∧
        returnedCount (tr ++ (asyncRun J more s).1) = submittedCount (tr ++ (asyncRun J more s).1) := by
    intro k
    induction k with
    | zero =>
      intro tr s hg h hk
      refine ⟨[], by intro fn a k; simp, trivial, ?_⟩
      have := h.back.counted
      unfold Counted at this
      simp only [asyncRun, List.append_nil]
      omega
    | succ k ih =>
      intro tr s hg h hk
      obtain ⟨e1, n1, a1, o1, l1⟩ := produce_output hJ ω hn hg h (by omega)
      obtain ⟨e2, n2, a2, l2⟩ := return_one (hg.run e1) (live_run hJ e1 hg h a1) o1
      have hlen1 : ∃ e3, NoSubmit e3 ∧ Along J Calm e3 s ∧
          (asyncRun J e3 s).2.futures.length = k := by
        refine ⟨e1 ++ e2, ?_, along_append _ _ a1 a2, ?_⟩
        · intro fn a kw hm
          rcases List.mem_append.1 hm with hm | hm
          · exact n1 fn a kw hm
          · exact n2 fn a kw hm
        · rw [asyncRun_append]
          dsimp only
          rw [l1] at l2
          omega
      obtain ⟨e3, n3, a3, l3⟩ := hlen1
      obtain ⟨m, nm, am, hm⟩ := ih _ _ (hg.run e3) (live_run hJ e3 hg h a3) l3
      refine ⟨e3 ++ m, ?_, along_append _ _ a3 am, ?_⟩
      · intro fn a kw hx
        rcases List.mem_append.1 hx with hx | hx
        · exact n3 fn a kw hx
        · exact nm fn a kw hx
      · rw [asyncRun_append]
        dsimp only
        rw [← List.append_assoc]
        exact hm
  obtain ⟨m, nm, am, hm⟩ := key _ _ _ hg h rfl
  refine ⟨m, nm, along_append _ _ hc am, ?_⟩
  rw [asyncRun_append]
  exact hm

/-- A calm schedule with unreturned jobs. -/
def Ex.halfway : List (AsyncEvent Nat Nat Unit) :=
  [.submit 0 [3] [], .submit 1 [4] [], .worker 0 .take, .wait, Ex.poll]

/-- Functions that return or raise, results that can be inspected. -/
def Ex.mildJobs : Jobs Nat Nat Nat Unit := { Ex.jobs with
  call := fun fn args _ _ => if fn = 0 then .returns (args.headD 0) else .raises 5
  probe := fun _ => .fine }

example : Reliable Ex.mildJobs := by
  intro fn args kw ω
  refine ⟨?_, fun v _ => by simp [Ex.mildJobs]⟩
  simp only [Ex.mildJobs]
  split <;> simp

example : Along Ex.mildJobs Calm Ex.halfway (Ex.pool 2 none) ∧
    submittedCount (asyncRun Ex.mildJobs Ex.halfway (Ex.pool 2 none)).1 = 2 ∧
    returnedCount (asyncRun Ex.mildJobs Ex.halfway (Ex.pool 2 none)).1 = 0 := by
  refine ⟨⟨trivial, trivial, trivial, trivial, ⟨?_, ?_⟩, trivial⟩, by decide +kernel, by decide +kernel⟩
  · intro L hL; cases hL
  · intro p _; exact ⟨by simp [Ex.reading], by simp [Ex.reading]⟩

/-! ### Cases of the theorems above -/

theorem Ex.mild_reliable : Reliable Ex.mildJobs := by
  intro fn args kw ω
  refine ⟨?_, fun v _ => by simp [Ex.mildJobs]⟩
  simp only [Ex.mildJobs]
  split <;> simp

theorem Ex.halfway_calm : Along Ex.mildJobs Calm Ex.halfway (Ex.pool 2 none) := by
  refine ⟨trivial, trivial, trivial, trivial, ⟨?_, ?_⟩, trivial⟩
  · intro L hL; cases hL
  · intro p _; exact ⟨by simp [Ex.reading], by simp [Ex.reading]⟩

/-- `C28_own_result`: of two jobs the second is returned first, and it is the second. -/
example : ∃ j, .submitted j ∈ (asyncRun Ex.jobs Ex.crossed (Ex.pool 2 none)).1.take 7 ∧
    SameJob j ⟨1, 0, [4], [], some 4, none⟩ ∧ Reports Ex.jobs [] j ⟨1, 0, [4], [], some 4, none⟩ :=
  ((C28_own_result Ex.jobs 2 none false [] Ex.crossed).1
    ((asyncRun Ex.jobs Ex.crossed (Ex.pool 2 none)).1.take 7) ⟨1, 0, [4], [], some 4, none⟩
    ((asyncRun Ex.jobs Ex.crossed (Ex.pool 2 none)).1.drop 8) rfl).1

/-- `C28_result_is_return_value`: its result is what the function returned for it. -/
example : ∃ kw ω u, Ex.jobs.call 0 [4] kw ω = .returns u ∧ (4 = u ∨ Ex.jobs.probe u = .memoryError ∧
    4 = Ex.jobs.withoutMemoryError u) := by
  obtain ⟨j, _, hs, hr⟩ := ((C28_own_result Ex.jobs 2 none false [] Ex.crossed).1
    ((asyncRun Ex.jobs Ex.crossed (Ex.pool 2 none)).1.take 7) ⟨1, 0, [4], [], some 4, none⟩
    ((asyncRun Ex.jobs Ex.crossed (Ex.pool 2 none)).1.drop 8) rfl).1
  obtain ⟨kw, ω, u, h1, h2⟩ := (C28_result_is_return_value hr).1 4 rfl
  obtain ⟨-, e1, e2, -⟩ := hs
  rw [e1, e2] at h1
  exact ⟨kw, ω, u, h1, h2⟩

/-- `C32_number_of_workers` where one of two workers was stopped. -/
example : 1 ≤ (asyncRun Ex.jobs [.submit 0 [3] [], .worker 0 .take, .wait,
      .iterate (Ex.reading 20) (Ex.reading 20) (Ex.reading 20) .ok] (entered 2 (some 10) false [])).2.procs.length ∧
    (asyncRun Ex.jobs [.submit 0 [3] [], .worker 0 .take, .wait,
      .iterate (Ex.reading 20) (Ex.reading 20) (Ex.reading 20) .ok]
        (entered 2 (some 10) false [])).2.procs.length < 2 :=
  ⟨(C32_number_of_workers Ex.jobs 2 (by decide) (some 10) false [] _).1, by decide +kernel⟩

/-- `C30_wait_without_jobs`: waiting when both jobs were returned. -/
example : asyncStep Ex.jobs (asyncRun Ex.jobs Ex.crossed (Ex.pool 2 none)).2 .wait =
    (.raised .runtimeError, (asyncRun Ex.jobs Ex.crossed (Ex.pool 2 none)).2) :=
  (C30_wait_without_jobs Ex.jobs 2 none false [] Ex.crossed rfl).1 rfl

/-- `C29_accounted_partial`: the second job of `Ex.halfway`, which is still queued. -/
example : Accounted (asyncRun Ex.mildJobs Ex.halfway (Ex.pool 2 none)).1
    (asyncRun Ex.mildJobs Ex.halfway (Ex.pool 2 none)).2 ⟨1, 1, [4], [], none, none⟩ :=
  C29_accounted_partial Ex.mildJobs Ex.mild_reliable 2 none false [] Ex.halfway Ex.halfway_calm _ (by
    have : (asyncRun Ex.mildJobs Ex.halfway (Ex.pool 2 none)).1[1]? =
      some (.submitted ⟨1, 1, [4], [], none, none⟩) := rfl
    exact List.mem_of_getElem? this)

/-- `C29_all_returned_partial`: both jobs of `Ex.halfway` can still be returned. -/
example : ∃ more, NoSubmit more ∧
    returnedCount (asyncRun Ex.mildJobs (Ex.halfway ++ more) (Ex.pool 2 none)).1 =
      submittedCount (asyncRun Ex.mildJobs (Ex.halfway ++ more) (Ex.pool 2 none)).1 := by
  obtain ⟨more, h1, _, h3⟩ := C29_all_returned_partial Ex.mildJobs Ex.mild_reliable 2 (by decide) none false []
    Ex.halfway Ex.halfway_calm
  exact ⟨more, h1, h3⟩

end
end Gama
