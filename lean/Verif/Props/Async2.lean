import Verif.Props.Async

/-! # Failing jobs, keyword arguments, entering and leaving the evaluator: C31, C33, C80 -/

namespace Gama
open PyM Spec

section
variable {Fn V E Ω : Type}

/-! ## C31 -/

/-- The worker reports the failure of its job `f` and goes on; nobody else is affected. -/
def Spec.FailureReported (s s' : Evaluator Fn V E) (pid : Nat) (f f' : Future Fn V E) : Prop :=
  SameJob f f' ∧ f'.result = none ∧ f'.exception ≠ none ∧ s'.output = s.output ++ [f'] ∧
  (∃ w, s'.workers[pid]? = some w ∧ w.alive = true ∧ w.busy = false) ∧
  (∀ q, q ≠ pid → s'.workers[q]? = s.workers[q]?) ∧
  s'.input = s.input ∧ s'.futures = s.futures ∧ s'.procs = s.procs

/-- **C31** in full: whatever a function raises, it is reported. -/
def C31_claim : Prop :=
  ∀ (Fn V E Ω : Type) (J : Jobs Fn V E Ω) (n : Nat) (limit : Option ℚ) (logfile : Bool)
    (D : List (Str × V)) (es : List (AsyncEvent Fn V Ω)) (pid : Nat) (w : Worker Fn V E)
    (f : Future Fn V E) (ω : Ω),
    let s := (asyncRun J es (entered n limit logfile D)).2
    s.workers[pid]? = some w → w.alive = true → w.busy = true → w.cur = some f →
    (∀ kw, KwargsFrom f.kwargs D kw → ∀ v, J.call f.fn f.args kw ω ≠ .returns v) →
    ∃ f', FailureReported s (workerStep J pid (.finish ω) s) pid f f'

/-- **C31**, as far as it holds: an `Exception` is reported, as itself. -/
theorem C31_reported_partial (J : Jobs Fn V E Ω) (n : Nat) (limit : Option ℚ) (logfile : Bool)
    (D : List (Str × V)) (es : List (AsyncEvent Fn V Ω)) (pid : Nat) (w : Worker Fn V E)
    (f : Future Fn V E) (ω : Ω) (e : E) (s : Evaluator Fn V E)
    (hs : s = (asyncRun J es (entered n limit logfile D)).2)
    (hw : s.workers[pid]? = some w) (ha : w.alive = true) (hb : w.busy = true)
    (hf : w.cur = some f)
    (hr : ∀ kw, KwargsFrom f.kwargs D kw → J.call f.fn f.args kw ω = .raises e) :
    ∃ f', FailureReported s (workerStep J pid (.finish ω) s) pid f f' ∧
      f'.exception = some (.raised e) := by
  have hg := (good_entered (Fn := Fn) (E := E) J n limit logfile D).run es
  rw [List.nil_append, ← hs] at hg
  obtain ⟨g, hcur, hsub⟩ := hg.busy w (List.mem_of_getElem? hw) hb
  have : g = f := by rw [hf] at hcur; injection hcur with h; exact h.symm
  subst this
  have hblank := (hg.blank g hsub).1
  have hex : execute J g s.defaults ω = some { g with exception := some (.raised e) } := by
    unfold execute
    rw [hg.defaults, hr _ (kwargsFrom_merge _ _)]
  have hin : inspectResult J { g with exception := some (.raised e) } =
      some { g with exception := some (.raised e) } := by
    unfold inspectResult
    dsimp only
    rw [hblank]
  have hstep : workerStep J pid (.finish ω) s = { s with
      output := s.output ++ [{ g with exception := some (.raised e) }]
      workers := s.workers.set pid ⟨some { g with exception := some (.raised e) }, false, true⟩ } := by
    unfold workerStep
    rw [hw]
    dsimp only
    rw [if_pos ha, if_pos hb, hf]
    dsimp only
    rw [hex, Option.bind_some, hin]
  have hlt : pid < s.workers.length := by
    by_contra hn
    rw [List.getElem?_eq_none (Nat.le_of_not_lt hn)] at hw
    cases hw
  refine ⟨{ g with exception := some (.raised e) }, ?_, rfl⟩
  rw [hstep]
  refine ⟨⟨rfl, rfl, rfl, rfl⟩, hblank, by simp, rfl, ⟨_, List.getElem?_set_self hlt, rfl, rfl⟩,
    fun q hq => List.getElem?_set_ne (fun h => hq h.symm), rfl, rfl, rfl⟩

/-- ... and the worker can take the next job. -/
theorem C31_continues_partial (J : Jobs Fn V E Ω) (s : Evaluator Fn V E) (pid : Nat)
    (w : Worker Fn V E) (f : Future Fn V E) (rest : List (Future Fn V E))
    (hw : s.workers[pid]? = some w) (ha : w.alive = true) (hb : w.busy = false)
    (hi : s.input = f :: rest) :
    (workerStep J pid .take s).workers[pid]? = some ⟨some f, true, true⟩ ∧
      (workerStep J pid .take s).input = rest := by
  have hlt : pid < s.workers.length := by
    by_contra hn
    rw [List.getElem?_eq_none (Nat.le_of_not_lt hn)] at hw
    cases hw
  have hstep : workerStep J pid .take s =
      { s with input := rest, workers := s.workers.set pid ⟨some f, true, true⟩ } := by
    unfold workerStep
    rw [hw]
    dsimp only
    rw [if_pos ha, if_neg (by rw [hb]; simp), hi]
  rw [hstep]
  exact ⟨List.getElem?_set_self hlt, rfl⟩

/-- What the caller sees: a returned job whose function always raises `e` carries `e` and no
result. -/
theorem C31_returned_exception_partial (J : Jobs Fn V E Ω) (n : Nat) (limit : Option ℚ) (logfile : Bool)
    (D : List (Str × V)) (es : List (AsyncEvent Fn V Ω)) (f : Future Fn V E) (e : E)
    (hf : .returned f ∈ (asyncRun J es (entered n limit logfile D)).1)
    (hr : ∀ kw ω, J.call f.fn f.args kw ω = .raises e) :
    f.result = none ∧ f.exception = some (.raised e) := by
  obtain ⟨pre, post, he⟩ := List.append_of_mem hf
  obtain ⟨⟨j, -, ⟨-, h1, h2, -⟩, kw, ω, -, h3⟩, -⟩ :=
    (C28_own_result J n limit logfile D es).1 pre f post he
  rw [h1, h2, hr kw ω] at h3
  exact h3

/-- A job that raises, on its worker. -/
def Ex.raising : List (AsyncEvent Nat Nat Unit) :=
  [.submit 1 [3] [], .submit 0 [4] [], .worker 0 .take]

example : (asyncRun Ex.jobs Ex.raising (Ex.pool 1 none)).2.workers[0]? =
    some ⟨some ⟨0, 1, [3], [], none, none⟩, true, true⟩ := rfl

/-- A job that exits the process, on its worker. -/
def Ex.exiting : List (AsyncEvent Nat Nat Unit) :=
  [.submit 2 [3] [], .submit 0 [4] [], .worker 0 .take]

/-- **C31 is false** of exceptions that are no `Exception`: `SystemExit` ends the worker and the
job is never reported. -/
theorem C31_false : ¬ C31_claim := by
  intro h
  obtain ⟨f', -, -, -, h1, ⟨w, hw, ha, -⟩, -⟩ := h Nat Nat Nat Unit Ex.jobs 1 none false [] Ex.exiting 0
    ⟨some ⟨0, 2, [3], [], none, none⟩, true, true⟩ ⟨0, 2, [3], [], none, none⟩ () rfl rfl rfl rfl
    (by intro kw _ v; simp [Ex.jobs])
  have : (workerStep Ex.jobs 0 (.finish ())
      (asyncRun Ex.jobs Ex.exiting (entered 1 none false [])).2).workers[0]? =
      some ⟨some ⟨0, 2, [3], [], none, none⟩, true, false⟩ := rfl
  rw [this] at hw
  injection hw with hw
  rw [← hw] at ha
  cases ha

/-! ## C33 -/

/-- The keyword arguments a job should run with. -/
def Spec.givenFirst (given defaults : List (Str × V)) (k : Str) : Option V :=
  match dget given k with
  | some v => some v
  | none => dget defaults k

/-- `f` reports a call of `job` with keyword arguments `kw`. -/
def Spec.ReportsWith (J : Jobs Fn V E Ω) (kw : Str → Option V) (job f : Future Fn V E) : Prop :=
  ∃ ω, match J.call job.fn job.args kw ω with
    | .returns v =>
      (f.result = some v ∧ f.exception = none) ∨
      (J.probe v = .memoryError ∧ f.result = some (J.withoutMemoryError v) ∧ f.exception = none) ∨
      (J.probe v = .raisesMemory ∧ f.result = none ∧ f.exception = some .memory)
    | .raises e => f.result = none ∧ f.exception = some (.raised e)
    | .escapes => False

/-- **C33** in full: every returned job ran with the given arguments, defaults filling in. -/
def C33_claim : Prop :=
  ∀ (Fn V E Ω : Type) (J : Jobs Fn V E Ω) (n : Nat) (limit : Option ℚ) (logfile : Bool)
    (D : List (Str × V)) (es : List (AsyncEvent Fn V Ω)) (f : Future Fn V E),
    DictOK D → DictOK f.kwargs →
    .returned f ∈ (asyncRun J es (entered n limit logfile D)).1 →
    ReportsWith J (givenFirst f.kwargs D) f f

theorem kwargsFrom_unique {given defaults : List (Str × V)} (hg : DictOK given) (hd : DictOK defaults)
    (hdis : ∀ k, k ∈ given.map Prod.fst → k ∉ defaults.map Prod.fst) {kw : Str → Option V}
    (h : KwargsFrom given defaults kw) : kw = givenFirst given defaults := by
  funext k
  obtain ⟨h1, h2⟩ := h k
  unfold givenFirst
  cases hk : dget given k with
  | some u =>
    have hu := dget_mem hk
    cases hkw : kw k with
    | none => exact absurd hkw (h2 u (Or.inl hu))
    | some v =>
      rcases h1 v hkw with hv | hv
      · have := dget_of_mem hg hv
        rw [hk] at this
        exact this.symm
      · exact absurd (List.mem_map_of_mem (f := Prod.fst) hv) (hdis k (List.mem_map_of_mem (f := Prod.fst) hu))
  | none =>
    dsimp only
    have hn := dget_eq_none.1 hk
    cases hkw : kw k with
    | none =>
      cases hkd : dget defaults k with
      | none => rfl
      | some v => exact absurd hkw (h2 v (Or.inr (dget_mem hkd)))
    | some v =>
      rcases h1 v hkw with hv | hv
      · exact absurd (List.mem_map_of_mem (f := Prod.fst) hv) hn
      · exact (dget_of_mem hd hv).symm

/-- **C33**, as far as it holds: if no given name is also a default, every returned job ran with
exactly the given arguments plus the defaults. -/
theorem C33_disjoint_partial (J : Jobs Fn V E Ω) (n : Nat) (limit : Option ℚ) (logfile : Bool)
    (D : List (Str × V)) (es : List (AsyncEvent Fn V Ω)) (f : Future Fn V E) (hD : DictOK D)
    (hk : DictOK f.kwargs) (hdis : ∀ k, k ∈ f.kwargs.map Prod.fst → k ∉ D.map Prod.fst)
    (hf : .returned f ∈ (asyncRun J es (entered n limit logfile D)).1) :
    ReportsWith J (givenFirst f.kwargs D) f f := by
  obtain ⟨pre, post, he⟩ := List.append_of_mem hf
  obtain ⟨⟨j, -, ⟨-, h1, h2, h4⟩, kw, ω, h5, h3⟩, -⟩ :=
    (C28_own_result J n limit logfile D es).1 pre f post he
  rw [h4] at h5
  rw [kwargsFrom_unique hk hD hdis h5, h1, h2] at h3
  exact ⟨ω, h3⟩

/-- Returns the keyword argument `x`, 0 if there is none. -/
def Ex.kwJobs : Jobs Nat Nat Nat Unit := { Ex.jobs with
  call := fun _ _ kw _ => .returns ((kw ['x']).getD 0)
  probe := fun _ => .fine }

def Ex.kwRun : List (AsyncEvent Nat Nat Unit) :=
  [.submit 0 [] [(['x'], 1)], .worker 0 .take, .worker 0 (.finish ()), .wait, Ex.poll]

example : (asyncRun Ex.kwJobs Ex.kwRun (entered 1 none false [(['y'], 2)])).1[4]? =
    some (.returned (⟨0, 0, [], [(['x'], 1)], some 1, none⟩ : Future Nat Nat Nat)) := rfl

/-- **C33 is false**: a default replaces the given argument of the same name. -/
theorem C33_false : ¬ C33_claim := by
  intro h
  obtain ⟨ω, hω⟩ := h Nat Nat Nat Unit Ex.kwJobs 1 none false [(['x'], 2)] Ex.kwRun
    ⟨0, 0, [], [(['x'], 1)], some 2, none⟩ (by simp [DictOK]) (by simp [DictOK]) (by
      have : (asyncRun Ex.kwJobs Ex.kwRun (entered 1 none false [(['x'], 2)])).1 =
        [.submitted ⟨0, 0, [], [(['x'], 1)], none, none⟩, .nothing, .nothing, .nothing,
          .returned ⟨0, 0, [], [(['x'], 1)], some 2, none⟩] := rfl
      rw [this]; simp)
  rcases hω with ⟨h1, -⟩ | ⟨h1, -⟩ | ⟨h1, -⟩
  · have : (1 : Nat) = 2 := by injection h1 with h1; exact h1.symm
    omega
  · cases h1
  · cases h1

/-! ## C80 -/

/-- The evaluator has been entered, and processes that run are in its list. -/
def Tracked (s : Evaluator Fn V E) : Prop :=
  s.hasEntered = true ∧ ∀ pid w, s.workers[pid]? = some w → w.alive = true → pid ∈ s.procs

theorem kill_alive {s : Evaluator Fn V E} {p q : Nat} {w : Worker Fn V E}
    (h : (kill s p)[q]? = some w) (ha : w.alive = true) : q ≠ p ∧ s.workers[q]? = some w := by
  unfold kill at h
  cases hw : s.workers[p]? with
  | none =>
    rw [hw] at h
    refine ⟨?_, h⟩
    rintro rfl
    rw [hw] at h
    cases h
  | some x =>
    rw [hw] at h
    dsimp only at h
    by_cases e : q = p
    · subst e
      rw [List.getElem?_set] at h
      split at h
      · split at h
        · injection h with h
          rw [← h] at ha
          cases ha
        · cases h
      · exact absurd rfl ‹_›
    · rw [List.getElem?_set_ne (fun h => e h.symm)] at h
      exact ⟨e, h⟩

theorem tracked_start {s : Evaluator Fn V E} (h : Tracked s) : Tracked (startWorker s).2 := by
  refine ⟨h.1, fun pid w hw ha => ?_⟩
  have hw : (s.workers ++ [⟨none, false, true⟩])[pid]? = some w := hw
  show pid ∈ s.procs ++ [s.workers.length]
  rcases Nat.lt_trichotomy pid s.workers.length with hl | hl | hl
  · rw [List.getElem?_append_left hl] at hw
    exact List.mem_append_left _ (h.2 pid w hw ha)
  · rw [hl]; simp
  · rw [List.getElem?_eq_none (by simp; omega)] at hw
    cases hw

theorem tracked_killed {s : Evaluator Fn V E} (h : Tracked s) (p : Nat) (ps : List Nat)
    (hps : ∀ q, q ∈ s.procs → q ≠ p → q ∈ ps) (j : Int) :
    Tracked { s with workers := kill s p, procs := ps, jobQueueSize := j } := by
  refine ⟨h.1, fun pid w hw ha => ?_⟩
  obtain ⟨hne, hw⟩ := kill_alive hw ha
  exact hps _ (h.2 pid w hw ha) hne

theorem wp_tracked_stop (pid : Nat) (o : StopOutcome) {s : Evaluator Fn V E} (h : Tracked s) :
    wp (stopWorker pid o) (fun _ s' => Tracked s') (fun _ s' => Tracked s') s := by
  cases o with
  | timeout => exact h
  | gone => exact tracked_killed h pid s.procs (fun q hq _ => hq) s.jobQueueSize
  | ok =>
    simp only [stopWorker, removeProc, wp_bind, wp_modify, wp_get, wp_ite]
    exact ⟨fun _ => tracked_killed h pid _ (fun q hq hn => (List.mem_erase_of_ne hn).2 hq) _,
      fun _ => tracked_killed h pid _ (fun q hq _ => hq) _⟩

theorem wp_tracked_usage (r : Readings) : ∀ (ps : List Nat) {s : Evaluator Fn V E}, Tracked s →
    wp (usageLoop r ps) (fun _ s' => Tracked s') (fun _ s' => Tracked s') s := by
  intro ps
  induction ps with
  | nil => intro s h; exact h
  | cons p ps ih =>
    intro s h
    unfold usageLoop
    cases r.worker p with
    | some mb =>
      simp only [wp_bind]
      exact wp_mono (fun _ _ h => wp_pure.2 h) (fun _ _ h => h) (ih h)
    | none =>
      simp only [wp_bind, wp_modify, startWorker]
      refine ih (tracked_start (s := { s with
        workers := kill s p, procs := s.procs.filter fun q => q != p }) ?_)
      exact tracked_killed h p _ (fun q hq hn => List.mem_filter.2 ⟨hq, by simpa using hn⟩) s.jobQueueSize

theorem wp_tracked_log (r : Readings) {s : Evaluator Fn V E} (h : Tracked s) :
    wp (logUsage r) (fun _ s' => Tracked s') (fun _ s' => Tracked s') s := by
  simp only [logUsage, wp_bind, wp_get, memoryUsage, wp_ite]
  exact ⟨fun _ => wp_mono (fun _ _ h => wp_pure.2 h) (fun _ _ h => h) (wp_tracked_usage r _ h),
    fun _ => h⟩

theorem wp_tracked_restart (pid : Nat) (o : StopOutcome) {s : Evaluator Fn V E} (h : Tracked s) :
    wp (restartOrKill pid o) (fun _ s' => Tracked s') (fun _ s' => Tracked s') s := by
  simp only [restartOrKill, wp_bind, wp_get, wp_ite, wp_modify]
  refine ⟨fun _ => ?_, fun _ => wp_tracked_stop pid o h⟩
  exact wp_mono (fun _ s' h => tracked_start h) (fun _ _ h => h) (wp_tracked_stop pid o h)

theorem wp_tracked_control (r r' : Readings) (o : StopOutcome) {s : Evaluator Fn V E}
    (h : Tracked s) :
    wp (controlMemory r r' o) (fun _ s' => Tracked s') (fun _ s' => Tracked s') s := by
  simp only [controlMemory, wp_bind, wp_get]
  cases s.limit with
  | none => exact h
  | some L =>
    simp only [memoryUsage, wp_bind, wp_get]
    refine wp_mono ?_ (fun _ _ h => h) (wp_tracked_usage r _ h)
    intro us s' hs
    simp only [wp_ite]
    refine ⟨fun _ => ?_, fun _ => hs⟩
    simp only [wp_bind]
    refine wp_mono ?_ (fun _ _ h => h) (wp_tracked_log r' hs)
    intro _ s'' hs
    simp only [wp_modify]
    cases maxUsage us with
    | none => exact hs
    | some x => exact wp_tracked_restart x.1 o hs

theorem tracked_poll {s : Evaluator Fn V E} (h : Tracked s) : Tracked (pollOutput s).2 := by
  rw [pollOutput_run]
  cases s.output with
  | nil => exact h
  | cons f rest =>
    dsimp only
    cases dget s.futures f.id with
    | none => exact h
    | some m => exact h

theorem tracked_iteration (r₁ r₂ r₃ : Readings) (o : StopOutcome) {s : Evaluator Fn V E}
    (h : Tracked s) : Tracked (waitIteration r₁ r₂ r₃ o s).2 := by
  have hw : wp (waitIteration r₁ r₂ r₃ o) (fun _ s' => Tracked s') (fun _ s' => Tracked s') s := by
    simp only [waitIteration, wp_bind]
    refine wp_mono ?_ (fun _ _ h => h) (wp_tracked_control r₁ r₂ o h)
    intro _ s1 h1
    refine wp_mono ?_ (fun _ _ h => h) (wp_tracked_log r₃ h1)
    intro _ s2 h2
    have := tracked_poll h2
    unfold wp
    cases hp : pollOutput s2 with
    | mk r s3 =>
      rw [hp] at this
      cases r <;> exact this
  unfold wp at hw
  cases hp : waitIteration r₁ r₂ r₃ o s with
  | mk r s3 =>
    rw [hp] at hw
    cases r <;> exact hw

theorem tracked_worker {J : Jobs Fn V E Ω} {s : Evaluator Fn V E} (pid : Nat) (a : WorkerAct Ω)
    (h : Tracked s) : Tracked (workerStep J pid a s) := by
  unfold workerStep
  cases hw : s.workers[pid]? with
  | none => exact h
  | some w =>
    dsimp only
    split
    · rename_i ha
      have hmem := h.2 pid w hw ha
      have hset : ∀ (x : Worker Fn V E) (q : Nat) (y : Worker Fn V E),
          (s.workers.set pid x)[q]? = some y → y.alive = true → q ∈ s.procs := by
        intro x q y hy hya
        by_cases e : q = pid
        · rw [e]; exact hmem
        · rw [List.getElem?_set_ne (fun h => e h.symm)] at hy
          exact h.2 q y hy hya
      cases a with
      | die => exact ⟨h.1, hset _⟩
      | stop =>
        dsimp only
        split
        · exact ⟨h.1, hset _⟩
        · exact h
      | take =>
        dsimp only
        split
        · exact h
        · cases s.input with
          | nil => exact h
          | cons f rest => exact ⟨h.1, hset _⟩
      | takeFails =>
        dsimp only
        split
        · exact h
        · cases s.input with
          | nil => exact h
          | cons f rest =>
            dsimp only
            cases w.cur with
            | none => exact ⟨h.1, hset _⟩
            | some g => exact ⟨h.1, hset _⟩
      | finish ω =>
        dsimp only
        split
        · cases w.cur with
          | none => exact h
          | some f =>
            dsimp only
            cases (execute J f s.defaults ω).bind (inspectResult J) with
            | none => exact ⟨h.1, hset _⟩
            | some f' => exact ⟨h.1, hset _⟩
        · exact h
    · exact h

theorem tracked_step {J : Jobs Fn V E Ω} {s : Evaluator Fn V E} (h : Tracked s)
    (e : AsyncEvent Fn V Ω) : Tracked (asyncStep J s e).2 :=
  step_cases (P := fun _ s' => Tracked s') J s e h
    (fun fn args kwargs _ _ => by rw [submit_run]; exact h) (fun _ _ _ => h) (fun _ _ _ => h)
    (fun r₁ r₂ r₃ o b _ _ => tracked_iteration r₁ r₂ r₃ o h)
    (fun pid a _ => tracked_worker pid a h)

theorem tracked_run {J : Jobs Fn V E Ω} (es : List (AsyncEvent Fn V Ω)) :
    ∀ {s : Evaluator Fn V E}, Tracked s → Tracked (asyncRun J es s).2 := by
  induction es with
  | nil => intro s h; exact h
  | cons e es ih => intro s h; exact ih (tracked_step h e)

theorem tracked_entered (n : Nat) (limit : Option ℚ) (logfile : Bool) (D : List (Str × V)) :
    Tracked (entered n limit logfile D : Evaluator Fn V E) := by
  obtain ⟨ws, ps, -, h2, h3, he⟩ := entered_run (Fn := Fn) (E := E) n limit logfile D
  rw [he]
  refine ⟨rfl, fun pid w hw _ => ?_⟩
  have hw : ws[pid]? = some w := hw
  show pid ∈ ps
  rw [h3, List.mem_range]
  by_contra hn
  rw [List.getElem?_eq_none (by omega)] at hw
  cases hw

theorem exitLoop_spec (o : Nat → StopOutcome) (ho : ∀ p, o p ≠ .timeout) : ∀ (n : Nat)
    {s : Evaluator Fn V E}, Tracked s → s.procs.length = n →
    (exitLoop o n s).1 = .ok () ∧ Tracked (exitLoop o n s).2 ∧ (exitLoop o n s).2.procs = [] := by
  intro n
  induction n with
  | zero =>
    intro s h hl
    unfold exitLoop
    rw [if_pos hl]
    exact ⟨rfl, h, List.eq_nil_of_length_eq_zero hl⟩
  | succ n ih =>
    intro s h hl
    cases hp : s.procs with
    | nil => rw [hp] at hl; cases hl
    | cons p ps =>
      have her : (p :: ps).erase p = ps := List.erase_cons_head _ _
      have hlen : ps.length = n := by rw [hp] at hl; simpa using hl
      unfold exitLoop
      rw [hp]
      dsimp only
      cases hop : o p with
      | timeout => exact absurd hop (ho p)
      | ok =>
        have hst : stopWorker p .ok s = (.ok (), { s with
            workers := kill s p, jobQueueSize := s.jobQueueSize - 1, procs := ps }) := by
          have hm : p ∈ s.procs := by rw [hp]; exact List.mem_cons_self
          unfold stopWorker removeProc
          dsimp only
          rw [bind_ok modify_run, bind_ok get_run]
          dsimp only
          rw [if_pos hm, modify_run, hp, her]
        rw [hst]
        refine ih ?_ hlen
        refine tracked_killed h p ps (fun q hq hn => ?_) _
        rw [hp] at hq
        exact (List.mem_cons.1 hq).resolve_left hn
      | gone =>
        have hst : stopWorker p .gone s = (.error .noSuchProcess, { s with workers := kill s p }) := rfl
        rw [hst]
        dsimp only
        rw [hp, her]
        refine ih ?_ hlen
        refine tracked_killed h p ps (fun q hq hn => ?_) _
        rw [hp] at hq
        exact (List.mem_cons.1 hq).resolve_left hn

/-- **C80.** An evaluator can be entered once: whatever was done with it since, entering it again
raises a `RuntimeError` and starts nothing, also after leaving it. -/
theorem C80_enter_once (J : Jobs Fn V E Ω) (n : Nat) (limit : Option ℚ) (logfile : Bool)
    (D : List (Str × V)) (es : List (AsyncEvent Fn V Ω)) (o : Nat → StopOutcome)
    (ho : ∀ p, o p ≠ .timeout) :
    let s := (asyncRun J es (entered n limit logfile D : Evaluator Fn V E)).2
    enter s = (.error .runtimeError, s) ∧
      enter (exit o s).2 = (.error .runtimeError, (exit o s).2) := by
  intro s
  have h : Tracked s := tracked_run es (tracked_entered n limit logfile D)
  have he := exitLoop_spec o ho _ (s := { s with
    input := [], output := [], commands := 0, jobQueueSize := -(s.nJobs : Int) }) h rfl
  have key : ∀ t : Evaluator Fn V E, t.hasEntered = true → enter t = (.error .runtimeError, t) := by
    intro t ht
    unfold enter
    rw [bind_ok get_run]
    rw [if_pos ht]
    rfl
  exact ⟨key s h.1, key _ he.2.1.1⟩

/-- **C80.** Leaving the evaluator leaves no worker process, provided none of them survives its
termination. -/
theorem C80_leaves_no_process (J : Jobs Fn V E Ω) (n : Nat) (limit : Option ℚ) (logfile : Bool)
    (D : List (Str × V)) (es : List (AsyncEvent Fn V Ω)) (o : Nat → StopOutcome)
    (ho : ∀ p, o p ≠ .timeout) :
    let s := (asyncRun J es (entered n limit logfile D : Evaluator Fn V E)).2
    (exit o s).1 = .ok () ∧ ∀ w ∈ (exit o s).2.workers, w.alive = false := by
  intro s
  have h : Tracked s := tracked_run es (tracked_entered n limit logfile D)
  have he := exitLoop_spec o ho _ (s := { s with
    input := [], output := [], commands := 0, jobQueueSize := -(s.nJobs : Int) }) h rfl
  refine ⟨he.1, fun w hw => ?_⟩
  obtain ⟨pid, hpid⟩ := List.getElem?_of_mem hw
  cases ha : w.alive with
  | false => rfl
  | true =>
    have := he.2.1.2 pid w hpid ha
    rw [he.2.2] at this
    simp at this

example : (exit (fun _ => .ok) (asyncRun Ex.jobs Ex.crossed (Ex.pool 2 none)).2).2.workers.length = 2 ∧
    ((asyncRun Ex.jobs Ex.crossed (Ex.pool 2 none)).2.workers.all fun w => w.alive) = true := by
  decide +kernel

/-! ### Cases of the theorems above -/

/-- `C31_reported_partial`: the job that raises, on its worker. -/
example : ∃ f', FailureReported (asyncRun Ex.jobs Ex.raising (Ex.pool 1 none)).2
      (workerStep Ex.jobs 0 (.finish ()) (asyncRun Ex.jobs Ex.raising (Ex.pool 1 none)).2) 0
      ⟨0, 1, [3], [], none, none⟩ f' ∧ f'.exception = some (.raised 5) :=
  C31_reported_partial Ex.jobs 1 none false [] Ex.raising 0 ⟨some ⟨0, 1, [3], [], none, none⟩, true, true⟩
    ⟨0, 1, [3], [], none, none⟩ () 5 _ rfl rfl rfl rfl rfl fun _ _ => rfl

/-- `C31_continues_partial`: then it takes the second job. -/
example : (workerStep Ex.jobs 0 .take
      (workerStep Ex.jobs 0 (.finish ()) (asyncRun Ex.jobs Ex.raising (Ex.pool 1 none)).2)).workers[0]? =
    some ⟨some ⟨1, 0, [4], [], none, none⟩, true, true⟩ :=
  (C31_continues_partial Ex.jobs _ 0 ⟨some ⟨0, 1, [3], [], none, some (.raised 5)⟩, false, true⟩
    ⟨1, 0, [4], [], none, none⟩ [] rfl rfl rfl rfl).1

/-- `C31_returned_exception_partial`: and the first one is returned with its exception. -/
example : (⟨0, 1, [3], [], none, some (.raised 5)⟩ : Future Nat Nat Nat).exception = some (.raised 5) :=
  (C31_returned_exception_partial Ex.jobs 1 none false []
    (Ex.raising ++ [.worker 0 (.finish ()), .wait, Ex.poll]) ⟨0, 1, [3], [], none, some (.raised 5)⟩ 5 (by
      have : (asyncRun Ex.jobs (Ex.raising ++ [.worker 0 (.finish ()), .wait, Ex.poll]) (Ex.pool 1 none)).1[5]? =
        some (.returned ⟨0, 1, [3], [], none, some (.raised 5)⟩) := rfl
      exact List.mem_of_getElem? this) fun _ _ => rfl).2

/-- `C33_disjoint_partial`: one argument given, one default. -/
example : ReportsWith Ex.kwJobs (givenFirst [(['x'], 1)] [(['y'], 2)])
    ⟨0, 0, [], [(['x'], 1)], some 1, none⟩ ⟨0, 0, [], [(['x'], 1)], some 1, none⟩ :=
  C33_disjoint_partial Ex.kwJobs 1 none false [(['y'], 2)] Ex.kwRun ⟨0, 0, [], [(['x'], 1)], some 1, none⟩
    (by unfold DictOK; decide) (by unfold DictOK; decide) (by decide) (by
      have : (asyncRun Ex.kwJobs Ex.kwRun (entered 1 none false [(['y'], 2)])).1[4]? =
        some (.returned (⟨0, 0, [], [(['x'], 1)], some 1, none⟩ : Future Nat Nat Nat)) := rfl
      exact List.mem_of_getElem? this)

/-- `C80_enter_once`, `C80_leaves_no_process` after two jobs on two workers. -/
example : enter (exit (fun _ => .ok) (asyncRun Ex.jobs Ex.crossed (Ex.pool 2 none)).2).2 =
      (.error .runtimeError, (exit (fun _ => .ok) (asyncRun Ex.jobs Ex.crossed (Ex.pool 2 none)).2).2) ∧
    ∀ w ∈ (exit (fun _ => .ok) (asyncRun Ex.jobs Ex.crossed (Ex.pool 2 none)).2).2.workers, w.alive = false :=
  ⟨(C80_enter_once Ex.jobs 2 none false [] Ex.crossed (fun _ => .ok) (by simp)).2,
    (C80_leaves_no_process Ex.jobs 2 none false [] Ex.crossed (fun _ => .ok) (by simp)).2⟩

end
end Gama
