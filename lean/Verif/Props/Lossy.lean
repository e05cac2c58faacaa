import Verif.Props.Progress

/-! # Searches whose workers may be lost: C132 -/

namespace Gama
open PyM Spec

section
variable {S I A J σ Fn V E Ω : Type}

/-- The main process polls again and again, and if some worker can get on then one does, or none can any
more (as those that could are no longer running). -/
structure Spec.FairAny (C : Client S I A J σ) (K : Coding Fn V J) (Jb : Jobs Fn V E Ω)
    (es : Nat → JointEvent A σ Ω) (s : Joint S Fn V E) : Prop where
  polls : ∀ k, ∃ m, k ≤ m ∧ ∃ r₁ r₂ r₃ o cb, es m = .iterate r₁ r₂ r₃ o cb
  workers : ∀ k, ∃ m, k ≤ m ∧
    ((∃ pid act, es m = .worker pid act ∧ GetsOn Jb (jointAt C K Jb es s m).ev pid act) ∨
      ¬ ∃ pid act, GetsOn Jb (jointAt C K Jb es s m).ev pid act)

/-! ### The number of busy workers -/

def busyAre (c : Nat) (ev : Evaluator Fn V E) : Prop := ev.workers.countP (fun w => w.busy) = c

theorem busyAre_kill {c : Nat} {ev : Evaluator Fn V E} (h : busyAre c ev) (pid : Nat) :
    (kill ev pid).countP (fun w => w.busy) = c := by
  unfold kill
  cases hp : ev.workers[pid]? with
  | none => exact h
  | some x =>
    have := countP_set_busy ev.workers pid x { x with alive := false } hp
    dsimp only at this ⊢
    unfold busyAre at h
    omega

theorem busyAre_new {c : Nat} {l : List (Worker Fn V E)} (h : l.countP (fun w => w.busy) = c) :
    (l ++ [(⟨none, false, true⟩ : Worker Fn V E)]).countP (fun w => w.busy) = c := by
  rw [List.countP_append, h]; rfl

theorem wp_busy_stop {c : Nat} (pid : Nat) (o : StopOutcome) (s : Evaluator Fn V E) (h : busyAre c s) :
    wp (stopWorker pid o) (fun _ s' => busyAre c s') (fun _ s' => busyAre c s') s := by
  cases o with
  | ok =>
    simp only [stopWorker, removeProc, wp_bind, wp_modify, wp_get, wp_ite]
    exact ⟨fun _ => busyAre_kill h pid, fun _ => busyAre_kill h pid⟩
  | gone => exact busyAre_kill h pid
  | timeout => exact h

theorem wp_busy_usage {c : Nat} (r : Readings) : ∀ (ps : List Nat) (s : Evaluator Fn V E), busyAre c s →
    wp (usageLoop r ps) (fun _ s' => busyAre c s') (fun _ s' => busyAre c s') s := by
  intro ps
  induction ps with
  | nil => intro s h; exact wp_pure.2 h
  | cons p ps ih =>
    intro s h
    unfold usageLoop
    cases r.worker p with
    | some mb =>
      simp only [wp_bind]
      exact wp_mono (fun _ s' h => wp_pure.2 h) (fun _ _ h => h) (ih s h)
    | none =>
      simp only [wp_bind, wp_modify, startWorker]
      exact ih _ (busyAre_new (busyAre_kill h p))

theorem wp_busy_log {c : Nat} (r : Readings) (s : Evaluator Fn V E) (h : busyAre c s) :
    wp (logUsage r) (fun _ s' => busyAre c s') (fun _ s' => busyAre c s') s := by
  simp only [logUsage, wp_bind, wp_get, memoryUsage, wp_ite]
  refine ⟨fun _ => ?_, fun _ => wp_pure.2 h⟩
  exact wp_mono (fun _ _ h => wp_pure.2 h) (fun _ _ h => h) (wp_busy_usage r _ s h)

theorem wp_busy_control {c : Nat} (r r' : Readings) (o : StopOutcome) (s : Evaluator Fn V E) (h : busyAre c s) :
    wp (controlMemory r r' o) (fun _ s' => busyAre c s') (fun _ s' => busyAre c s') s := by
  simp only [controlMemory, wp_bind, wp_get]
  cases s.limit with
  | none => exact h
  | some limit =>
    simp only [wp_bind, memoryUsage, wp_get]
    refine wp_mono ?_ (fun _ _ h => h) (wp_busy_usage r _ s h)
    intro usage s1 h1
    rw [wp_ite]
    refine ⟨fun _ => ?_, fun _ => h1⟩
    simp only [wp_bind]
    refine wp_mono ?_ (fun _ _ h => h) (wp_busy_log r' s1 h1)
    intro _ s2 h2
    simp only [wp_modify]
    cases maxUsage usage with
    | none => exact h2
    | some x =>
      simp only [restartOrKill, wp_bind, wp_get, wp_ite, wp_modify]
      refine ⟨fun _ => ?_, fun _ => ?_⟩
      · refine wp_mono ?_ (fun _ _ h => h) (wp_busy_stop x.1 o _ ?_)
        · intro _ s3 h3
          exact busyAre_new h3
        · exact h2
      · exact wp_busy_stop x.1 o _ h2

/-- A poll: memory is controlled, which may raise; or the output queue is read, with the same jobs as
before. -/
theorem waitIteration_todo (r₁ r₂ r₃ : Readings) (o : StopOutcome) (s : Evaluator Fn V E) :
    (∃ s1, s1.output = s.output ∧ s1.waiting = s.waiting ∧ todo s1 = todo s ∧
      waitIteration r₁ r₂ r₃ o s = pollOutput s1) ∨
    ∃ e s1, waitIteration r₁ r₂ r₃ o s = (.error e, s1) := by
  unfold waitIteration
  have c1 := wp_and (wp_busy_control r₁ r₂ o s (c := _) rfl) (wp_frame_control r₁ r₂ o s)
  cases hc : controlMemory r₁ r₂ o s with
  | mk r s1 =>
    cases r with
    | error e =>
      rw [bind_error hc]
      exact Or.inr ⟨e, s1, rfl⟩
    | ok u =>
      obtain ⟨a, f⟩ := wp_ok c1 hc
      rw [bind_ok hc]
      have c2 := wp_and (wp_busy_log r₃ s1 a) (wp_frame_log r₃ s1)
      cases hl : logUsage r₃ s1 with
      | mk r s2 =>
        cases r with
        | error e =>
          rw [bind_error hl]
          exact Or.inr ⟨e, s2, rfl⟩
        | ok u2 =>
          obtain ⟨a', f'⟩ := wp_ok c2 hl
          rw [bind_ok hl]
          refine Or.inl ⟨s2, f'.output.trans f.output, f'.waiting.trans f.waiting, ?_, rfl⟩
          unfold busyAre at a'
          unfold todo
          rw [f'.input, f.input, a']

/-! ### Workers -/

/-- A worker gets on and less is left to do, or it does not get on and there is no more to do; the output
queue only grows. -/
theorem todo_worker_any {Jb : Jobs Fn V E Ω} (hJ : Reliable Jb) {D : List (Str × V)}
    {tr : List (AsyncObs Fn V E)} {ev : Evaluator Fn V E} (hg : Good Jb D tr ev)
    (pid : Nat) (act : WorkerAct Ω) :
    todo (workerStep Jb pid act ev) ≤ todo ev ∧
    (GetsOn Jb ev pid act → todo (workerStep Jb pid act ev) < todo ev) ∧
    (ev.output ≠ [] → (workerStep Jb pid act ev).output ≠ []) := by
  unfold GetsOn
  unfold workerStep
  cases hw : ev.workers[pid]? with
  | none => exact ⟨le_refl _, fun h => absurd rfl h.2, id⟩
  | some w =>
    dsimp only
    have hm := List.mem_of_getElem? hw
    have hset := fun w' => countP_set_busy ev.workers pid w w' hw
    by_cases ha : w.alive = true
    · simp only [if_pos ha]
      cases act with
      | die =>
        dsimp only
        refine ⟨?_, (fun h => by rcases h.1 with h | ⟨_, h⟩ <;> cases h), id⟩
        have := hset { w with alive := false }
        unfold todo
        dsimp only at this ⊢
        omega
      | stop =>
        dsimp only
        refine ⟨?_, (fun h => by rcases h.1 with h | ⟨_, h⟩ <;> cases h), ?_⟩
        · split
          · have := hset { w with alive := false }
            unfold todo
            dsimp only at this ⊢
            omega
          · exact le_refl _
        · split
          · exact id
          · exact id
      | take =>
        dsimp only
        cases hb : w.busy with
        | true => exact ⟨le_refl _, fun h => absurd rfl h.2, id⟩
        | false =>
          rw [if_neg (by simp)]
          cases hi : ev.input with
          | nil => exact ⟨le_refl _, fun h => absurd rfl h.2, id⟩
          | cons f rest =>
            have := hset ⟨some f, true, true⟩
            rw [hb] at this
            simp at this
            have hlt : todo { ev with input := rest, workers := ev.workers.set pid ⟨some f, true, true⟩ } <
                todo ev := by
              unfold todo
              rw [hi]
              simp only [List.length_cons]
              omega
            exact ⟨le_of_lt hlt, fun _ => hlt, id⟩
      | takeFails =>
        dsimp only
        refine ⟨?_, (fun h => by rcases h.1 with h | ⟨_, h⟩ <;> cases h), ?_⟩
        · cases hb : w.busy with
          | true => exact le_refl _
          | false =>
            rw [if_neg (by simp)]
            cases hi : ev.input with
            | nil => exact le_refl _
            | cons f rest =>
              dsimp only
              cases hcur : w.cur with
              | none =>
                have := hset { w with alive := false }
                unfold todo
                rw [hi]
                rw [hcur, hb] at this
                simp at this ⊢
                omega
              | some g =>
                have := hset ⟨some { g with result := none, exception := some .memory }, false, true⟩
                unfold todo
                rw [hi]
                rw [hb] at this
                simp at this ⊢
                omega
        · cases hb : w.busy with
          | true => exact id
          | false =>
            rw [if_neg (by simp)]
            cases hi : ev.input with
            | nil => exact id
            | cons f rest =>
              dsimp only
              cases hcur : w.cur with
              | none => exact id
              | some g => intro _; simp
      | finish ω =>
        dsimp only
        cases hb : w.busy with
        | false => rw [if_neg (by simp)]; exact ⟨le_refl _, fun h => absurd rfl h.2, id⟩
        | true =>
          rw [if_pos rfl]
          obtain ⟨f, hcur, hf⟩ := hg.busy w hm hb
          obtain ⟨f', hf'⟩ := reliable_some hJ (hg.blank f hf).1 ev.defaults ω
          rw [hcur]
          dsimp only
          rw [hf']
          dsimp only
          have := hset ⟨some f', false, true⟩
          rw [hb] at this
          simp at this
          have hlt : todo { ev with output := ev.output ++ [f'], workers := ev.workers.set pid ⟨some f', false, true⟩ } <
              todo ev := by
            unfold todo
            dsimp only
            omega
          exact ⟨le_of_lt hlt, fun _ => hlt, fun _ => by simp⟩
    · simp only [if_neg ha]
      exact ⟨le_refl _, fun h => absurd rfl h.2, id⟩

/-- If no worker can get on, no running worker has a job, and there is no job to take or no running worker. -/
theorem no_one_gets_on {Jb : Jobs Fn V E Ω} (hJ : Reliable Jb) [Nonempty Ω] {D : List (Str × V)}
    {tr : List (AsyncObs Fn V E)} {ev : Evaluator Fn V E} (hg : Good Jb D tr ev)
    (hn : ¬ ∃ pid act, GetsOn Jb ev pid act) :
    (∀ w ∈ ev.workers, w.alive = true → w.busy = false) ∧
    (ev.input = [] ∨ ∀ w ∈ ev.workers, w.alive = false) := by
  obtain ⟨ω⟩ := ‹Nonempty Ω›
  have hq : ∀ w ∈ ev.workers, w.alive = true → w.busy = false := by
    intro w hm ha
    cases hb : w.busy with
    | false => rfl
    | true =>
      exfalso
      obtain ⟨pid, hw⟩ := List.getElem?_of_mem hm
      refine hn ⟨pid, .finish ω, Or.inr ⟨ω, rfl⟩, fun he => ?_⟩
      obtain ⟨f, hcur, hf⟩ := hg.busy w hm hb
      obtain ⟨f', hf'⟩ := reliable_some hJ (hg.blank f hf).1 ev.defaults ω
      have : (workerStep Jb pid (.finish ω) ev).output = ev.output ++ [f'] := by
        unfold workerStep
        rw [hw]
        dsimp only
        rw [if_pos ha, if_pos hb, hcur]
        dsimp only
        rw [hf']
      rw [he] at this
      have := congrArg List.length this
      simp at this
  refine ⟨hq, ?_⟩
  cases hi : ev.input with
  | nil => exact Or.inl rfl
  | cons f rest =>
    right
    intro w hm
    cases ha : w.alive with
    | false => rfl
    | true =>
      exfalso
      obtain ⟨pid, hw⟩ := List.getElem?_of_mem hm
      refine hn ⟨pid, .take, Or.inl rfl, fun he => ?_⟩
      have : (workerStep Jb pid (.take : WorkerAct Ω) ev).input = rest := by
        unfold workerStep
        rw [hw]
        dsimp only
        rw [if_pos ha, if_neg (by rw [hq w hm ha]; simp), hi]
      rw [he, hi] at this
      have := congrArg List.length this
      simp at this

/-! ### Waiting -/

/-- How the wait of a search ends, or what keeps it from ending. -/
inductive Spec.WaitEnds (C : Client S I A J σ) (told : List (J × Completion)) (s : Joint S Fn V E) : Prop
  /-- the search is told the outcome of an evaluation -/
  | told (x : J × Completion) (h : C.history s.search = told ++ [x])
  /-- waiting raised an exception, and the search has ended -/
  | raised (h : C.Stuck s.search)
  /-- everything that is waited for is lost -/
  | lost (hw : s.ev.waiting = true) (h : AllLost s.ev)
  /-- no worker is running, and there are jobs to be done -/
  | deserted (hw : s.ev.waiting = true) (hi : s.ev.input ≠ []) (h : ∀ w ∈ s.ev.workers, w.alive = false)

structure WaitsAny (C : Client S I A J σ) (K : Coding Fn V J) (Jb : Jobs Fn V E Ω) (D : List (Str × V))
    (start : S) (told : List (J × Completion)) (s : Joint S Fn V E) : Prop where
  ok : JointOK C K Jb D (fun _ _ _ => True) start s
  waiting : s.ev.waiting = true
  told : C.history s.search = told

theorem wait_step_any {C : Client S I A J σ} (hC : C.Lawful) {K : Coding Fn V J} {Jb : Jobs Fn V E Ω}
    (hK : Faithful K Jb) (hJ : Reliable Jb) {D : List (Str × V)} {start : S}
    {told : List (J × Completion)} (e : JointEvent A σ Ω) (s : Joint S Fn V E)
    (h : WaitsAny C K Jb D start told s) :
    WaitEnds C told (jointStep C K Jb e s) ∨
    (WaitsAny C K Jb D start told (jointStep C K Jb e s) ∧
      todo (jointStep C K Jb e s).ev ≤ todo s.ev ∧
      (s.ev.output ≠ [] → (jointStep C K Jb e s).ev.output ≠ []) ∧
      (∀ pid act, e = .worker pid act → GetsOn Jb s.ev pid act →
        todo (jointStep C K Jb e s).ev < todo s.ev) ∧
      (∀ r₁ r₂ r₃ o cb, e = .iterate r₁ r₂ r₃ o cb → s.ev.output = [])) := by
  have hnext := jointOK_step hC hK e s h.ok (fun _ _ => trivial)
  have hwaits := h.ok.waiting h.waiting
  obtain ⟨tr, hg⟩ := h.ok.good
  cases e with
  | go a =>
    right
    have : jointStep C K Jb (.go a) s = s := by unfold jointStep; dsimp only; rw [if_pos hwaits]
    rw [this]
    exact ⟨h, le_refl _, id, (fun _ _ h => by cases h), (fun _ _ _ _ _ h => by cases h)⟩
  | wait =>
    right
    have : jointStep C K Jb .wait s = s := by
      unfold jointStep
      dsimp only
      rw [if_pos hwaits]
      simp only [asyncStep, h.waiting, if_true]
    rw [this]
    exact ⟨h, le_refl _, id, (fun _ _ h => by cases h), (fun _ _ _ _ _ h => by cases h)⟩
  | worker pid act =>
    right
    obtain ⟨w1, -, -, -, -, -, w7, -⟩ := workerStep_frame (J := Jb) (s := s.ev) pid act
    obtain ⟨k1, k2, k3⟩ := todo_worker_any hJ hg pid act
    refine ⟨⟨hnext, w7.trans h.waiting, h.told⟩, k1, k3, ?_, fun _ _ _ _ _ h => by cases h⟩
    intro pid' act' he hon
    cases he
    exact k2 hon
  | iterate r₁ r₂ r₃ o cb =>
    have hstep : jointStep C K Jb (.iterate r₁ r₂ r₃ o cb) s =
        match asyncStep Jb s.ev (.iterate r₁ r₂ r₃ o : AsyncEvent Fn V Ω) with
        | (.returned f, ev) => ⟨deliver C K cb f s.search, ev⟩
        | (.raised e, ev) => ⟨C.step (C.waited (.raises e)) s.search, ev⟩
        | (_, ev) => ⟨s.search, ev⟩ := by
      unfold jointStep
      dsimp only
      cases asyncStep Jb s.ev (.iterate r₁ r₂ r₃ o : AsyncEvent Fn V Ω) with
      | mk ob ev => cases ob <;> rfl
    have hasync : asyncStep Jb s.ev (.iterate r₁ r₂ r₃ o : AsyncEvent Fn V Ω) =
        match waitIteration r₁ r₂ r₃ o s.ev with
        | (.ok none, t) => (.nothing, t)
        | (.ok (some f), t) => (.returned f, { t with waiting := false })
        | (.error e, t) => (.raised e, { t with waiting := false }) := by
      simp only [asyncStep, h.waiting, if_true]
      cases waitIteration r₁ r₂ r₃ o s.ev with
      | mk r t => cases r with
        | error e => rfl
        | ok x => cases x <;> rfl
    rcases waitIteration_todo r₁ r₂ r₃ o s.ev with ⟨s1, h1, h2, h3, h4⟩ | ⟨e, s1, h4⟩
    · rw [pollOutput_run] at h4
      cases ho : s1.output with
      | nil =>
        right
        rw [ho] at h4
        rw [h4] at hasync
        rw [hasync] at hstep
        have hev : (jointStep C K Jb (.iterate r₁ r₂ r₃ o cb) s).ev = s1 := by rw [hstep]
        refine ⟨⟨hnext, ?_, ?_⟩, ?_, ?_, (fun _ _ h => by cases h), fun _ _ _ _ _ _ => h1.symm.trans ho⟩
        · rw [hev]; exact h2.trans h.waiting
        · rw [hstep]; exact h.told
        · rw [hev]; exact le_of_eq h3
        · rw [hev]; intro hh; exact absurd (h1.symm.trans ho) hh
      | cons f rest =>
        left
        rw [ho] at h4
        dsimp only at h4
        cases hd : dget s1.futures f.id with
        | none =>
          rw [hd] at h4
          dsimp only at h4
          rw [h4] at hasync
          rw [hasync] at hstep
          refine .raised ?_
          rw [hstep]
          exact (hC.raises _ s.search [] hwaits).2.2.2
        | some m =>
          rw [hd] at h4
          dsimp only at h4
          rw [h4] at hasync
          rw [hasync] at hstep
          cases cb with
          | error e =>
            refine .raised ?_
            rw [hstep]
            exact (hC.raises _ s.search [] hwaits).2.2.2
          | ok w =>
            refine .told (jobOf K { m with result := f.result, exception := f.exception },
              completionOf K { m with result := f.result, exception := f.exception }) ?_
            rw [hstep]
            show C.history (deliver C K (.ok w) _ s.search) = _
            unfold deliver
            dsimp only
            rw [(hC.completes _ w s.search [] _ [] hwaits).2.2, h.told]
    · left
      rw [h4] at hasync
      rw [hasync] at hstep
      refine .raised ?_
      rw [hstep]
      exact (hC.raises _ s.search [] hwaits).2.2.2

/-- Between two moments the wait ended, or it goes on. -/
theorem wait_steps_any {C : Client S I A J σ} (hC : C.Lawful) {K : Coding Fn V J} {Jb : Jobs Fn V E Ω}
    (hK : Faithful K Jb) (hJ : Reliable Jb) {D : List (Str × V)} {start : S}
    {told : List (J × Completion)} {es : Nat → JointEvent A σ Ω} {s : Joint S Fn V E} (k : Nat)
    (h : WaitsAny C K Jb D start told (jointAt C K Jb es s k)) : ∀ d,
    (∃ m, WaitEnds C told (jointAt C K Jb es s m)) ∨
    (WaitsAny C K Jb D start told (jointAt C K Jb es s (k + d)) ∧
      todo (jointAt C K Jb es s (k + d)).ev ≤ todo (jointAt C K Jb es s k).ev ∧
      ((jointAt C K Jb es s k).ev.output ≠ [] → (jointAt C K Jb es s (k + d)).ev.output ≠ [])) := by
  intro d
  induction d with
  | zero => exact Or.inr ⟨h, le_refl _, id⟩
  | succ d ih =>
    rcases ih with ih | ⟨h1, h2, h3⟩
    · exact Or.inl ih
    · rcases wait_step_any hC hK hJ (es (k + d)) _ h1 with hx | ⟨g1, g2, g3, -, -⟩
      · exact Or.inl ⟨k + d + 1, hx⟩
      · exact Or.inr ⟨g1, g2.trans h2, fun hh => g3 (h3 hh)⟩

/-- **C132, whatever happens to the workers**: if evaluations end, a search that waits is told the outcome of
one, unless waiting raises an exception (and the search ends), everything it waits for is lost, or no worker
is running any more.  Workers may be stopped, die and fail to receive their jobs, also before. -/
theorem C132_otherwise {C : Client S I A J σ} (hC : C.Lawful) {K : Coding Fn V J}
    {Jb : Jobs Fn V E Ω} (hK : Faithful K Jb) (hJ : Reliable Jb) [Nonempty Ω] {start : S}
    (hs : C.setPending [] start = start) (n : Nat) (limit : Option ℚ) (logfile : Bool)
    (D : List (Str × V)) (before : List (JointEvent A σ Ω))
    (s : Joint S Fn V E) (hrun : s = jointRun C K Jb before (jointStart start n limit logfile D))
    (hw : s.ev.waiting = true) (es : Nat → JointEvent A σ Ω) (hf : FairAny C K Jb es s) :
    ∃ k, WaitEnds C (C.history s.search) (jointAt C K Jb es s k) := by
  have h0 : WaitsAny C K Jb D start (C.history s.search) (jointAt C K Jb es s 0) := by
    refine ⟨?_, hw, rfl⟩
    show JointOK C K Jb D _ start s
    rw [hrun]
    exact jointOK_run hC hK before _ (jointOK_start hs n limit logfile D)
      (jointAlong_true (fun _ _ _ _ => trivial) before _)
  have polled : ∀ k, WaitsAny C K Jb D start (C.history s.search) (jointAt C K Jb es s k) →
      (jointAt C K Jb es s k).ev.output ≠ [] →
      ∃ k, WaitEnds C (C.history s.search) (jointAt C K Jb es s k) := by
    intro k h ho
    obtain ⟨m, hm, r₁, r₂, r₃, o, cb, he⟩ := hf.polls k
    obtain ⟨d, rfl⟩ := Nat.exists_eq_add_of_le hm
    rcases wait_steps_any hC hK hJ k h d with hh | ⟨h1, -, h3⟩
    · exact hh
    · rcases wait_step_any hC hK hJ (es (k + d)) _ h1 with hx | ⟨-, -, -, -, g5⟩
      · exact ⟨k + d + 1, hx⟩
      · exact absurd (g5 _ _ _ _ _ he) (h3 ho)
  have main : ∀ (N k : Nat), WaitsAny C K Jb D start (C.history s.search) (jointAt C K Jb es s k) →
      todo (jointAt C K Jb es s k).ev ≤ N →
      ∃ k, WaitEnds C (C.history s.search) (jointAt C K Jb es s k) := by
    intro N
    induction N using Nat.strong_induction_on with
    | _ N ih =>
      intro k h hN
      obtain ⟨m, hm, hon⟩ := hf.workers k
      obtain ⟨d, rfl⟩ := Nat.exists_eq_add_of_le hm
      rcases wait_steps_any hC hK hJ k h d with hh | ⟨h1, h2, -⟩
      · exact hh
      · rcases hon with ⟨pid, act, he, hon⟩ | hno
        · rcases wait_step_any hC hK hJ (es (k + d)) _ h1 with hx | ⟨g1, -, -, g4, -⟩
          · exact ⟨k + d + 1, hx⟩
          · have := g4 pid act he hon
            exact ih (todo (jointAt C K Jb es s (k + d + 1)).ev)
              (lt_of_lt_of_le this (h2.trans hN)) (k + d + 1) g1 (le_refl _)
        · by_cases ho : (jointAt C K Jb es s (k + d)).ev.output = []
          · obtain ⟨tr, hg⟩ := h1.ok.good
            obtain ⟨q1, q2⟩ := no_one_gets_on hJ hg hno
            refine ⟨k + d, ?_⟩
            by_cases hi : (jointAt C K Jb es s (k + d)).ev.input = []
            · exact .lost h1.waiting ⟨hi, ho, q1⟩
            · exact .deserted h1.waiting hi (q2.resolve_left hi)
          · exact polled (k + d) h1 ho
  exact main _ 0 h0 (le_refl _)

/-- A schedule in which a worker that can get on is followed by one that does. -/
theorem Spec.Fair.any {C : Client S I A J σ} {K : Coding Fn V J} {Jb : Jobs Fn V E Ω}
    {es : Nat → JointEvent A σ Ω} {s : Joint S Fn V E} (h : Fair C K Jb es s) : FairAny C K Jb es s := by
  refine ⟨h.polls, fun k => ?_⟩
  by_cases hk : ∃ pid act, GetsOn Jb (jointAt C K Jb es s k).ev pid act
  · obtain ⟨m, hm, h⟩ := h.workers k hk
    exact ⟨m, hm, Or.inl h⟩
  · exact ⟨k, le_refl _, Or.inr hk⟩

end

namespace Ex

/-- The only worker takes the only job and dies; the main process polls for ever. -/
def fatal (k : Nat) : JointEvent Unit Unit Unit :=
  if k = 0 then .worker 0 .take else if k = 1 then .worker 0 .die
  else .iterate calmReading calmReading calmReading .ok (.ok ())

theorem fatal_end (k : Nat) : jointAt (rsClient Ex.ops none) coding evaluations fatal oneJob (2 + k) =
    jointAt (rsClient Ex.ops none) coding evaluations fatal oneJob 2 := by
  induction k with
  | zero => rfl
  | succ k ih =>
    show jointStep _ _ _ (fatal (2 + k)) (jointAt _ _ _ _ _ (2 + k)) = _
    rw [ih]
    unfold fatal
    rw [if_neg (by omega), if_neg (by omega)]
    rfl

theorem fatal_fair : FairAny (rsClient Ex.ops none) coding evaluations fatal oneJob := by
  refine ⟨fun k => ⟨2 + k, by omega, calmReading, calmReading, calmReading, .ok, .ok (), ?_⟩,
    fun k => ⟨2 + k, by omega, Or.inr ?_⟩⟩
  · unfold fatal
    rw [if_neg (by omega), if_neg (by omega)]
  · rw [fatal_end]
    rintro ⟨pid, act, -, hne⟩
    apply hne
    cases pid with
    | zero => cases act <;> rfl
    | succ pid => rfl

end Ex

/-- The theorem with a worker that dies: what is waited for is then lost. -/
example : ∃ k, WaitEnds (rsClient Ex.ops none) []
    (jointAt (rsClient Ex.ops none) Ex.coding Ex.evaluations Ex.fatal Ex.oneJob k) :=
  C132_otherwise (rsClient_lawful Ex.ops none) Ex.coding_faithful Ex.evaluations_reliable
    (start := rsStart (.list [4]) [] ()) rfl 1 none false [] [.go (), .go (), .wait] Ex.oneJob rfl
    (by decide +kernel) Ex.fatal Ex.fatal_fair

/-- … and with a schedule in which it is told. -/
example : ∃ k, WaitEnds (rsClient Ex.ops none) []
    (jointAt (rsClient Ex.ops none) Ex.coding Ex.evaluations Ex.turns Ex.oneJob k) :=
  C132_otherwise (rsClient_lawful Ex.ops none) Ex.coding_faithful Ex.evaluations_reliable
    (start := rsStart (.list [4]) [] ()) rfl 1 none false [] [.go (), .go (), .wait] Ex.oneJob rfl
    (by decide +kernel) Ex.turns Ex.turns_fair.any

end Gama
