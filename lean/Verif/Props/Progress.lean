import Verif.Props.Joint

/-! # Searches on the evaluator go on: C132 -/

namespace Gama
open PyM Spec

section
variable {S I A J σ Fn V E Ω : Type}

/-! ### Schedules without end -/

/-- The state after `k` events of a schedule without end. -/
def Spec.jointAt (C : Client S I A J σ) (K : Coding Fn V J) (Jb : Jobs Fn V E Ω)
    (es : Nat → JointEvent A σ Ω) (s : Joint S Fn V E) : Nat → Joint S Fn V E
  | 0 => s
  | k + 1 => jointStep C K Jb (es k) (jointAt C K Jb es s k)

/-- No worker is stopped, dies or fails to receive a job, and callbacks do not raise. -/
def Spec.JointCalm (s : Joint S Fn V E) : JointEvent A σ Ω → Prop
  | .iterate r₁ r₂ r₃ o cb => Calm s.ev (.iterate r₁ r₂ r₃ o : AsyncEvent Fn V Ω) ∧ ∃ w, cb = .ok w
  | .worker pid act => Calm s.ev (.worker pid act)
  | _ => True

/-- A worker gets on: it takes a job or finishes the one it has. -/
def Spec.GetsOn (Jb : Jobs Fn V E Ω) (s : Evaluator Fn V E) (pid : Nat) (act : WorkerAct Ω) : Prop :=
  (act = .take ∨ ∃ ω, act = .finish ω) ∧ workerStep Jb pid act s ≠ s

/-- The main process polls again and again, and if some worker can get on then one does. -/
structure Spec.Fair (C : Client S I A J σ) (K : Coding Fn V J) (Jb : Jobs Fn V E Ω)
    (es : Nat → JointEvent A σ Ω) (s : Joint S Fn V E) : Prop where
  polls : ∀ k, ∃ m, k ≤ m ∧ ∃ r₁ r₂ r₃ o cb, es m = .iterate r₁ r₂ r₃ o cb
  workers : ∀ k, (∃ pid act, GetsOn Jb (jointAt C K Jb es s k).ev pid act) →
    ∃ m, k ≤ m ∧ ∃ pid act, es m = .worker pid act ∧ GetsOn Jb (jointAt C K Jb es s m).ev pid act

/-! ### Calm runs -/

/-- The evaluator of a calm run. -/
def Healthy (Jb : Jobs Fn V E Ω) (D : List (Str × V)) (n : Nat) (limit : Option ℚ)
    (ev : Evaluator Fn V E) : Prop :=
  ∃ tr, Good Jb D tr ev ∧ Live n limit tr ev

/-- What is waited for. -/
def Awaited (ev : Evaluator Fn V E) : Prop := ev.waiting = true → ev.futures.length ≠ 0

theorem healthy_async {Jb : Jobs Fn V E Ω} (hJ : Reliable Jb) {D : List (Str × V)} {n : Nat}
    {limit : Option ℚ} {ev : Evaluator Fn V E} (h : Healthy Jb D n limit ev) {e : AsyncEvent Fn V Ω}
    (hc : Calm ev e) : Healthy Jb D n limit (asyncStep Jb ev e).2 := by
  obtain ⟨tr, hg, hl⟩ := h
  exact ⟨_, hg.step e, live_step hJ tr ev e hg hl hc⟩

theorem awaited_async {Jb : Jobs Fn V E Ω} {D : List (Str × V)} {tr : List (AsyncObs Fn V E)}
    {ev : Evaluator Fn V E} (hg : Good Jb D tr ev) (h : Awaited ev) (e : AsyncEvent Fn V Ω) :
    Awaited (asyncStep Jb ev e).2 := by
  cases e with
  | submit fn args kwargs =>
    cases hw : ev.waiting with
    | true => simp only [asyncStep, hw, if_true]; exact h
    | false =>
      intro hh
      rw [(futures_of_submit hg hw fn args kwargs).2] at hh
      cases hh
  | wait =>
    cases hw : ev.waiting with
    | true => simp only [asyncStep, hw, if_true]; exact h
    | false =>
      have hb : ¬ (false = true) := by simp
      simp only [asyncStep, hw, if_neg hb, waitBegin_run]
      by_cases hl : ev.futures.length = 0
      · rw [if_pos hl]; exact h
      · rw [if_neg hl]; intro _; exact hl
  | iterate r₁ r₂ r₃ o =>
    rcases iterate_cases hg r₁ r₂ r₃ o with ⟨-, h2, h3⟩ | ⟨e, -, -, h3, -⟩ | ⟨f, m, pre, post, -, h3, -⟩
    · intro hh; rw [h2]; rw [h3] at hh; exact h hh
    · intro hh; rw [h3] at hh; cases hh
    · intro hh; rw [h3] at hh; cases hh
  | worker pid act =>
    obtain ⟨w1, -, -, -, -, -, w7, -⟩ := workerStep_frame (J := Jb) (s := ev) pid act
    intro hh
    show (workerStep Jb pid act ev).futures.length ≠ 0
    rw [w1]
    refine h ?_
    rw [← w7]; exact hh

theorem healthy_step {C : Client S I A J σ} {K : Coding Fn V J} {Jb : Jobs Fn V E Ω} (hJ : Reliable Jb)
    {D : List (Str × V)} {n : Nat} {limit : Option ℚ} (e : JointEvent A σ Ω) (s : Joint S Fn V E)
    (hc : JointCalm s e) (h : Healthy Jb D n limit s.ev) :
    Healthy Jb D n limit (jointStep C K Jb e s).ev := by
  have hall : ∀ (js : List J) (ev : Evaluator Fn V E), Healthy Jb D n limit ev →
      Healthy Jb D n limit (submitAll Jb K js ev) := by
    intro js
    induction js with
    | nil => intro ev h; exact h
    | cons j js ih =>
      intro ev h
      exact ih _ (healthy_async hJ h (e := .submit (K.fn j) (K.args j) (K.kwargs j)) trivial)
  cases e with
  | go a =>
    unfold jointStep
    dsimp only
    split
    · exact h
    · exact hall _ _ h
  | wait =>
    unfold jointStep
    dsimp only
    split
    · have := healthy_async hJ h (e := .wait) trivial
      cases hr : asyncStep Jb s.ev .wait with
      | mk ob ev => rw [hr] at this; cases ob <;> exact this
    · exact h
  | iterate r₁ r₂ r₃ o cb =>
    unfold jointStep
    dsimp only
    have := healthy_async hJ h (e := .iterate r₁ r₂ r₃ o) hc.1
    cases hr : asyncStep Jb s.ev (.iterate r₁ r₂ r₃ o) with
    | mk ob ev => rw [hr] at this; cases ob <;> exact this
  | worker pid act => exact healthy_async hJ h (e := .worker pid act) hc

/-- The invariant of a calm run. -/
structure CalmOK (C : Client S I A J σ) (K : Coding Fn V J) (Jb : Jobs Fn V E Ω) (D : List (Str × V))
    (n : Nat) (limit : Option ℚ) (start : S) (s : Joint S Fn V E) : Prop where
  ok : JointOK C K Jb D (fun _ _ _ => True) start s
  healthy : Healthy Jb D n limit s.ev
  awaited : Awaited s.ev

theorem calmOK_step {C : Client S I A J σ} (hC : C.Lawful) {K : Coding Fn V J} {Jb : Jobs Fn V E Ω}
    (hK : Faithful K Jb) (hJ : Reliable Jb) {D : List (Str × V)} {n : Nat} {limit : Option ℚ} {start : S}
    (e : JointEvent A σ Ω) (s : Joint S Fn V E) (hc : JointCalm s e)
    (h : CalmOK C K Jb D n limit start s) :
    CalmOK C K Jb D n limit start (jointStep C K Jb e s) :=
  ⟨jointOK_step hC hK e s h.ok (fun _ _ => trivial), healthy_step hJ e s hc h.healthy,
    evaluator_step (R := Awaited) (fun _ _ e hg h => awaited_async hg h e) e s h.ok.good h.awaited⟩

theorem calmOK_start {C : Client S I A J σ} {K : Coding Fn V J} {Jb : Jobs Fn V E Ω}
    {start : S} (hs : C.setPending [] start = start) (n : Nat) (limit : Option ℚ) (logfile : Bool)
    (D : List (Str × V)) :
    CalmOK C K Jb D n limit start (jointStart start n limit logfile D : Joint S Fn V E) := by
  refine ⟨jointOK_start hs n limit logfile D,
    ⟨[], good_entered Jb n limit logfile D, live_entered n limit logfile D⟩, fun hh => ?_⟩
  obtain ⟨ws, ps, -, -, -, he⟩ := entered_run (Fn := Fn) (E := E) n limit logfile D
  have hw : (entered n limit logfile D : Evaluator Fn V E).waiting = false := by rw [he]; rfl
  have hh : (entered n limit logfile D : Evaluator Fn V E).waiting = true := hh
  rw [hw] at hh; cases hh

theorem calmOK_run {C : Client S I A J σ} (hC : C.Lawful) {K : Coding Fn V J} {Jb : Jobs Fn V E Ω}
    (hK : Faithful K Jb) (hJ : Reliable Jb) {D : List (Str × V)} {n : Nat} {limit : Option ℚ} {start : S} :
    ∀ (es : List (JointEvent A σ Ω)) (s : Joint S Fn V E), CalmOK C K Jb D n limit start s →
      JointAlong C K Jb JointCalm es s → CalmOK C K Jb D n limit start (jointRun C K Jb es s) := by
  intro es
  induction es with
  | nil => intro s h _; exact h
  | cons e es ih => intro s h k; exact ih _ (calmOK_step hC hK hJ e s k.1 h) k.2

/-! ### What is left to do -/

/-- How often workers can get on before all is done. -/
def todo (ev : Evaluator Fn V E) : Nat := 2 * ev.input.length + ev.workers.countP (fun w => w.busy)

theorem countP_set_busy (l : List (Worker Fn V E)) (pid : Nat) (w w' : Worker Fn V E)
    (h : l[pid]? = some w) : (l.set pid w').countP (fun w => w.busy) + (if w.busy then 1 else 0) =
      l.countP (fun w => w.busy) + if w'.busy then 1 else 0 := by
  induction l generalizing pid with
  | nil => simp at h
  | cons x l ih =>
    cases pid with
    | zero =>
      simp only [List.getElem?_cons_zero, Option.some.injEq] at h
      subst h
      simp only [List.set_cons_zero, List.countP_cons]
      omega
    | succ pid =>
      simp only [List.getElem?_cons_succ] at h
      have := ih pid h
      simp only [List.set_cons_succ, List.countP_cons]
      omega

/-- A worker of a calm run gets on and less is left to do, or nothing happens. -/
theorem todo_worker {Jb : Jobs Fn V E Ω} (hJ : Reliable Jb) {D : List (Str × V)} {n : Nat}
    {limit : Option ℚ} {tr : List (AsyncObs Fn V E)} {ev : Evaluator Fn V E} (hg : Good Jb D tr ev)
    (h : Live n limit tr ev) (pid : Nat) (act : WorkerAct Ω) (hc : Calm ev (.worker pid act)) :
    workerStep Jb pid act ev = ev ∨
      (todo (workerStep Jb pid act ev) < todo ev ∧
        (ev.output ≠ [] → (workerStep Jb pid act ev).output ≠ [])) := by
  unfold workerStep
  cases hw : ev.workers[pid]? with
  | none => exact Or.inl rfl
  | some w =>
    dsimp only
    have hm := List.mem_of_getElem? hw
    rw [if_pos (h.alive w hm)]
    cases act with
    | takeFails => exact absurd hc id
    | die => exact absurd hc id
    | stop =>
      dsimp only
      rw [if_neg (by rw [h.commands]; omega)]
      exact Or.inl rfl
    | take =>
      dsimp only
      cases hb : w.busy with
      | true => exact Or.inl rfl
      | false =>
        rw [if_neg (by simp)]
        cases hi : ev.input with
        | nil => exact Or.inl rfl
        | cons f rest =>
          refine Or.inr ⟨?_, id⟩
          have := countP_set_busy ev.workers pid w ⟨some f, true, true⟩ hw
          rw [hb] at this
          simp only [if_true] at this
          unfold todo
          rw [hi]
          simp only [List.length_cons]
          simp at this
          omega
    | finish ω =>
      dsimp only
      cases hb : w.busy with
      | false => rw [if_neg (by simp)]; exact Or.inl rfl
      | true =>
        rw [if_pos rfl]
        obtain ⟨f, hcur, hf⟩ := hg.busy w hm hb
        obtain ⟨f', hf'⟩ := reliable_some hJ (hg.blank f hf).1 ev.defaults ω
        rw [hcur]
        dsimp only
        rw [hf']
        dsimp only
        refine Or.inr ⟨?_, by simp⟩
        have := countP_set_busy ev.workers pid w ⟨some f', false, true⟩ hw
        rw [hb] at this
        simp at this
        unfold todo
        dsimp only
        omega

/-- If something is awaited and nothing is in the output queue, some worker can get on. -/
theorem someone_gets_on {Jb : Jobs Fn V E Ω} (hJ : Reliable Jb) [Nonempty Ω] {D : List (Str × V)} {n : Nat}
    (hn : 1 ≤ n) {limit : Option ℚ} {tr : List (AsyncObs Fn V E)} {ev : Evaluator Fn V E}
    (hg : Good Jb D tr ev) (h : Live n limit tr ev) (hp : ev.futures.length ≠ 0) (ho : ev.output = []) :
    ∃ pid act, GetsOn Jb ev pid act := by
  obtain ⟨ω⟩ := ‹Nonempty Ω›
  by_cases hbusy : ∃ (pid : Nat) (w : Worker Fn V E), ev.workers[pid]? = some w ∧ w.busy = true
  · obtain ⟨pid, w, hw, hb⟩ := hbusy
    refine ⟨pid, .finish ω, Or.inr ⟨ω, rfl⟩, fun he => ?_⟩
    have := finish_busy hJ hg h hw hb ω
    rw [he, ho] at this
    exact this rfl
  · have hnone : ev.workers.filterMap Worker.job = [] := by
      rw [List.filterMap_eq_nil_iff]
      intro w hw
      obtain ⟨pid, hpid⟩ := List.getElem?_of_mem hw
      unfold Worker.job
      rw [if_neg]
      intro hb
      exact hbusy ⟨pid, w, hpid, hb⟩
    have hlen := h.back.cons.length_eq
    unfold inFlight at hlen
    rw [ho, hnone] at hlen
    simp only [List.append_nil, List.length_map] at hlen
    cases hi : ev.input with
    | nil => rw [hi] at hlen; simp at hlen; omega
    | cons f rest =>
      have hpos : 0 < ev.workers.length := by rw [h.number]; omega
      have hw0 : ev.workers[0]? = some ev.workers[0] := List.getElem?_eq_getElem hpos
      have hnb : ¬ (ev.workers[0].busy = true) := fun hb => hbusy ⟨0, _, hw0, hb⟩
      have hal : ev.workers[0].alive = true := h.alive _ (List.getElem_mem hpos)
      refine ⟨0, .take, Or.inl rfl, fun he => ?_⟩
      have hstep : (workerStep Jb 0 (.take : WorkerAct Ω) ev).input = rest := by
        unfold workerStep
        rw [hw0]
        dsimp only
        rw [if_pos hal, if_neg hnb, hi]
      rw [he, hi] at hstep
      have := congrArg List.length hstep
      simp at this

/-- The search waits, and was told nothing new yet. -/
structure StillWaits (C : Client S I A J σ) (K : Coding Fn V J) (Jb : Jobs Fn V E Ω) (D : List (Str × V))
    (n : Nat) (limit : Option ℚ) (start : S) (told : List (J × Completion)) (s : Joint S Fn V E) :
    Prop where
  calm : CalmOK C K Jb D n limit start s
  waiting : s.ev.waiting = true
  told : C.history s.search = told

/-- One event while the search waits: either it is told something, or it goes on waiting, with no
more left to do than before, and less if a worker got on; in the latter case there was nothing in
the output queue if this was a poll. -/
theorem wait_step {C : Client S I A J σ} (hC : C.Lawful) {K : Coding Fn V J} {Jb : Jobs Fn V E Ω}
    (hK : Faithful K Jb) (hJ : Reliable Jb) {D : List (Str × V)} {n : Nat} {limit : Option ℚ} {start : S}
    {told : List (J × Completion)} (e : JointEvent A σ Ω) (s : Joint S Fn V E) (hc : JointCalm s e)
    (h : StillWaits C K Jb D n limit start told s) :
    (∃ x, C.history (jointStep C K Jb e s).search = told ++ [x]) ∨
    (StillWaits C K Jb D n limit start told (jointStep C K Jb e s) ∧
      todo (jointStep C K Jb e s).ev ≤ todo s.ev ∧
      (s.ev.output ≠ [] → (jointStep C K Jb e s).ev.output ≠ []) ∧
      (∀ pid act, e = .worker pid act → GetsOn Jb s.ev pid act →
        todo (jointStep C K Jb e s).ev < todo s.ev) ∧
      (∀ r₁ r₂ r₃ o cb, e = .iterate r₁ r₂ r₃ o cb → s.ev.output = [])) := by
  have hnext := calmOK_step hC hK hJ e s hc h.calm
  have hwaits := h.calm.ok.waiting h.waiting
  obtain ⟨tr, hg, hl⟩ := h.calm.healthy
  cases e with
  | go a =>
    right
    have : jointStep C K Jb (.go a) s = s := by unfold jointStep; dsimp only; rw [if_pos hwaits]
    rw [this]
    exact ⟨h, le_refl _, id, (fun _ _ h => by cases h), (fun _ _ _ _ _ h => by cases h)⟩
  | wait =>
    right
    have : jointStep C K Jb .wait s = s := by
      unfold jointStep
      dsimp only
      rw [if_pos hwaits]
      simp only [asyncStep, h.waiting, if_true]
    rw [this]
    exact ⟨h, le_refl _, id, (fun _ _ h => by cases h), (fun _ _ _ _ _ h => by cases h)⟩
  | iterate r₁ r₂ r₃ o cb =>
    obtain ⟨hcalm, w, rfl⟩ := hc
    have hpoll := (hl.back.cons.poll hg.dict).2
    cases ho : s.ev.output with
    | nil =>
      right
      have : jointStep C K Jb (.iterate r₁ r₂ r₃ o (.ok w)) s = s := by
        unfold jointStep
        dsimp only
        simp only [asyncStep, h.waiting, if_true]
        rw [waitIteration_calm hl.back.pool.ok hcalm.1 (fun p hp => (hcalm.2 p hp).1)
          (fun p hp => (hcalm.2 p hp).2), pollOutput_run, ho]
      rw [this]
      exact ⟨h, le_refl _, fun hh => absurd rfl hh, (fun _ _ h => by cases h), fun _ _ _ _ _ _ => rfl⟩
    | cons f rest =>
      left
      have hiter : ∃ g ev, asyncStep Jb s.ev (.iterate r₁ r₂ r₃ o : AsyncEvent Fn V Ω) =
          (.returned g, ev) := by
        simp only [asyncStep, h.waiting, if_true]
        rw [waitIteration_calm hl.back.pool.ok hcalm.1 (fun p hp => (hcalm.2 p hp).1)
          (fun p hp => (hcalm.2 p hp).2)]
        rw [pollOutput_run, ho] at hpoll ⊢
        dsimp only at hpoll ⊢
        cases hd : dget s.ev.futures f.id with
        | none => rw [hd] at hpoll; exact absurd rfl (hpoll _)
        | some m => exact ⟨_, _, rfl⟩
      obtain ⟨g, ev, hiter⟩ := hiter
      have : jointStep C K Jb (.iterate r₁ r₂ r₃ o (.ok w)) s = ⟨deliver C K (.ok w) g s.search, ev⟩ := by
        unfold jointStep
        dsimp only
        rw [hiter]
      rw [this]
      refine ⟨(jobOf K g, completionOf K g), ?_⟩
      unfold deliver
      dsimp only
      rw [(hC.completes (completionOf K g) w s.search [] (jobOf K g) [] hwaits).2.2, h.told]
  | worker pid act =>
    right
    obtain ⟨w1, -, -, -, -, -, w7, -⟩ := workerStep_frame (J := Jb) (s := s.ev) pid act
    have hcases := todo_worker hJ hg hl pid act hc
    refine ⟨⟨hnext, ?_, h.told⟩, ?_, ?_, ?_, fun _ _ _ _ _ h => by cases h⟩
    · show (workerStep Jb pid act s.ev).waiting = true
      rw [w7]; exact h.waiting
    · show todo (workerStep Jb pid act s.ev) ≤ todo s.ev
      rcases hcases with he | ⟨he, -⟩
      · rw [he]
      · omega
    · show s.ev.output ≠ [] → (workerStep Jb pid act s.ev).output ≠ []
      rcases hcases with he | ⟨-, he⟩
      · rw [he]; exact id
      · exact he
    · intro pid' act' he hon
      cases he
      show todo (workerStep Jb pid act s.ev) < todo s.ev
      rcases hcases with he | ⟨he, -⟩
      · exact absurd he hon.2
      · exact he

/-- Between two moments the search was told something, or it still waits. -/
theorem wait_steps {C : Client S I A J σ} (hC : C.Lawful) {K : Coding Fn V J} {Jb : Jobs Fn V E Ω}
    (hK : Faithful K Jb) (hJ : Reliable Jb) {D : List (Str × V)} {n : Nat} {limit : Option ℚ} {start : S}
    {told : List (J × Completion)} {es : Nat → JointEvent A σ Ω} {s : Joint S Fn V E}
    (hc : ∀ k, JointCalm (jointAt C K Jb es s k) (es k)) (k : Nat)
    (h : StillWaits C K Jb D n limit start told (jointAt C K Jb es s k)) : ∀ d,
    (∃ m x, C.history (jointAt C K Jb es s m).search = told ++ [x]) ∨
    (StillWaits C K Jb D n limit start told (jointAt C K Jb es s (k + d)) ∧
      todo (jointAt C K Jb es s (k + d)).ev ≤ todo (jointAt C K Jb es s k).ev ∧
      ((jointAt C K Jb es s k).ev.output ≠ [] → (jointAt C K Jb es s (k + d)).ev.output ≠ [])) := by
  intro d
  induction d with
  | zero => exact Or.inr ⟨h, le_refl _, id⟩
  | succ d ih =>
    rcases ih with ih | ⟨h1, h2, h3⟩
    · exact Or.inl ih
    · rcases wait_step hC hK hJ (es (k + d)) _ (hc _) h1 with ⟨x, hx⟩ | ⟨g1, g2, g3, -, -⟩
      · exact Or.inl ⟨k + d + 1, x, hx⟩
      · exact Or.inr ⟨g1, g2.trans h2, fun hh => g3 (h3 hh)⟩

/-- **C132**, as far as it holds: if evaluations end, and no worker is stopped, dies or fails to
receive a job, a search that waits is told the outcome of an evaluation, in every schedule in which
the main process keeps polling and the workers do not all rest while there is something to do. -/
theorem C132_progress_partial {C : Client S I A J σ} (hC : C.Lawful) {K : Coding Fn V J}
    {Jb : Jobs Fn V E Ω} (hK : Faithful K Jb) (hJ : Reliable Jb) [Nonempty Ω] {start : S}
    (hs : C.setPending [] start = start) (n : Nat) (hn : 1 ≤ n) (limit : Option ℚ) (logfile : Bool)
    (D : List (Str × V)) (before : List (JointEvent A σ Ω))
    (hb : JointAlong C K Jb JointCalm before (jointStart start n limit logfile D : Joint S Fn V E))
    (s : Joint S Fn V E) (hrun : s = jointRun C K Jb before (jointStart start n limit logfile D))
    (hw : s.ev.waiting = true) (es : Nat → JointEvent A σ Ω)
    (hc : ∀ k, JointCalm (jointAt C K Jb es s k) (es k)) (hf : Fair C K Jb es s) :
    ∃ k x, C.history (jointAt C K Jb es s k).search = C.history s.search ++ [x] := by
  have h0 : StillWaits C K Jb D n limit start (C.history s.search) (jointAt C K Jb es s 0) := by
    refine ⟨?_, hw, rfl⟩
    show CalmOK C K Jb D n limit start s
    rw [hrun]
    exact calmOK_run hC hK hJ before _ (calmOK_start hs n limit logfile D) hb
  have main : ∀ (N k : Nat), StillWaits C K Jb D n limit start (C.history s.search) (jointAt C K Jb es s k) →
      todo (jointAt C K Jb es s k).ev ≤ N →
      ∃ k x, C.history (jointAt C K Jb es s k).search = C.history s.search ++ [x] := by
    intro N
    induction N using Nat.strong_induction_on with
    | _ N ih =>
      intro k h hN
      by_cases ho : (jointAt C K Jb es s k).ev.output = []
      · obtain ⟨tr, hg, hl⟩ := h.calm.healthy
        obtain ⟨m, hm, pid, act, he, hon⟩ :=
          hf.workers k (someone_gets_on hJ hn hg hl (h.calm.awaited h.waiting) ho)
        obtain ⟨d, rfl⟩ := Nat.exists_eq_add_of_le hm
        rcases wait_steps hC hK hJ hc k h d with hh | ⟨h1, h2, -⟩
        · exact hh
        · rcases wait_step hC hK hJ (es (k + d)) _ (hc _) h1 with ⟨x, hx⟩ | ⟨g1, -, -, g4, -⟩
          · exact ⟨k + d + 1, x, hx⟩
          · have := g4 pid act he hon
            exact ih (todo (jointAt C K Jb es s (k + d + 1)).ev)
              (lt_of_lt_of_le this (h2.trans hN)) (k + d + 1) g1 (le_refl _)
      · obtain ⟨m, hm, r₁, r₂, r₃, o, cb, he⟩ := hf.polls k
        obtain ⟨d, rfl⟩ := Nat.exists_eq_add_of_le hm
        rcases wait_steps hC hK hJ hc k h d with hh | ⟨h1, -, h3⟩
        · exact hh
        · rcases wait_step hC hK hJ (es (k + d)) _ (hc _) h1 with ⟨x, hx⟩ | ⟨-, -, -, -, g5⟩
          · exact ⟨k + d + 1, x, hx⟩
          · exact absurd (g5 _ _ _ _ _ he) (h3 ho)
  exact main _ 0 h0 (le_refl _)

/-! ### Standing still -/

/-- No running worker has a job. -/
def Quiet (ev : Evaluator Fn V E) : Prop := ∀ w ∈ ev.workers, w.alive = true → w.busy = false

/-- Everything that is waited for is lost. -/
structure Spec.AllLost (ev : Evaluator Fn V E) : Prop where
  input : ev.input = []
  output : ev.output = []
  quiet : ∀ w ∈ ev.workers, w.alive = true → w.busy = false

theorem quiet_kill {ev : Evaluator Fn V E} (h : Quiet ev) (pid : Nat) :
    ∀ w ∈ kill ev pid, w.alive = true → w.busy = false := by
  intro w hw ha
  unfold kill at hw
  cases hp : ev.workers[pid]? with
  | none => rw [hp] at hw; exact h w hw ha
  | some x =>
    rw [hp] at hw
    dsimp only at hw
    rcases List.mem_or_eq_of_mem_set hw with hw | rfl
    · exact h w hw ha
    · cases ha

theorem quiet_start {ev : Evaluator Fn V E} (h : Quiet ev) (ps : List Nat) :
    Quiet { ev with workers := ev.workers ++ [⟨none, false, true⟩], procs := ps } := by
  intro w hw ha
  rcases List.mem_append.1 hw with hw | hw
  · exact h w hw ha
  · simp only [List.mem_singleton] at hw
    subst hw; rfl

theorem wp_quiet_stop (pid : Nat) (o : StopOutcome) (s : Evaluator Fn V E) (h : Quiet s) :
    wp (stopWorker pid o) (fun _ s' => Quiet s') (fun _ s' => Quiet s') s := by
  cases o with
  | ok =>
    simp only [stopWorker, removeProc, wp_bind, wp_modify, wp_get, wp_ite]
    exact ⟨fun _ => quiet_kill h pid, fun _ => quiet_kill h pid⟩
  | gone => exact quiet_kill h pid
  | timeout => exact h

theorem wp_quiet_usage (r : Readings) : ∀ (ps : List Nat) (s : Evaluator Fn V E), Quiet s →
    wp (usageLoop r ps) (fun _ s' => Quiet s') (fun _ s' => Quiet s') s := by
  intro ps
  induction ps with
  | nil => intro s h; exact wp_pure.2 h
  | cons p ps ih =>
    intro s h
    unfold usageLoop
    cases r.worker p with
    | some mb =>
      simp only [wp_bind]
      exact wp_mono (fun _ s' h => wp_pure.2 h) (fun _ _ h => h) (ih s h)
    | none =>
      simp only [wp_bind, wp_modify, startWorker]
      refine ih _ ?_
      intro w hw ha
      rcases List.mem_append.1 hw with hw | hw
      · exact quiet_kill h p w hw ha
      · simp only [List.mem_singleton] at hw
        subst hw; rfl

theorem wp_quiet_log (r : Readings) (s : Evaluator Fn V E) (h : Quiet s) :
    wp (logUsage r) (fun _ s' => Quiet s') (fun _ s' => Quiet s') s := by
  simp only [logUsage, wp_bind, wp_get, memoryUsage, wp_ite]
  refine ⟨fun _ => ?_, fun _ => wp_pure.2 h⟩
  exact wp_mono (fun _ _ h => wp_pure.2 h) (fun _ _ h => h) (wp_quiet_usage r _ s h)

theorem wp_quiet_control (r r' : Readings) (o : StopOutcome) (s : Evaluator Fn V E) (h : Quiet s) :
    wp (controlMemory r r' o) (fun _ s' => Quiet s') (fun _ s' => Quiet s') s := by
  simp only [controlMemory, wp_bind, wp_get]
  cases s.limit with
  | none => exact h
  | some limit =>
    simp only [wp_bind, memoryUsage, wp_get]
    refine wp_mono ?_ (fun _ _ h => h) (wp_quiet_usage r _ s h)
    intro usage s1 h1
    rw [wp_ite]
    refine ⟨fun _ => ?_, fun _ => h1⟩
    simp only [wp_bind]
    refine wp_mono ?_ (fun _ _ h => h) (wp_quiet_log r' s1 h1)
    intro _ s2 h2
    simp only [wp_modify]
    cases maxUsage usage with
    | none => exact h2
    | some x =>
      simp only [restartOrKill, wp_bind, wp_get, wp_ite, wp_modify]
      refine ⟨fun _ => ?_, fun _ => ?_⟩
      · refine wp_mono ?_ (fun _ _ h => h) (wp_quiet_stop x.1 o _ ?_)
        · intro _ s3 h3
          exact quiet_start h3 _
        · exact h2
      · exact wp_quiet_stop x.1 o _ h2

/-- A wait for what is lost goes on, or raises. -/
theorem iterate_lost {Jb : Jobs Fn V E Ω} {ev : Evaluator Fn V E} (h : AllLost ev) (r₁ r₂ r₃ : Readings)
    (o : StopOutcome) :
    AllLost (asyncStep Jb ev (.iterate r₁ r₂ r₃ o)).2 ∧
      ∀ f, (asyncStep Jb ev (.iterate r₁ r₂ r₃ o)).1 ≠ .returned f := by
  cases hw : ev.waiting with
  | false =>
    have hb : ¬ (false = true) := by simp
    simp only [asyncStep, hw, if_neg hb]
    exact ⟨h, by simp⟩
  | true =>
    simp only [asyncStep, hw, if_true]
    unfold waitIteration
    have c1 := wp_and (wp_quiet_control r₁ r₂ o ev h.quiet) (wp_frame_control r₁ r₂ o ev)
    cases hc : controlMemory r₁ r₂ o ev with
    | mk r s1 =>
      cases r with
      | error e =>
        obtain ⟨a, f⟩ := wp_error c1 hc
        rw [bind_error hc]
        exact ⟨⟨f.input.trans h.input, f.output.trans h.output, a⟩, by simp⟩
      | ok u =>
        obtain ⟨a, f⟩ := wp_ok c1 hc
        rw [bind_ok hc]
        have c2 := wp_and (wp_quiet_log r₃ s1 a) (wp_frame_log r₃ s1)
        cases hl : logUsage r₃ s1 with
        | mk r s2 =>
          cases r with
          | error e =>
            obtain ⟨a', f'⟩ := wp_error c2 hl
            rw [bind_error hl]
            exact ⟨⟨f'.input.trans (f.input.trans h.input), f'.output.trans (f.output.trans h.output), a'⟩,
              by simp⟩
          | ok u2 =>
            obtain ⟨a', f'⟩ := wp_ok c2 hl
            have ho := f'.output.trans (f.output.trans h.output)
            rw [bind_ok hl, pollOutput_run, ho]
            exact ⟨⟨f'.input.trans (f.input.trans h.input), ho, a'⟩, by simp⟩

theorem worker_lost {Jb : Jobs Fn V E Ω} {ev : Evaluator Fn V E} (h : AllLost ev) (pid : Nat)
    (act : WorkerAct Ω) : AllLost (workerStep Jb pid act ev) := by
  have hset : ∀ (w w' : Worker Fn V E) (c : Nat), (w'.alive = true → w'.busy = false) →
      AllLost { ev with workers := ev.workers.set pid w', commands := c } := by
    intro w w' c hw'
    refine ⟨h.input, h.output, fun x hx ha => ?_⟩
    rcases List.mem_or_eq_of_mem_set hx with hx | rfl
    · exact h.quiet x hx ha
    · exact hw' ha
  unfold workerStep
  cases hw : ev.workers[pid]? with
  | none => exact h
  | some w =>
    dsimp only
    by_cases ha : w.alive = true
    · rw [if_pos ha]
      have hb := h.quiet w (List.mem_of_getElem? hw) ha
      cases act with
      | die => exact hset w _ ev.commands (fun hh => by cases hh)
      | stop =>
        dsimp only
        split
        · exact hset w _ _ (fun hh => by cases hh)
        · exact h
      | take =>
        dsimp only
        rw [hb, if_neg (by simp), h.input]
        exact h
      | takeFails =>
        dsimp only
        rw [hb, if_neg (by simp), h.input]
        exact h
      | finish ω =>
        dsimp only
        rw [hb, if_neg (by simp)]
        exact h
    · rw [if_neg ha]; exact h

/-- **C132**: once everything it waits for is lost, a search is told nothing any more, whatever
happens. -/
theorem C132_stands_still {C : Client S I A J σ} (hC : C.Lawful) {K : Coding Fn V J}
    {Jb : Jobs Fn V E Ω} (hK : Faithful K Jb) {start : S} (hs : C.setPending [] start = start) (n : Nat)
    (limit : Option ℚ) (logfile : Bool) (D : List (Str × V)) (before : List (JointEvent A σ Ω))
    (s : Joint S Fn V E) (hrun : s = jointRun C K Jb before (jointStart start n limit logfile D))
    (hw : s.ev.waiting = true) (hl : AllLost s.ev) (es : List (JointEvent A σ Ω)) :
    C.history (jointRun C K Jb es s).search = C.history s.search := by
  have hok : JointOK C K Jb D (fun _ _ _ => True) start s := by
    rw [hrun]
    exact jointOK_run hC hK before _ (jointOK_start hs n limit logfile D)
      (jointAlong_true (fun _ _ _ _ => trivial) before _)
  have main : ∀ (es : List (JointEvent A σ Ω)) (t : Joint S Fn V E),
      JointOK C K Jb D (fun _ _ _ => True) start t →
      (t.ev.waiting = true ∧ AllLost t.ev ∨ C.Stuck t.search) →
      C.history (jointRun C K Jb es t).search = C.history t.search := by
    intro es
    induction es with
    | nil => intro t _ _; rfl
    | cons e es ih =>
      intro t ht h
      have hnext := jointOK_step hC hK e t ht (fun _ _ => trivial)
      have key : C.history (jointStep C K Jb e t).search = C.history t.search ∧
          ((jointStep C K Jb e t).ev.waiting = true ∧ AllLost (jointStep C K Jb e t).ev ∨
            C.Stuck (jointStep C K Jb e t).search) := by
        rcases h with ⟨h1, h2⟩ | h
        · have hwaits := ht.waiting h1
          cases e with
          | go a =>
            have : jointStep C K Jb (.go a) t = t := by
              unfold jointStep; dsimp only; rw [if_pos hwaits]
            rw [this]
            exact ⟨rfl, Or.inl ⟨h1, h2⟩⟩
          | wait =>
            have : jointStep C K Jb .wait t = t := by
              unfold jointStep
              dsimp only
              rw [if_pos hwaits]
              simp only [asyncStep, h1, if_true]
            rw [this]
            exact ⟨rfl, Or.inl ⟨h1, h2⟩⟩
          | iterate r₁ r₂ r₃ o cb =>
            obtain ⟨k1, k2⟩ := iterate_lost (Jb := Jb) h2 r₁ r₂ r₃ o
            obtain ⟨tr, hg⟩ := ht.good
            unfold jointStep
            dsimp only
            rcases iterate_cases hg r₁ r₂ r₃ o with ⟨i1, -, i3⟩ | ⟨x, i1, -⟩ | ⟨f, m, pre, post, i1, -⟩
            · cases hr : asyncStep Jb t.ev (.iterate r₁ r₂ r₃ o) with
              | mk ob ev =>
                rw [hr] at i1 i3 k1
                dsimp only at i1
                subst i1
                exact ⟨rfl, Or.inl ⟨i3.trans h1, k1⟩⟩
            · cases hr : asyncStep Jb t.ev (.iterate r₁ r₂ r₃ o) with
              | mk ob ev =>
                rw [hr] at i1
                dsimp only at i1
                subst i1
                obtain ⟨-, -, j3, j4⟩ := hC.raises x t.search [] hwaits
                exact ⟨j3, Or.inr j4⟩
            · exact absurd i1 (k2 f)
          | worker pid act =>
            obtain ⟨-, -, -, -, -, -, w7, -⟩ := workerStep_frame (J := Jb) (s := t.ev) pid act
            exact ⟨rfl, Or.inl ⟨w7.trans h1, worker_lost h2 pid act⟩⟩
        · have hnw : t.ev.waiting = false := by
            cases hh : t.ev.waiting with
            | false => rfl
            | true =>
              have := ht.waiting hh
              rw [h.1] at this; cases this
          have same : (jointStep C K Jb e t).search = t.search := by
            cases e with
            | go a =>
              unfold jointStep
              dsimp only
              rw [if_neg (by rw [h.1]; simp)]
              exact h.2 _
            | wait =>
              unfold jointStep
              dsimp only
              rw [if_neg (by rw [h.1]; simp)]
            | iterate r₁ r₂ r₃ o cb =>
              have hb : ¬ (false = true) := by simp
              unfold jointStep
              dsimp only
              simp only [asyncStep, hnw, if_neg hb]
            | worker pid act => rfl
          rw [same]
          exact ⟨rfl, Or.inr h⟩
      show C.history (jointRun C K Jb es (jointStep C K Jb e t)).search = _
      rw [ih _ hnext key.2, key.1]
  exact main es s hok (Or.inl ⟨hw, hl⟩)

end

/-- The full claim C132: whatever happens to the workers, a search that waits can still be told the
outcome of an evaluation. -/
def C132_claim : Prop :=
  ∀ (S I A J σ Fn V E Ω : Type) (C : Client S I A J σ) (_ : C.Lawful) (K : Coding Fn V J)
    (Jb : Jobs Fn V E Ω) (_ : Faithful K Jb) (_ : Reliable Jb) (_ : Nonempty Ω) (start : S)
    (_ : C.setPending [] start = start) (n : Nat) (_ : 1 ≤ n) (limit : Option ℚ) (logfile : Bool)
    (D : List (Str × V)) (before : List (JointEvent A σ Ω)) (s : Joint S Fn V E),
    s = jointRun C K Jb before (jointStart start n limit logfile D) → s.ev.waiting = true →
    ∃ (es : List (JointEvent A σ Ω)) (x : J × Completion),
      C.history (jointRun C K Jb es s).search = C.history s.search ++ [x]

namespace Ex

theorem evaluations_reliable : Reliable evaluations := by
  intro fn args kw ω
  show (if args.headD 0 = 5 then Outcome.raises 0 else Outcome.returns (args.headD 0) : Outcome Nat Nat) ≠
      .escapes ∧ _
  refine ⟨?_, fun _ _ h => by cases h⟩
  split <;> simp

/-- One worker evaluates the only candidate; it and the main process take turns for ever. -/
def turns (k : Nat) : JointEvent Unit Unit Unit :=
  if k % 3 = 0 then .worker 0 .take else if k % 3 = 1 then .worker 0 (.finish ())
  else .iterate calmReading calmReading calmReading .ok (.ok ())

def oneJob : Joint (Rs Unit Nat) Unit Nat Nat :=
  jointRun (rsClient Ex.ops none) coding evaluations [.go (), .go (), .wait]
    (jointStart (rsStart (.list [4]) [] ()) 1 none false [])

theorem resting {ev : Evaluator Unit Nat Nat} (hi : ev.input = []) {w : Worker Unit Nat Nat}
    (hw : ev.workers = [w]) (hb : w.busy = false) (pid : Nat) (act : WorkerAct Unit) :
    ¬ GetsOn evaluations ev pid act := by
  rintro ⟨h, hne⟩
  apply hne
  unfold workerStep
  rw [hw]
  cases pid with
  | succ pid => rfl
  | zero =>
    show (if w.alive = true then _ else _) = _
    split
    · rcases h with rfl | ⟨ω, rfl⟩
      · dsimp only
        rw [hb, if_neg (by simp), hi]
      · dsimp only
        rw [hb, if_neg (by simp)]
    · rfl

theorem turns_end (k : Nat) : jointAt (rsClient Ex.ops none) coding evaluations turns oneJob (3 + k) =
    jointAt (rsClient Ex.ops none) coding evaluations turns oneJob 3 := by
  induction k with
  | zero => rfl
  | succ k ih =>
    show jointStep _ _ _ (turns (3 + k)) (jointAt _ _ _ _ _ (3 + k)) = _
    rw [ih]
    unfold turns
    split
    · rfl
    · split <;> rfl

theorem turns_fair : Fair (rsClient Ex.ops none) coding evaluations turns oneJob := by
  refine ⟨fun k => ⟨3 * k + 2, by omega, calmReading, calmReading, calmReading, .ok, .ok (), ?_⟩, ?_⟩
  · unfold turns
    rw [if_neg (by omega), if_neg (by omega)]
  · rintro k ⟨pid, act, hon⟩
    match k, hon with
    | 0, _ =>
      refine ⟨0, le_refl _, 0, .take, rfl, Or.inl rfl, fun h => ?_⟩
      exact absurd (congrArg (fun e => e.input.length) h) (by decide +kernel)
    | 1, _ =>
      refine ⟨1, le_refl _, 0, .finish (), rfl, Or.inr ⟨(), rfl⟩, fun h => ?_⟩
      exact absurd (congrArg (fun e => e.output.length) h) (by decide +kernel)
    | 2, hon => exact absurd hon (resting rfl rfl rfl pid act)
    | k + 3, hon =>
      rw [show k + 3 = 3 + k by omega, turns_end] at hon
      exact absurd hon (resting rfl rfl rfl pid act)

theorem turns_limit (k : Nat) :
    (jointAt (rsClient Ex.ops none) coding evaluations turns oneJob k).ev.limit = none := by
  match k with
  | 0 => rfl
  | 1 => rfl
  | 2 => rfl
  | k + 3 => rw [show k + 3 = 3 + k by omega, turns_end]; rfl

theorem turns_calm (k : Nat) :
    JointCalm (jointAt (rsClient Ex.ops none) coding evaluations turns oneJob k) (turns k) := by
  have hlim := turns_limit k
  generalize jointAt (rsClient Ex.ops none) coding evaluations turns oneJob k = s at hlim
  unfold turns
  split
  · trivial
  · split
    · trivial
    · refine ⟨⟨fun l hl => ?_, fun p hp => ⟨by simp [calmReading], by simp [calmReading]⟩⟩, (), rfl⟩
      rw [hlim] at hl; cases hl

/-- So the theorem applies. -/
example : ∃ k x, (jointAt (rsClient Ex.ops none) coding evaluations turns oneJob k).search.history =
    oneJob.search.history ++ [x] :=
  C132_progress_partial (rsClient_lawful Ex.ops none) coding_faithful evaluations_reliable
    (start := rsStart (.list [4]) [] ()) rfl 1 (le_refl _) none false []
    [.go (), .go (), .wait] ⟨trivial, trivial, trivial, trivial⟩ oneJob rfl
    (by decide +kernel) turns turns_calm turns_fair

/-- The only worker exceeds the limit of 10 MB while it evaluates the only candidate. -/
def lastWorker : List (JointEvent Unit Unit Unit) :=
  List.replicate 2 (.go ()) ++ [.wait, .worker 0 .take,
    .iterate ⟨10, fun _ => some 5⟩ calmReading calmReading .ok (.ok ())]

def lastWorkerState : Joint (Rs Unit Nat) Unit Nat Nat :=
  jointRun (rsClient Ex.ops none) coding evaluations lastWorker
    (jointStart (rsStart (.list [4]) [] ()) 1 (some 10) false [])

theorem lastWorker_lost : AllLost lastWorkerState.ev := by
  refine ⟨?_, ?_, ?_⟩
  · exact List.isEmpty_iff.1 (by decide +kernel)
  · exact List.isEmpty_iff.1 (by decide +kernel)
  · have : lastWorkerState.ev.workers.all (fun w => !w.alive || !w.busy) = true := by decide +kernel
    intro w hw ha
    have := List.all_eq_true.1 this w hw
    rw [ha] at this
    simpa using this

/-- A new worker runs, the job is still waited for. -/
example : (lastWorkerState.ev.procs, lastWorkerState.ev.futures.length, lastWorkerState.ev.waiting,
    rsWaits none lastWorkerState.search) = ([1], 1, true, true) := by decide +kernel

end Ex

/-- **C132 is false**: stopping workers for their use of memory loses their jobs, and when all jobs
are lost the search stands still. -/
theorem C132_false : ¬ C132_claim := by
  intro h
  obtain ⟨es, x, hx⟩ := h (Rs Unit Nat) (Wait Unit) Unit Nat Unit Unit Nat Nat Unit
    (rsClient Ex.ops none) (rsClient_lawful Ex.ops none) Ex.coding Ex.evaluations Ex.coding_faithful
    Ex.evaluations_reliable ⟨()⟩ (rsStart (.list [4]) [] ()) rfl 1 (le_refl _) (some 10) false []
    Ex.lastWorker Ex.lastWorkerState rfl (by decide +kernel)
  rw [C132_stands_still (rsClient_lawful Ex.ops none) Ex.coding_faithful (start := rsStart (.list [4]) [] ())
    rfl 1 (some 10) false [] Ex.lastWorker Ex.lastWorkerState rfl (by decide +kernel) Ex.lastWorker_lost es] at hx
  have := congrArg List.length hx
  simp at this

/-! ### Cases of the theorems above -/

/-- `C132_stands_still`: the only worker was removed with its job. -/
example (es : List (JointEvent Unit Unit Unit)) :
    (jointRun (rsClient Ex.ops none) Ex.coding Ex.evaluations es Ex.lastWorkerState).search.history =
      Ex.lastWorkerState.search.history :=
  C132_stands_still (rsClient_lawful Ex.ops none) Ex.coding_faithful (start := rsStart (.list [4]) [] ()) rfl 1
    (some 10) false [] Ex.lastWorker Ex.lastWorkerState rfl (by decide +kernel)
    ⟨by decide +kernel, by decide +kernel, by decide +kernel⟩ es

end Gama
