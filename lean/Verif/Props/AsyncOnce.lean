import Verif.Props.Async2

/-!
# A job is run once; a job that is lost stays lost (C29, C31, C181)

Nothing is assumed of the schedule here: workers may be stopped, die or fail to receive a job.
-/

namespace Gama
open PyM Spec

section
variable {Fn V E Ω : Type}

/-- The worker runs, and its variable `future` is job `i`. -/
def holdsJob (i : Nat) (busy : Bool) (w : Worker Fn V E) : Bool :=
  w.alive && (w.busy == busy) && (w.cur.any fun f => f.id == i)

def inCount (i : Nat) (s : Evaluator Fn V E) : Nat := s.input.countP fun f => f.id == i
def outCount (i : Nat) (s : Evaluator Fn V E) : Nat := s.output.countP fun f => f.id == i
def busyCount (i : Nat) (s : Evaluator Fn V E) : Nat := s.workers.countP (holdsJob i true)
def idleCount (i : Nat) (s : Evaluator Fn V E) : Nat := s.workers.countP (holdsJob i false)

/-- Job `i` is still to be run at one place only, and then nothing was reported of it. -/
structure OnePlace (i : Nat) (s : Evaluator Fn V E) : Prop where
  one : inCount i s + busyCount i s ≤ 1
  quiet : 0 < inCount i s + busyCount i s → outCount i s = 0 ∧ idleCount i s = 0
  fresh : s.nextId ≤ i → inCount i s = 0 ∧ busyCount i s = 0 ∧ outCount i s = 0 ∧ idleCount i s = 0

/-- How the numbers may change in a step; the job may be submitted in it. -/
inductive JobMoves (i : Nat) (s s' : Evaluator Fn V E) : Prop
  | less (hn : s'.nextId = s.nextId) (h1 : inCount i s' ≤ inCount i s) (h2 : busyCount i s' ≤ busyCount i s)
      (h3 : outCount i s' ≤ outCount i s) (h4 : idleCount i s' ≤ idleCount i s)
  | submit (hn : s'.nextId = s.nextId + 1) (h1 : inCount i s' = inCount i s + if s.nextId = i then 1 else 0)
      (h2 : busyCount i s' = busyCount i s) (h3 : outCount i s' = outCount i s) (h4 : idleCount i s' = idleCount i s)
  | take (hn : s'.nextId = s.nextId) (h1 : inCount i s' + 1 = inCount i s) (h2 : busyCount i s' ≤ busyCount i s + 1)
      (h3 : outCount i s' ≤ outCount i s) (h4 : idleCount i s' ≤ idleCount i s)
  | finish (hn : s'.nextId = s.nextId) (h1 : inCount i s' ≤ inCount i s) (h2 : busyCount i s' + 1 = busyCount i s)
  | again (hn : s'.nextId = s.nextId) (h1 : inCount i s' ≤ inCount i s) (h2 : busyCount i s' ≤ busyCount i s)
      (h4 : 0 < idleCount i s)

theorem JobMoves.onePlace {i : Nat} {s s' : Evaluator Fn V E} (m : JobMoves i s s') (h : OnePlace i s) : OnePlace i s' := by
  obtain ⟨a, b, c⟩ := h
  cases m with
  | less hn h1 h2 h3 h4 => exact ⟨by omega, fun _ => by have := b (by omega); omega, fun hx => by have := c (by omega); omega⟩
  | submit hn h1 h2 h3 h4 =>
    by_cases hi : s.nextId = i
    · have := c (by omega)
      rw [if_pos hi] at h1
      exact ⟨by omega, fun _ => by omega, fun hx => by omega⟩
    · rw [if_neg hi] at h1
      exact ⟨by omega, fun _ => by have := b (by omega); omega, fun hx => by have := c (by omega); omega⟩
  | take hn h1 h2 h3 h4 => exact ⟨by omega, fun _ => by have := b (by omega); omega, fun hx => by have := c (by omega); omega⟩
  | finish hn h1 h2 => exact ⟨by omega, fun _ => by omega, fun hx => by have := c (by omega); omega⟩
  | again hn h1 h2 h4 =>
    have : inCount i s + busyCount i s = 0 := by
      by_contra hx
      have := b (by omega)
      omega
    exact ⟨by omega, fun _ => by omega, fun hx => by have := c (by omega); omega⟩

/-! ## Memory control -/

/-- No more workers have the job than before. -/
structure Fewer (i : Nat) (s s' : Evaluator Fn V E) : Prop where
  busy : busyCount i s' ≤ busyCount i s
  idle : idleCount i s' ≤ idleCount i s

theorem Fewer.refl (i : Nat) (s : Evaluator Fn V E) : Fewer i s s := ⟨le_rfl, le_rfl⟩

theorem Fewer.trans {i : Nat} {s t u : Evaluator Fn V E} (h : Fewer i s t) (k : Fewer i t u) : Fewer i s u :=
  ⟨k.busy.trans h.busy, k.idle.trans h.idle⟩

theorem Fewer.of_workers {i : Nat} {s s' : Evaluator Fn V E} (h : s'.workers = s.workers) : Fewer i s s' := by
  exact ⟨by unfold busyCount; rw [h], by unfold idleCount; rw [h]⟩

theorem countP_set_le {α : Type} (p : α → Bool) (l : List α) {k : Nat} {w x : α} (hk : l[k]? = some w) :
    (l.set k x).countP p + (if p w then 1 else 0) = l.countP p + if p x then 1 else 0 := by
  induction l generalizing k with
  | nil => simp at hk
  | cons y l ih =>
    cases k with
    | zero =>
      simp only [List.getElem?_cons_zero, Option.some.injEq] at hk
      subst hk
      rw [List.set_cons_zero, List.countP_cons, List.countP_cons]
      omega
    | succ k =>
      rw [List.getElem?_cons_succ] at hk
      have := ih hk
      rw [List.set_cons_succ, List.countP_cons, List.countP_cons]
      omega

theorem fewer_kill (i : Nat) (s : Evaluator Fn V E) (pid : Nat) {t : Evaluator Fn V E} (ht : t.workers = kill s pid) :
    Fewer i s t := by
  have key : ∀ b : Bool, t.workers.countP (holdsJob i b) ≤ s.workers.countP (holdsJob i b) := by
    intro b
    rw [ht]
    unfold kill
    cases hw : s.workers[pid]? with
    | none => exact le_rfl
    | some w =>
      have := countP_set_le (holdsJob i b) s.workers (x := { w with alive := false }) hw
      have hd : holdsJob i b { w with alive := false } = false := rfl
      rw [hd] at this
      dsimp only
      simp only [Bool.false_eq_true, if_false] at this
      omega
  exact ⟨key true, key false⟩

theorem fewer_start (i : Nat) (s : Evaluator Fn V E) : Fewer i s (startWorker s).2 := by
  have key : ∀ b : Bool, (s.workers ++ [(⟨none, false, true⟩ : Worker Fn V E)]).countP (holdsJob i b) ≤ s.workers.countP (holdsJob i b) := by
    intro b
    rw [List.countP_append]
    have : holdsJob i b (⟨none, false, true⟩ : Worker Fn V E) = false := by simp [holdsJob]
    simp [this]
  exact ⟨key true, key false⟩

theorem wp_fewer_stop (i pid : Nat) (o : StopOutcome) (s : Evaluator Fn V E) :
    wp (stopWorker pid o) (fun _ s' => Fewer i s s') (fun _ s' => Fewer i s s') s := by
  cases o with
  | ok =>
    simp only [stopWorker, removeProc, wp_bind, wp_modify, wp_get, wp_ite]
    exact ⟨fun _ => fewer_kill i s pid rfl, fun _ => fewer_kill i s pid rfl⟩
  | gone => exact fewer_kill i s pid rfl
  | timeout => exact Fewer.refl i s

theorem wp_fewer_usage (i : Nat) (r : Readings) : ∀ (ps : List Nat) (s : Evaluator Fn V E),
    wp (usageLoop r ps) (fun _ s' => Fewer i s s') (fun _ s' => Fewer i s s') s := by
  intro ps
  induction ps with
  | nil => intro s; exact Fewer.refl i s
  | cons p ps ih =>
    intro s
    unfold usageLoop
    cases r.worker p with
    | some mb =>
      simp only [wp_bind]
      refine wp_mono ?_ (fun _ _ h => h) (ih s)
      intro _ s' h
      exact wp_pure.2 h
    | none =>
      simp only [wp_bind, wp_modify, startWorker]
      let t : Evaluator Fn V E :=
        { s with workers := kill s p, procs := s.procs.filter fun q => q != p }
      have h2 := (fewer_kill i s p (t := t) rfl).trans (fewer_start i t)
      exact wp_mono (fun _ _ h => h2.trans h) (fun _ _ h => h2.trans h) (ih _)

theorem wp_fewer_log (i : Nat) (r : Readings) (s : Evaluator Fn V E) :
    wp (logUsage r) (fun _ s' => Fewer i s s') (fun _ s' => Fewer i s s') s := by
  simp only [logUsage, wp_bind, wp_get, memoryUsage, wp_ite]
  refine ⟨fun _ => ?_, fun _ => Fewer.refl i s⟩
  exact wp_mono (fun _ _ h => wp_pure.2 h) (fun _ _ h => h) (wp_fewer_usage i r _ s)

theorem wp_fewer_restart (i pid : Nat) (o : StopOutcome) (s : Evaluator Fn V E) :
    wp (restartOrKill pid o) (fun _ s' => Fewer i s s') (fun _ s' => Fewer i s s') s := by
  simp only [restartOrKill, wp_bind, wp_get, wp_ite]
  refine ⟨fun _ => ?_, fun _ => ?_⟩
  · refine wp_mono ?_ (fun _ _ h => h) (wp_fewer_stop i pid o s)
    intro _ s' h
    exact h.trans (fewer_start i s')
  · simp only [wp_modify]
    have h1 : Fewer i s { s with behaved := 0, violations := 0 } := Fewer.of_workers rfl
    exact wp_mono (fun _ _ h => h1.trans h) (fun _ _ h => h1.trans h) (wp_fewer_stop i pid o _)

theorem wp_fewer_control (i : Nat) (r r' : Readings) (o : StopOutcome) (s : Evaluator Fn V E) :
    wp (controlMemory r r' o) (fun _ s' => Fewer i s s') (fun _ s' => Fewer i s s') s := by
  simp only [controlMemory, wp_bind, wp_get]
  cases s.limit with
  | none => exact Fewer.refl i s
  | some limit =>
    simp only [wp_bind, memoryUsage, wp_get]
    refine wp_mono ?_ (fun _ _ h => h) (wp_fewer_usage i r _ s)
    intro usage s1 h1
    rw [wp_ite]
    refine ⟨fun _ => ?_, fun _ => h1⟩
    simp only [wp_bind]
    refine wp_mono ?_ (fun _ _ h => h1.trans h) (wp_fewer_log i r' s1)
    intro _ s2 h2
    simp only [wp_modify]
    have h3 : Fewer i s { s2 with violations := s2.violations + 1 } := (h1.trans h2).trans (Fewer.of_workers rfl)
    cases maxUsage usage with
    | none => exact h3
    | some x =>
      exact wp_mono (fun _ _ h => h3.trans h) (fun _ _ h => h3.trans h) (wp_fewer_restart i x.1 o _)

/-- Everything before the poll in one iteration of `wait_next`. -/
theorem waitIteration_fewer (i : Nat) (r₁ r₂ r₃ : Readings) (o : StopOutcome) (s : Evaluator Fn V E) :
    (∃ s1, Frame s s1 ∧ Fewer i s s1 ∧ waitIteration r₁ r₂ r₃ o s = pollOutput s1) ∨
    (∃ e s1, Frame s s1 ∧ Fewer i s s1 ∧ waitIteration r₁ r₂ r₃ o s = (.error e, s1)) := by
  have h := wp_frame_control r₁ r₂ o s
  have k := wp_fewer_control i r₁ r₂ o s
  unfold waitIteration
  cases hc : controlMemory r₁ r₂ o s with
  | mk r s1 =>
    cases r with
    | error e => exact Or.inr ⟨e, s1, wp_error h hc, wp_error k hc, bind_error hc⟩
    | ok u =>
      have h1 := wp_ok h hc
      have k1 := wp_ok k hc
      rw [bind_ok hc]
      have h' := wp_frame_log r₃ s1
      have k' := wp_fewer_log i r₃ s1
      cases hl : logUsage r₃ s1 with
      | mk r s2 =>
        cases r with
        | error e => exact Or.inr ⟨e, s2, h1.trans (wp_error h' hl), k1.trans (wp_error k' hl), bind_error hl⟩
        | ok u => 
          have h2 := wp_ok h' hl
          have k2 := wp_ok k' hl
          exact Or.inl ⟨s2, h1.trans h2, k1.trans k2, bind_ok hl⟩

/-! ## Steps -/

theorem moves_of_fewer {i : Nat} {s s' : Evaluator Fn V E} (h : Fewer i s s') (hn : s'.nextId = s.nextId)
    (hi : s'.input.Sublist s.input) (ho : s'.output.Sublist s.output) : JobMoves i s s' :=
  .less hn hi.countP_le h.busy ho.countP_le h.idle

theorem moves_set {i pid : Nat} {s s' : Evaluator Fn V E} {w w' : Worker Fn V E} (hw : s.workers[pid]? = some w)
    (hs : s'.workers = s.workers.set pid w') :
    busyCount i s' + (if holdsJob i true w then 1 else 0) = busyCount i s + (if holdsJob i true w' then 1 else 0) ∧
    idleCount i s' + (if holdsJob i false w then 1 else 0) = idleCount i s + if holdsJob i false w' then 1 else 0 := by
  unfold busyCount idleCount
  rw [hs]
  exact ⟨countP_set_le _ _ hw, countP_set_le _ _ hw⟩

theorem moves_worker (J : Jobs Fn V E Ω) (i pid : Nat) (a : WorkerAct Ω) (s : Evaluator Fn V E) :
    JobMoves i s (workerStep J pid a s) := by
  have stay : JobMoves i s s := moves_of_fewer (Fewer.refl i s) rfl (List.Sublist.refl _) (List.Sublist.refl _)
  unfold workerStep
  cases hw : s.workers[pid]? with
  | none => exact stay
  | some w =>
    dsimp only
    by_cases ha : w.alive = true
    · rw [if_pos ha]
      have hdead : ∀ b, holdsJob i b { w with alive := false } = false := fun b => rfl
      have kill : ∀ (inp : List (Future Fn V E)) (c : Nat), inp.Sublist s.input →
          JobMoves i s { s with input := inp, commands := c, workers := s.workers.set pid { w with alive := false } } := by
        intro inp c hsub
        have := moves_set (i := i) (s' := { s with input := inp, commands := c, workers := s.workers.set pid { w with alive := false } }) hw rfl
        rw [hdead, hdead] at this
        simp only [Bool.false_eq_true, if_false] at this
        exact .less rfl hsub.countP_le (by omega) (List.Sublist.refl _).countP_le (by omega)
      cases a with
      | die => exact kill _ _ (List.Sublist.refl _)
      | stop =>
        dsimp only
        split
        · exact kill _ _ (List.Sublist.refl _)
        · exact stay
      | take =>
        dsimp only
        split
        · exact stay
        · rename_i hb
          cases hi : s.input with
          | nil => exact stay
          | cons f rest =>
            dsimp only
            have hbf : w.busy = false := by simpa using hb
            have hs := moves_set (i := i) (s' := { s with input := rest, workers := s.workers.set pid ⟨some f, true, true⟩ })
              hw rfl
            have h1 : holdsJob i true w = false := by simp [holdsJob, hbf]
            have h2 : holdsJob i false (⟨some f, true, true⟩ : Worker Fn V E) = false := by simp [holdsJob]
            have h3 : holdsJob i true (⟨some f, true, true⟩ : Worker Fn V E) = (f.id == i) := by simp [holdsJob]
            rw [h1, h2, h3] at hs
            have hin : inCount i s = inCount i { s with input := rest, workers := s.workers.set pid ⟨some f, true, true⟩ }
                + if (f.id == i) = true then 1 else 0 := by
              unfold inCount
              rw [hi, List.countP_cons]
            simp only [Bool.false_eq_true, if_false] at hs
            by_cases hf : (f.id == i) = true
            · rw [if_pos hf] at hin hs
              exact .take rfl (by omega) (by omega) le_rfl (by omega)
            · rw [if_neg hf] at hin hs
              exact .less rfl (by omega) (by omega) le_rfl (by omega)
      | takeFails =>
        dsimp only
        split
        · exact stay
        · rename_i hb
          have hbf : w.busy = false := by simpa using hb
          cases hi : s.input with
          | nil => exact stay
          | cons f rest =>
            dsimp only
            have hsub : rest.Sublist s.input := by rw [hi]; exact List.sublist_cons_self _ _
            cases hc : w.cur with
            | none =>
              have k := kill rest s.commands hsub
              rw [hc] at k
              exact k
            | some g =>
              dsimp only
              have hs := moves_set (i := i) (s' := { s with
                input := rest
                output := s.output ++ [{ g with result := none, exception := some .memory }]
                workers := s.workers.set pid ⟨some { g with result := none, exception := some .memory }, false, true⟩ })
                hw rfl
              have h1 : holdsJob i true w = false := by simp [holdsJob, hbf]
              have h2 : holdsJob i true (⟨some { g with result := none, exception := some .memory }, false, true⟩ :
                Worker Fn V E) = false := by simp [holdsJob]
              have h3 : holdsJob i false w = (g.id == i) := by simp [holdsJob, hbf, ha, hc]
              have h4 : holdsJob i false (⟨some { g with result := none, exception := some .memory }, false, true⟩ :
                Worker Fn V E) = (g.id == i) := by simp [holdsJob]
              rw [h1, h2, h3, h4] at hs
              simp only [Bool.false_eq_true, if_false] at hs
              by_cases hg : (g.id == i) = true
              · have hidle : 0 < idleCount i s :=
                  List.countP_pos_iff.2 ⟨w, List.mem_of_getElem? hw, h3.trans hg⟩
                exact .again rfl hsub.countP_le (by omega) hidle
              · refine .less rfl hsub.countP_le (by omega) ?_ (by omega)
                unfold outCount
                rw [List.countP_append]
                simp [hg]
      | finish ω =>
        dsimp only
        split
        · rename_i hb
          cases hc : w.cur with
          | none => exact stay
          | some f =>
            dsimp only
            cases hr : (execute J f s.defaults ω).bind (inspectResult J) with
            | none =>
              have k := kill s.input s.commands (List.Sublist.refl _)
              rw [hc] at k
              exact k
            | some f' =>
              dsimp only
              have hid : f'.id = f.id := by
                obtain ⟨g, hg, hg'⟩ := Option.bind_eq_some_iff.1 hr
                have e1 : g.id = f.id := by
                  unfold execute at hg
                  split at hg <;> first | (injection hg with hg; rw [← hg]) | cases hg
                have e2 : f'.id = g.id := by
                  unfold inspectResult at hg'
                  split at hg'
                  · injection hg' with hg'; rw [← hg']
                  · split at hg' <;> first | (injection hg' with hg'; rw [← hg']) | cases hg'
                exact e2.trans e1
              have hs := moves_set (i := i) (s' := { s with
                output := s.output ++ [f']
                workers := s.workers.set pid ⟨some f', false, true⟩ }) hw rfl
              have h1 : holdsJob i true w = (f.id == i) := by simp [holdsJob, hb, ha, hc]
              have h2 : holdsJob i true (⟨some f', false, true⟩ : Worker Fn V E) = false := by simp [holdsJob]
              have h3 : holdsJob i false w = false := by simp [holdsJob, hb]
              have h4 : holdsJob i false (⟨some f', false, true⟩ : Worker Fn V E) = (f.id == i) := by simp [holdsJob, hid]
              rw [h1, h2, h3, h4] at hs
              simp only [Bool.false_eq_true, if_false] at hs
              by_cases hg : (f.id == i) = true
              · rw [if_pos hg] at hs
                exact .finish rfl (List.Sublist.refl _).countP_le (by omega)
              · rw [if_neg hg] at hs
                refine .less rfl (List.Sublist.refl _).countP_le (by omega) ?_ (by omega)
                unfold outCount
                rw [List.countP_append]
                simp [hid, hg]
        · exact stay
    · rw [if_neg ha]
      exact stay

theorem moves_step (J : Jobs Fn V E Ω) (i : Nat) (s : Evaluator Fn V E) (e : AsyncEvent Fn V Ω) :
    JobMoves i s (asyncStep J s e).2 := by
  have stay : JobMoves i s s := moves_of_fewer (Fewer.refl i s) rfl (List.Sublist.refl _) (List.Sublist.refl _)
  refine step_cases (P := fun _ s' => JobMoves i s s') J s e stay ?_ ?_ (fun _ _ _ => stay) ?_ ?_
  · intro fn args kwargs _ _
    rw [submit_run]
    refine .submit rfl ?_ rfl rfl rfl
    unfold inCount
    rw [List.countP_append]
    by_cases hi : s.nextId = i
    · simp [hi]
    · simp [hi]
  · intro _ _ _
    exact moves_of_fewer ⟨le_rfl, le_rfl⟩ rfl (List.Sublist.refl _) (List.Sublist.refl _)
  · intro r₁ r₂ r₃ o b _ _
    rcases waitIteration_fewer i r₁ r₂ r₃ o s with ⟨s1, hf, hk, he⟩ | ⟨x, s1, hf, hk, he⟩
    · rw [he, pollOutput_run]
      cases ho : s1.output with
      | nil => exact moves_of_fewer ⟨hk.busy, hk.idle⟩ hf.nextId (by rw [← hf.input]) (by dsimp only; rw [hf.output])
      | cons f rest =>
        have hsub : rest.Sublist s.output := by rw [← hf.output, ho]; exact List.sublist_cons_self _ _
        dsimp only
        cases dget s1.futures f.id with
        | none => exact moves_of_fewer ⟨hk.busy, hk.idle⟩ hf.nextId (by rw [← hf.input]) hsub
        | some m => exact moves_of_fewer ⟨hk.busy, hk.idle⟩ hf.nextId (by rw [← hf.input]) hsub
    · rw [he]
      exact moves_of_fewer ⟨hk.busy, hk.idle⟩ hf.nextId (by rw [← hf.input]) (by rw [← hf.output])
  · intro pid a _
    exact moves_worker J i pid a s

theorem onePlace_entered (i n : Nat) (limit : Option ℚ) (logfile : Bool) (D : List (Str × V)) :
    OnePlace i (entered n limit logfile D : Evaluator Fn V E) := by
  obtain ⟨ws, ps, h1, -, -, he⟩ := entered_run (Fn := Fn) (E := E) n limit logfile D
  have hz : ∀ b, ws.countP (holdsJob i b) = 0 := by
    intro b
    rw [List.countP_eq_zero]
    intro w hw
    rw [h1 w hw]
    simp [holdsJob]
  rw [he]
  have e1 : ∀ s : Evaluator Fn V E, s.input = [] → s.output = [] → s.workers = ws → OnePlace i s := by
    intro s a b c
    have z1 : inCount i s = 0 := by unfold inCount; rw [a]; rfl
    have z2 : outCount i s = 0 := by unfold outCount; rw [b]; rfl
    have z3 : busyCount i s = 0 := by unfold busyCount; rw [c]; exact hz true
    have z4 : idleCount i s = 0 := by unfold idleCount; rw [c]; exact hz false
    exact ⟨by omega, fun _ => ⟨z2, z4⟩, fun _ => ⟨z1, z3, z2, z4⟩⟩
  exact e1 _ rfl rfl rfl

theorem onePlace_run (J : Jobs Fn V E Ω) (i : Nat) : ∀ (es : List (AsyncEvent Fn V Ω)) (s : Evaluator Fn V E),
    OnePlace i s → OnePlace i (asyncRun J es s).2
  | [], _, h => h
  | e :: es, s, h => onePlace_run J i es _ ((moves_step J i s e).onePlace h)

/-! ## C181 -/

/-- The event is a worker executing job `i`. -/
def Spec.RunsJob (i : Nat) (s : Evaluator Fn V E) : AsyncEvent Fn V Ω → Prop
  | .worker pid (.finish _) => ∃ w f, s.workers[pid]? = some w ∧ w.alive = true ∧ w.busy = true ∧ w.cur = some f ∧ f.id = i
  | _ => False

/-- The event is a worker taking job `i` from the queue, which it then begins to run. -/
def Spec.BeginsJob (i : Nat) (s : Evaluator Fn V E) : AsyncEvent Fn V Ω → Prop
  | .worker pid .take => ∃ w f rest, s.workers[pid]? = some w ∧ w.alive = true ∧ w.busy = false ∧ s.input = f :: rest ∧ f.id = i
  | _ => False

/-- Of the events of a schedule `k` are such that `Q`. -/
inductive Spec.TimesOf (J : Jobs Fn V E Ω) (Q : Evaluator Fn V E → AsyncEvent Fn V Ω → Prop) :
    List (AsyncEvent Fn V Ω) → Evaluator Fn V E → Nat → Prop
  | nil (s) : TimesOf J Q [] s 0
  | yes {e es s k} : Q s e → TimesOf J Q es (asyncStep J s e).2 k → TimesOf J Q (e :: es) s (k + 1)
  | no {e es s k} : ¬ Q s e → TimesOf J Q es (asyncStep J s e).2 k → TimesOf J Q (e :: es) s k

theorem Spec.RunsJob.finish {J : Jobs Fn V E Ω} {i : Nat} {s : Evaluator Fn V E} {e : AsyncEvent Fn V Ω} (h : RunsJob i s e) :
    busyCount i (asyncStep J s e).2 + 1 = busyCount i s ∧ inCount i (asyncStep J s e).2 = inCount i s ∧
      (asyncStep J s e).2.nextId = s.nextId := by
  match e, h with
  | .worker pid (.finish ω), ⟨w, f, hw, ha, hb, hc, hf⟩ =>
    show busyCount i (workerStep J pid (.finish ω) s) + 1 = busyCount i s ∧
      inCount i (workerStep J pid (.finish ω) s) = inCount i s ∧ (workerStep J pid (.finish ω) s).nextId = s.nextId
    have h1 : holdsJob i true w = true := by simp [holdsJob, ha, hb, hc, hf]
    unfold workerStep
    rw [hw]
    dsimp only
    rw [if_pos ha, if_pos hb, hc]
    dsimp only
    cases (execute J f s.defaults ω).bind (inspectResult J) with
    | none =>
      have hs := (moves_set (i := i) (s' := { s with workers := s.workers.set pid { w with alive := false } }) hw rfl).1
      rw [h1] at hs
      have h2 : holdsJob i true { w with alive := false } = false := rfl
      rw [h2, hc] at hs
      exact ⟨by simpa using hs, rfl, rfl⟩
    | some f' =>
      have hs := (moves_set (i := i) (s' := { s with output := s.output ++ [f'], workers := s.workers.set pid ⟨some f', false, true⟩ }) hw rfl).1
      rw [h1] at hs
      have h2 : holdsJob i true (⟨some f', false, true⟩ : Worker Fn V E) = false := by simp [holdsJob]
      rw [h2] at hs
      exact ⟨by simpa using hs, rfl, rfl⟩

theorem Spec.BeginsJob.take {J : Jobs Fn V E Ω} {i : Nat} {s : Evaluator Fn V E} {e : AsyncEvent Fn V Ω} (h : BeginsJob i s e) :
    inCount i (asyncStep J s e).2 + 1 = inCount i s ∧ (asyncStep J s e).2.nextId = s.nextId := by
  match e, h with
  | .worker pid .take, ⟨w, f, rest, hw, ha, hb, hi, hf⟩ =>
    show inCount i (workerStep J pid .take s) + 1 = inCount i s ∧ (workerStep J pid .take s).nextId = s.nextId
    unfold workerStep
    rw [hw]
    dsimp only
    rw [if_pos ha, if_neg (by rw [hb]; exact Bool.false_ne_true), hi]
    refine ⟨?_, rfl⟩
    unfold inCount
    rw [hi, List.countP_cons]
    simp [hf]

theorem executed_le {J : Jobs Fn V E Ω} {i : Nat} {es : List (AsyncEvent Fn V Ω)} {s : Evaluator Fn V E} {k : Nat}
    (h : TimesOf J (RunsJob i) es s k) (hp : OnePlace i s) :
    k ≤ if s.nextId ≤ i then 1 else inCount i s + busyCount i s := by
  induction h with
  | nil s => omega
  | yes he _ ih =>
    rename_i e es s k _
    obtain ⟨h1, h2, h3⟩ := he.finish (J := J)
    have := ih ((moves_step J i s e).onePlace hp)
    have hz := hp.fresh
    split at this
    · have := hz (by omega); omega
    · rw [if_neg (by omega)]; omega
  | no _ _ ih =>
    rename_i e es s k _ _
    have hm := moves_step J i s e
    have h1 := ih (hm.onePlace hp)
    have h2 := (hm.onePlace hp).one
    have hz := hp.fresh
    cases hm with
    | less hn a b c d => rw [hn] at h1; split at h1 <;> split <;> omega
    | submit hn a b c d =>
      rw [hn] at h1
      split at a <;> split at h1 <;> split <;> omega
    | take hn a b c d => rw [hn] at h1; split at h1 <;> split <;> omega
    | finish hn a b => rw [hn] at h1; split at h1 <;> split <;> omega
    | again hn a b d => rw [hn] at h1; split at h1 <;> split <;> omega

theorem begun_le {J : Jobs Fn V E Ω} {i : Nat} {es : List (AsyncEvent Fn V Ω)} {s : Evaluator Fn V E} {k : Nat}
    (h : TimesOf J (BeginsJob i) es s k) (hp : OnePlace i s) : k ≤ if s.nextId ≤ i then 1 else inCount i s := by
  induction h with
  | nil s => omega
  | yes he _ ih =>
    rename_i e es s k _
    obtain ⟨h1, h3⟩ := he.take (J := J)
    have := ih ((moves_step J i s e).onePlace hp)
    have hz := hp.fresh
    split at this
    · have := hz (by omega); omega
    · rw [if_neg (by omega)]; omega
  | no _ _ ih =>
    rename_i e es s k _ _
    have hm := moves_step J i s e
    have h1 := ih (hm.onePlace hp)
    have h2 := (hm.onePlace hp).one
    have hz := hp.fresh
    cases hm with
    | less hn a b c d => rw [hn] at h1; split at h1 <;> split <;> omega
    | submit hn a b c d =>
      rw [hn] at h1
      split at a <;> split at h1 <;> split <;> omega
    | take hn a b c d => rw [hn] at h1; split at h1 <;> split <;> omega
    | finish hn a b => rw [hn] at h1; split at h1 <;> split <;> omega
    | again hn a b d => rw [hn] at h1; split at h1 <;> split <;> omega

/-- **C181** Whatever happens to the workers, no job is begun twice, and none is run to its end twice. -/
theorem C181_once (J : Jobs Fn V E Ω) (n : Nat) (limit : Option ℚ) (logfile : Bool) (D : List (Str × V))
    (es : List (AsyncEvent Fn V Ω)) (i : Nat) :
    (∀ k, TimesOf J (BeginsJob i) es (entered n limit logfile D) k → k ≤ 1) ∧
    ∀ k, TimesOf J (RunsJob i) es (entered n limit logfile D) k → k ≤ 1 := by
  have hp := onePlace_entered (Fn := Fn) (E := E) i n limit logfile D
  have hone := hp.one
  refine ⟨fun k h => ?_, fun k h => ?_⟩
  · have := begun_le h hp
    split at this <;> omega
  · have := executed_le h hp
    split at this <;> omega

/-- The numbers are always defined. -/
theorem times_total (J : Jobs Fn V E Ω) (Q : Evaluator Fn V E → AsyncEvent Fn V Ω → Prop) :
    ∀ (es : List (AsyncEvent Fn V Ω)) (s : Evaluator Fn V E), ∃ k, TimesOf J Q es s k
  | [], s => ⟨0, .nil s⟩
  | e :: es, s => by
    obtain ⟨k, hk⟩ := times_total J Q es (asyncStep J s e).2
    by_cases h : Q s e
    · exact ⟨k + 1, .yes h hk⟩
    · exact ⟨k, .no h hk⟩

/-! ## C29 and C31, otherwise -/

/-- Job `i` was submitted, and is neither in a queue nor at a worker that runs. -/
structure Absent (i : Nat) (s : Evaluator Fn V E) : Prop where
  old : i < s.nextId
  inp : inCount i s = 0
  busy : busyCount i s = 0
  out : outCount i s = 0
  idle : idleCount i s = 0

theorem Absent.step {J : Jobs Fn V E Ω} {D : List (Str × V)} {tr : List (AsyncObs Fn V E)} {i : Nat} {s : Evaluator Fn V E}
    (h : Absent i s) (hg : Good J D tr s) (e : AsyncEvent Fn V Ω) :
    Absent i (asyncStep J s e).2 ∧ ∀ f, (asyncStep J s e).1 = .returned f → f.id ≠ i := by
  obtain ⟨a, b, c, d, f⟩ := h
  refine ⟨?_, ?_⟩
  · have hm := moves_step J i s e
    cases hm with
    | less hn h1 h2 h3 h4 => exact ⟨by omega, by omega, by omega, by omega, by omega⟩
    | submit hn h1 h2 h3 h4 =>
      rw [if_neg (by omega)] at h1
      exact ⟨by omega, by omega, by omega, by omega, by omega⟩
    | take hn h1 h2 h3 h4 => omega
    | finish hn h1 h2 => omega
    | again hn h1 h2 h4 => omega
  · refine step_cases (P := fun o _ => ∀ f, o = .returned f → f.id ≠ i) J s e (by simp) (by simp) (by simp) (by simp) ?_ (by simp)
    intro r₁ r₂ r₃ o b' _ _ g hgr
    rcases waitIteration_fewer i r₁ r₂ r₃ o s with ⟨s1, hf, hk, he⟩ | ⟨x, s1, hf, hk, he⟩
    · rw [he, pollOutput_run] at hgr
      cases ho : s1.output with
      | nil => rw [ho] at hgr; cases hgr
      | cons f0 rest =>
        rw [ho] at hgr
        dsimp only at hgr
        cases hd : dget s1.futures f0.id with
        | none => rw [hd] at hgr; cases hgr
        | some m =>
          rw [hd] at hgr
          have hid : g.id = m.id := by
            have hgr' : AsyncObs.returned { m with result := f0.result, exception := f0.exception } = .returned g := hgr
            injection hgr' with hgr'
            rw [← hgr']
          rw [hf.futures] at hd
          have hm := (hg.pend _ _ (dget_mem hd)).1
          rw [hid, hm]
          intro hx
          rw [hf.output] at ho
          have := List.countP_eq_zero.1 d f0 (by rw [ho]; exact List.mem_cons_self)
          simp [hx] at this
    · rw [he] at hgr
      cases hgr

theorem Absent.run {J : Jobs Fn V E Ω} {D : List (Str × V)} {i : Nat} : ∀ (es : List (AsyncEvent Fn V Ω))
    {tr : List (AsyncObs Fn V E)} {s : Evaluator Fn V E}, Absent i s → Good J D tr s →
    ∀ f, .returned f ∈ (asyncRun J es s).1 → f.id ≠ i
  | [], _, _, _, _, f, hf => by simp [asyncRun] at hf
  | e :: es, tr, s, h, hg, f, hf => by
    obtain ⟨h1, h2⟩ := h.step hg e
    rcases List.mem_cons.1 hf with hf | hf
    · exact h2 f hf.symm
    · exact Absent.run es h1 (hg.step e) f hf

/-- A job that was returned is not run any more. -/
theorem returned_over {J : Jobs Fn V E Ω} {D : List (Str × V)} {i : Nat} : ∀ (es : List (AsyncEvent Fn V Ω))
    {tr : List (AsyncObs Fn V E)} {s : Evaluator Fn V E}, OnePlace i s → Good J D tr s →
    ((∃ f, .returned f ∈ tr ∧ f.id = i) → inCount i s + busyCount i s = 0 ∧ i < s.nextId) →
    (∃ f, .returned f ∈ tr ++ (asyncRun J es s).1 ∧ f.id = i) →
      inCount i (asyncRun J es s).2 + busyCount i (asyncRun J es s).2 = 0
  | [], tr, s, _, _, h, hr => by
    simp only [asyncRun, List.append_nil] at hr ⊢
    exact (h hr).1
  | e :: es, tr, s, hp, hg, h, hr => by
    have hm := moves_step J i s e
    refine returned_over es (hm.onePlace hp) (hg.step e) ?_ (by simpa [asyncRun] using hr)
    have keep : inCount i s + busyCount i s = 0 ∧ i < s.nextId →
        inCount i (asyncStep J s e).2 + busyCount i (asyncStep J s e).2 = 0 ∧ i < (asyncStep J s e).2.nextId := by
      rintro ⟨a, b⟩
      cases hm with
      | less hn h1 h2 h3 h4 => exact ⟨by omega, by omega⟩
      | submit hn h1 h2 h3 h4 =>
        rw [if_neg (by omega)] at h1
        exact ⟨by omega, by omega⟩
      | take hn h1 h2 h3 h4 => omega
      | finish hn h1 h2 => omega
      | again hn h1 h2 h4 => exact ⟨by omega, by omega⟩
    rintro ⟨f, hf, hi⟩
    rcases List.mem_append.1 hf with hf | hf
    · exact keep (h ⟨f, hf, hi⟩)
    · simp only [List.mem_singleton] at hf
      refine keep ?_
      by_contra hx
      have hpos : i < s.nextId → 0 < inCount i s + busyCount i s := fun hlt => by
        by_contra h0
        exact hx ⟨by omega, hlt⟩
      -- the poll finds it in the output
      have hpoll : 0 < outCount i s := by
        revert hf
        refine step_cases (P := fun o _ => .returned f = o → 0 < outCount i s) J s e (by simp) (by simp) (by simp) (by simp) ?_
          (by simp)
        intro r₁ r₂ r₃ o b' _ _ hgr
        rcases waitIteration_fewer i r₁ r₂ r₃ o s with ⟨s1, hfr, hk, he⟩ | ⟨x, s1, hfr, hk, he⟩
        · rw [he, pollOutput_run] at hgr
          cases ho : s1.output with
          | nil => rw [ho] at hgr; cases hgr
          | cons f0 rest =>
            rw [ho] at hgr
            dsimp only at hgr
            cases hd : dget s1.futures f0.id with
            | none => rw [hd] at hgr; cases hgr
            | some m =>
              rw [hd] at hgr
              have hid : f.id = m.id := by
                have hgr' : AsyncObs.returned f = .returned { m with result := f0.result, exception := f0.exception } := hgr
                injection hgr' with hgr'
                rw [hgr']
              rw [hfr.futures] at hd
              have hmm := (hg.pend _ _ (dget_mem hd)).1
              rw [hfr.output] at ho
              refine List.countP_pos_iff.2 ⟨f0, by rw [ho]; exact List.mem_cons_self, ?_⟩
              rw [← hi, hid, hmm]
              simp
        · rw [he] at hgr
          cases hgr
      by_cases hlt : i < s.nextId
      · have := hp.quiet (hpos hlt)
        omega
      · have := hp.fresh (by omega)
        omega

/-- Every submitted job is known to the main process until it is returned. -/
theorem known_run {J : Jobs Fn V E Ω} {D : List (Str × V)} : ∀ (es : List (AsyncEvent Fn V Ω))
    {tr : List (AsyncObs Fn V E)} {s : Evaluator Fn V E}, Good J D tr s →
    (∀ j, .submitted j ∈ tr → Key s j.id ∨ ∃ f, .returned f ∈ tr ∧ f.id = j.id) →
    ∀ j, .submitted j ∈ tr ++ (asyncRun J es s).1 → Key (asyncRun J es s).2 j.id ∨
      ∃ f, .returned f ∈ tr ++ (asyncRun J es s).1 ∧ f.id = j.id
  | [], tr, s, _, h => by simpa [asyncRun] using h
  | e :: es, tr, s, hg, h => by
    have hstep : ∀ j, .submitted j ∈ tr ++ [(asyncStep J s e).1] → Key (asyncStep J s e).2 j.id ∨
        ∃ f, .returned f ∈ tr ++ [(asyncStep J s e).1] ∧ f.id = j.id := by
      have old : ∀ (o : AsyncObs Fn V E) (s' : Evaluator Fn V E), s'.futures = s.futures →
          (∀ f, o ≠ .submitted f) → ∀ j, AsyncObs.submitted j ∈ tr ++ [o] →
          Key s' j.id ∨ ∃ f, AsyncObs.returned f ∈ tr ++ [o] ∧ f.id = j.id := by
        intro o s' hs ho j hj
        rcases List.mem_append.1 hj with hj | hj
        · refine (h j hj).imp (fun hk => by unfold Key; rw [hs]; exact hk) ?_
          rintro ⟨f, hf, e⟩
          exact ⟨f, List.mem_append_left _ hf, e⟩
        · simp at hj
          exact absurd hj.symm (ho j)
      refine step_cases (P := fun o s' => ∀ j, AsyncObs.submitted j ∈ tr ++ [o] →
          Key s' j.id ∨ ∃ f, AsyncObs.returned f ∈ tr ++ [o] ∧ f.id = j.id) J s e
        (old _ s rfl (by simp)) ?_ (fun _ _ _ => old _ _ rfl (by simp)) (fun _ _ _ => old _ s rfl (by simp)) ?_
        (fun pid a _ => old _ _ (workerStep_frame pid a).1 (by simp))
      · intro fn args kwargs _ _ j hj
        rw [submit_run]
        rcases List.mem_append.1 hj with hj | hj
        · refine (h j hj).imp (fun hk => mem_keys_dset.2 (Or.inr hk)) ?_
          rintro ⟨f, hf, e⟩
          exact ⟨f, List.mem_append_left _ hf, e⟩
        · simp at hj
          subst hj
          exact Or.inl (mem_keys_dset.2 (Or.inl rfl))
      · intro r₁ r₂ r₃ o b _ _
        rcases waitIteration_split r₁ r₂ r₃ o s with ⟨s1, hf, he⟩ | ⟨x, s1, hf, he⟩
        · rw [he, pollOutput_run]
          cases ho : s1.output with
          | nil => exact old _ _ hf.futures (by simp [pollObs])
          | cons f rest =>
            dsimp only
            cases hd : dget s1.futures f.id with
            | none => exact old _ _ hf.futures (by simp [pollObs])
            | some m =>
              intro j hj
              have hd' : dget s.futures f.id = some m := by rw [← hf.futures]; exact hd
              have hmid := (hg.pend _ _ (dget_mem hd')).1
              have hj : AsyncObs.submitted j ∈ tr := by
                rcases List.mem_append.1 hj with hj | hj
                · exact hj
                · simp [pollObs] at hj
              by_cases e : j.id = f.id
              · refine Or.inr ⟨_, List.mem_append_right _ (by simp only [pollObs]; exact List.mem_cons_self), ?_⟩
                rw [e]; exact hmid
              · refine (h j hj).imp (fun hk => ?_) ?_
                · unfold Key
                  dsimp only
                  rw [hf.futures]
                  have : dget s.futures j.id ≠ none := fun hn => dget_eq_none.1 hn hk
                  have h' : dget (ddel s.futures f.id) j.id ≠ none := by
                    rw [dget_ddel hg.dict, if_neg (fun h => e h.symm)]
                    exact this
                  by_contra hx
                  exact h' (dget_eq_none.2 hx)
                · rintro ⟨g, hg', e⟩
                  exact ⟨g, List.mem_append_left _ hg', e⟩
        · rw [he]
          exact old _ _ hf.futures (by simp [pollObs])
    have := known_run es (hg.step e) hstep
    simpa [asyncRun] using this

/-- **C29**, otherwise: a job that is not accounted for is never returned, whatever happens afterwards. -/
theorem C29_otherwise (J : Jobs Fn V E Ω) (n : Nat) (limit : Option ℚ) (logfile : Bool) (D : List (Str × V))
    (es es' : List (AsyncEvent Fn V Ω)) (j : Future Fn V E)
    (hj : .submitted j ∈ (asyncRun J es (entered n limit logfile D)).1)
    (hn : ¬ Accounted (asyncRun J es (entered n limit logfile D)).1 (asyncRun J es (entered n limit logfile D)).2 j) :
    ∀ f, .returned f ∈ (asyncRun J (es ++ es') (entered n limit logfile D)).1 → f.id ≠ j.id := by
  have hg0 := good_entered (Fn := Fn) (E := E) J n limit logfile D
  have hg := hg0.run es
  rw [List.nil_append] at hg
  have hk := known_run es hg0 (by simp) j (by simpa using hj)
  rw [List.nil_append] at hk
  have hkey : Key (asyncRun J es (entered n limit logfile D)).2 j.id := by
    rcases hk with hk | hk
    · exact hk
    · exact absurd (.inl hk) hn
  have hout : ∀ f ∈ (asyncRun J es (entered n limit logfile D)).2.output, f.id ≠ j.id := fun f hf he =>
    hn (.inr (.inr (.inl ⟨f, hf, he⟩)))
  have habs : Absent j.id (asyncRun J es (entered n limit logfile D)).2 := by
    refine ⟨(hg.blank j hj).2.2, ?_, ?_, ?_, ?_⟩
    · refine List.countP_eq_zero.2 fun f hf hx => ?_
      have := hg.subs f j (hg.input f hf) hj (by simpa using hx)
      subst this
      exact hn (.inr (.inl hf))
    · refine List.countP_eq_zero.2 fun w hw hx => ?_
      simp only [holdsJob, Bool.and_eq_true, beq_iff_eq, Option.any_eq_true] at hx
      obtain ⟨⟨ha, hb⟩, f, hc, hi⟩ := hx
      obtain ⟨f', hc', hs⟩ := hg.busy w hw hb
      rw [hc] at hc'
      injection hc' with hc'
      subst hc'
      have := hg.subs f j hs hj hi
      subst this
      exact hn (.inr (.inr (.inr ⟨w, hw, ha, hb, hc⟩)))
    · exact List.countP_eq_zero.2 fun f hf hx => hout f hf (by simpa using hx)
    · refine List.countP_eq_zero.2 fun w hw hx => ?_
      simp only [holdsJob, Bool.and_eq_true, beq_iff_eq, Option.any_eq_true] at hx
      obtain ⟨⟨ha, hb⟩, f, hc, hi⟩ := hx
      rcases (hg.idle w hw hb f hc).2 with h | ⟨g, hg', e, -⟩
      · rw [hi] at h
        exact h hkey
      · exact hout g hg' (e.trans hi)
  intro f hf
  rw [asyncRun_append] at hf
  rcases List.mem_append.1 hf with hf | hf
  · exact fun he => hn (.inl ⟨f, hf, he⟩)
  · exact Absent.run es' habs hg f hf

/-- **C31**, otherwise: what is no `Exception` ends the worker that runs the job, and only that worker; the job is never
returned, whatever happens afterwards. -/
theorem C31_otherwise (J : Jobs Fn V E Ω) (n : Nat) (limit : Option ℚ) (logfile : Bool)
    (D : List (Str × V)) (es es' : List (AsyncEvent Fn V Ω)) (pid : Nat) (w : Worker Fn V E)
    (f : Future Fn V E) (ω : Ω) (s s' : Evaluator Fn V E)
    (hs : s = (asyncRun J es (entered n limit logfile D)).2)
    (hw : s.workers[pid]? = some w) (ha : w.alive = true) (hb : w.busy = true)
    (hf : w.cur = some f)
    (hr : ∀ kw, KwargsFrom f.kwargs D kw → J.call f.fn f.args kw ω = .escapes)
    (hs' : s' = workerStep J pid (.finish ω) s) :
    (∃ w', s'.workers[pid]? = some w' ∧ w'.alive = false) ∧ (∀ q, q ≠ pid → s'.workers[q]? = s.workers[q]?) ∧
      s'.input = s.input ∧ s'.output = s.output ∧ s'.futures = s.futures ∧ s'.procs = s.procs ∧
      ∀ g, .returned g ∈ (asyncRun J (es ++ .worker pid (.finish ω) :: es') (entered n limit logfile D)).1 → g.id ≠ f.id := by
  have hg0 := good_entered (Fn := Fn) (E := E) J n limit logfile D
  have hg := hg0.run es
  rw [List.nil_append, ← hs] at hg
  obtain ⟨g, hcur, hsub⟩ := hg.busy w (List.mem_of_getElem? hw) hb
  have : g = f := by rw [hf] at hcur; injection hcur with h; exact h.symm
  subst this
  have hex : execute J g s.defaults ω = none := by
    unfold execute
    rw [hg.defaults, hr _ (kwargsFrom_merge _ _)]
  have hstep : workerStep J pid (.finish ω) s = { s with workers := s.workers.set pid { w with alive := false } } := by
    unfold workerStep
    rw [hw]
    dsimp only
    rw [if_pos ha, if_pos hb, hf]
    dsimp only
    rw [hex, Option.bind_none]
  have hlt : pid < s.workers.length := by
    by_contra hn
    rw [List.getElem?_eq_none (Nat.le_of_not_lt hn)] at hw
    cases hw
  have hp : OnePlace g.id s := by
    rw [hs]
    exact onePlace_run J g.id es _ (onePlace_entered g.id n limit logfile D)
  have hE : RunsJob g.id s (.worker pid (.finish ω) : AsyncEvent Fn V Ω) := ⟨w, g, hw, ha, hb, hf, rfl⟩
  obtain ⟨c1, c2, c3⟩ := hE.finish (J := J)
  have hz := hp.quiet (by omega)
  have hone := hp.one
  have habs : Absent g.id s' := by
    rw [hs']
    refine ⟨?_, ?_, ?_, ?_, ?_⟩
    · have : (workerStep J pid (.finish ω) s).nextId = s.nextId := c3
      rw [this]
      exact (hg.blank g hsub).2.2
    · have : inCount g.id (workerStep J pid (.finish ω) s) = inCount g.id s := c2
      omega
    · have : busyCount g.id (workerStep J pid (.finish ω) s) + 1 = busyCount g.id s := c1
      omega
    · rw [hstep]
      exact hz.1
    · rw [hstep]
      have := (moves_set (i := g.id) (s' := { s with workers := s.workers.set pid { w with alive := false } }) hw rfl).2
      have hd : holdsJob g.id false { w with alive := false } = false := rfl
      rw [hd] at this
      simp only [Bool.false_eq_true, if_false] at this
      omega
  have hg1 := hg.step (.worker pid (.finish ω))
  have hes : (asyncStep J s (.worker pid (.finish ω))).2 = s' := hs'.symm
  rw [hes] at hg1
  refine ⟨⟨{ w with alive := false }, ?_, rfl⟩, fun q hq => ?_, ?_, ?_, ?_, ?_, ?_⟩
  · rw [hs', hstep]; exact List.getElem?_set_self hlt
  · rw [hs', hstep]; exact List.getElem?_set_ne (fun h => hq h.symm)
  · rw [hs', hstep]
  · rw [hs', hstep]
  · rw [hs', hstep]
  · rw [hs', hstep]
  · intro x hx
    rw [asyncRun_append, ← hs] at hx
    rcases List.mem_append.1 hx with hx | hx
    · intro he
      have h0 := returned_over (i := g.id) es (onePlace_entered g.id n limit logfile D) hg0 (by simp)
        ⟨x, by simpa using hx, he⟩
      rw [← hs] at h0
      omega
    · rcases List.mem_cons.1 hx with hx | hx
      · cases hx
      · rw [hes] at hx
        exact Absent.run es' habs hg1 x hx

end

/-- A job that is begun, and run to its end, once. -/
example : TimesOf Ex.jobs (BeginsJob 0) [.submit 0 [4] [], .worker 0 .take, .worker 0 (.finish ())] (Ex.pool 1 none) 1 ∧
    TimesOf Ex.jobs (RunsJob 0) [.submit 0 [4] [], .worker 0 .take, .worker 0 (.finish ())] (Ex.pool 1 none) 1 :=
  ⟨.no (fun h => h) (.yes ⟨_, _, _, rfl, rfl, rfl, rfl, rfl⟩ (.no (fun h => h) (.nil _))),
    .no (fun h => h) (.no (fun h => h) (.yes ⟨_, _, rfl, rfl, rfl, rfl, rfl⟩ (.nil _)))⟩

/-- The job of the worker that was stopped is not returned by any schedule that goes on from there. -/
example (es' : List (AsyncEvent Nat Nat Unit)) (f : Future Nat Nat Nat)
    (hf : .returned f ∈ (asyncRun Ex.jobs (Ex.noError ++ es') (Ex.pool 1 none)).1) : f.id ≠ 0 := by
  refine C29_otherwise Ex.jobs 1 none false [] Ex.noError es' ⟨0, 0, [7], [], none, none⟩ ?_ ?_ f hf
  · have : (asyncRun Ex.jobs Ex.noError (entered 1 none false [])).1 =
        AsyncObs.submitted ⟨0, 0, [7], [], none, none⟩ ::
          (asyncRun Ex.jobs Ex.noError (entered 1 none false [])).1.tail := rfl
    rw [this]; exact List.mem_cons_self
  · exact not_accounted (by decide +kernel) (by decide +kernel) (by decide +kernel) (by decide +kernel)

/-- A job that exits its process. -/
example (es' : List (AsyncEvent Nat Nat Unit)) (g : Future Nat Nat Nat)
    (hg : .returned g ∈ (asyncRun Ex.jobs (Ex.exiting ++ .worker 0 (.finish ()) :: es') (Ex.pool 1 none)).1) : g.id ≠ 0 :=
  (C31_otherwise Ex.jobs 1 none false [] Ex.exiting es' 0 ⟨some ⟨0, 2, [3], [], none, none⟩, true, true⟩
    ⟨0, 2, [3], [], none, none⟩ () _ _ rfl rfl rfl rfl rfl (by intro kw _; rfl) rfl).2.2.2.2.2.2 g hg

end Gama
