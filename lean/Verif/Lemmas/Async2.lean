import Verif.Lemmas.Async
import Mathlib.Data.List.Perm.Basic

/-! # The asynchronous evaluator: jobs and processes -/

namespace Gama
open PyM Spec

section
variable {Fn V E Ω : Type}

/-! ## No job is lost by the queues -/

/-- The job a worker is working on (a worker that was ended keeps it). -/
def Worker.job (w : Worker Fn V E) : Option (Future Fn V E) := if w.busy then w.cur else none

/-- Ids of the jobs in the queues and at the workers. -/
def inFlight (s : Evaluator Fn V E) : List Nat :=
  (s.input ++ s.workers.filterMap Worker.job ++ s.output).map Future.id

theorem filterMap_set {α β : Type} (g : α → Option β) :
    ∀ (l : List α) (i : Nat) (w w' : α), l[i]? = some w →
      ((g w).toList ++ (l.set i w').filterMap g).Perm ((g w').toList ++ l.filterMap g) := by
  intro l
  induction l with
  | nil => intro i w w' h; simp at h
  | cons x l ih =>
    intro i w w' h
    cases i with
    | zero =>
      simp at h
      subst h
      rw [List.set_cons_zero, List.filterMap_cons, List.filterMap_cons]
      cases h1 : g w' <;> cases h2 : g x <;> simp
      exact List.Perm.swap _ _ _
    | succ i =>
      rw [List.set_cons_succ, List.filterMap_cons, List.filterMap_cons]
      have := ih i w w' (by simpa using h)
      cases h1 : g x with
      | none => exact this
      | some y =>
        dsimp only
        refine (List.perm_middle).trans ((this.cons y).trans ?_)
        exact List.perm_middle.symm

theorem filterMap_job_set_same {l : List (Worker Fn V E)} {i : Nat} {w w' : Worker Fn V E}
    (h : l[i]? = some w) (hj : w'.job = w.job) :
    (l.set i w').filterMap Worker.job = l.filterMap Worker.job := by
  induction l generalizing i with
  | nil => rfl
  | cons x l ih =>
    cases i with
    | zero =>
      simp at h
      subst h
      rw [List.set_cons_zero, List.filterMap_cons, List.filterMap_cons, hj]
    | succ i =>
      rw [List.set_cons_succ, List.filterMap_cons, List.filterMap_cons,
        ih (by simpa using h)]

theorem filterMap_kill (s : Evaluator Fn V E) (pid : Nat) :
    (kill s pid).filterMap Worker.job = s.workers.filterMap Worker.job := by
  unfold kill
  cases h : s.workers[pid]? with
  | none => rfl
  | some w => exact filterMap_job_set_same h rfl

theorem jobs_start (s : Evaluator Fn V E) :
    (startWorker s).2.workers.filterMap Worker.job = s.workers.filterMap Worker.job := by
  show (s.workers ++ [_]).filterMap Worker.job = _
  rw [List.filterMap_append]
  simp [Worker.job]

abbrev SameJobs (s s' : Evaluator Fn V E) : Prop :=
  s'.workers.filterMap Worker.job = s.workers.filterMap Worker.job

theorem wp_jobs_stop (pid : Nat) (o : StopOutcome) (s : Evaluator Fn V E) :
    wp (stopWorker pid o) (fun _ s' => SameJobs s s') (fun _ s' => SameJobs s s') s := by
  cases o with
  | ok =>
    simp only [stopWorker, removeProc, wp_bind, wp_modify, wp_get, wp_ite]
    exact ⟨fun _ => filterMap_kill s pid, fun _ => filterMap_kill s pid⟩
  | gone => exact filterMap_kill s pid
  | timeout => exact rfl

theorem wp_jobs_usage (r : Readings) : ∀ (ps : List Nat) (s : Evaluator Fn V E),
    wp (usageLoop r ps) (fun _ s' => SameJobs s s') (fun _ s' => SameJobs s s') s := by
  intro ps
  induction ps with
  | nil => intro s; exact (rfl : SameJobs s s)
  | cons p ps ih =>
    intro s
    unfold usageLoop
    cases r.worker p with
    | some mb =>
      simp only [wp_bind]
      refine wp_mono ?_ (fun _ _ h => h) (ih s)
      intro _ s' h
      exact wp_pure.2 h
    | none =>
      simp only [wp_bind, wp_modify, startWorker]
      let t : Evaluator Fn V E :=
        { s with workers := kill s p, procs := s.procs.filter fun q => q != p }
      have h2 : SameJobs s (startWorker t).2 := (jobs_start t).trans (filterMap_kill s p)
      exact wp_mono (fun _ _ h => h.trans h2) (fun _ _ h => h.trans h2) (ih _)

theorem wp_jobs_log (r : Readings) (s : Evaluator Fn V E) :
    wp (logUsage r) (fun _ s' => SameJobs s s') (fun _ s' => SameJobs s s') s := by
  simp only [logUsage, wp_bind, wp_get, memoryUsage, wp_ite]
  refine ⟨fun _ => ?_, fun _ => (rfl : SameJobs s s)⟩
  exact wp_mono (fun _ _ h => wp_pure.2 h) (fun _ _ h => h) (wp_jobs_usage r _ s)

theorem wp_jobs_restart (pid : Nat) (o : StopOutcome) (s : Evaluator Fn V E) :
    wp (restartOrKill pid o) (fun _ s' => SameJobs s s') (fun _ s' => SameJobs s s') s := by
  simp only [restartOrKill, wp_bind, wp_get, wp_ite]
  refine ⟨fun _ => ?_, fun _ => ?_⟩
  · refine wp_mono ?_ (fun _ _ h => h) (wp_jobs_stop pid o s)
    intro _ s' h
    exact (jobs_start s').trans h
  · simp only [wp_modify]
    exact wp_jobs_stop pid o { s with behaved := 0, violations := 0 }

theorem wp_jobs_control (r r' : Readings) (o : StopOutcome) (s : Evaluator Fn V E) :
    wp (controlMemory r r' o) (fun _ s' => SameJobs s s') (fun _ s' => SameJobs s s') s := by
  simp only [controlMemory, wp_bind, wp_get]
  cases s.limit with
  | none => exact (rfl : SameJobs s s)
  | some limit =>
    simp only [wp_bind, memoryUsage, wp_get]
    refine wp_mono ?_ (fun _ _ h => h) (wp_jobs_usage r _ s)
    intro usage s1 h1
    rw [wp_ite]
    refine ⟨fun _ => ?_, fun _ => h1⟩
    simp only [wp_bind]
    refine wp_mono ?_ (fun _ _ h => h.trans h1) (wp_jobs_log r' s1)
    intro _ s2 h2
    simp only [wp_modify]
    cases maxUsage usage with
    | none => exact h2.trans h1
    | some x =>
      exact wp_mono (fun _ _ h => h.trans (h2.trans h1)) (fun _ _ h => h.trans (h2.trans h1))
        (wp_jobs_restart x.1 o { s2 with violations := s2.violations + 1 })

/-- A schedule in which no worker fails to receive a job. -/
def NoTakeFails (es : List (AsyncEvent Fn V Ω)) : Prop :=
  ∀ pid, AsyncEvent.worker pid .takeFails ∉ es

/-- The unreturned jobs are exactly those in the queues and at the workers. -/
def Conserved (s : Evaluator Fn V E) : Prop := (inFlight s).Perm (s.futures.map Prod.fst)

theorem Conserved.frame {s s' : Evaluator Fn V E} (h : Conserved s) (hf : Frame s s')
    (hj : SameJobs s s') : Conserved s' := by
  unfold Conserved inFlight at *
  rw [hf.input, hf.output, hj, hf.futures]
  exact h

theorem map_fst_ddel {d : List (Nat × Future Fn V E)} (hd : DictOK d) {k : Nat}
    (h : k ∈ d.map Prod.fst) : (k :: (ddel d k).map Prod.fst).Perm (d.map Prod.fst) := by
  induction d with
  | nil => simp at h
  | cons x d ih =>
    obtain ⟨a, w⟩ := x
    have hd' : a ∉ d.map Prod.fst ∧ (d.map Prod.fst).Nodup := by
      have : (a :: d.map Prod.fst).Nodup := hd
      exact List.nodup_cons.1 this
    unfold ddel
    by_cases e : a = k
    · subst e; rw [if_pos rfl]; exact List.Perm.refl _
    · rw [if_neg e]
      have hk : k ∈ d.map Prod.fst := by
        rcases List.mem_cons.1 h with h | h
        · exact absurd h.symm e
        · exact h
      exact (List.Perm.swap _ _ _).trans ((ih hd'.2 hk).cons a)

theorem Conserved.poll {s : Evaluator Fn V E} (h : Conserved s) (hd : DictOK s.futures) :
    Conserved (pollOutput s).2 ∧ ∀ e, (pollOutput s).1 ≠ .error e := by
  rw [pollOutput_run]
  cases ho : s.output with
  | nil => exact ⟨h, by simp⟩
  | cons f rest =>
    have hp : (f.id :: (s.input ++ s.workers.filterMap Worker.job ++ rest).map Future.id).Perm
        (s.futures.map Prod.fst) := by
      refine List.Perm.trans ?_ h
      unfold inFlight
      rw [ho]
      simp only [List.map_append, List.map_cons]
      exact List.perm_middle.symm
    have hk : f.id ∈ s.futures.map Prod.fst := hp.mem_iff.1 List.mem_cons_self
    dsimp only
    cases hg : dget s.futures f.id with
    | none => exact absurd hk (dget_eq_none.1 hg)
    | some m =>
      refine ⟨?_, by simp⟩
      have := hp.trans (map_fst_ddel hd hk).symm
      exact (List.perm_cons _).1 this

theorem Conserved.submit {s : Evaluator Fn V E} (h : Conserved s)
    (hn : s.nextId ∉ s.futures.map Prod.fst) (fn : Fn) (args : List V) (kwargs : List (Str × V)) :
    Conserved (Gama.submit fn args kwargs s).2 := by
  rw [submit_run]
  unfold Conserved inFlight at *
  dsimp only
  rw [dset_length_new hn, List.map_append (f := Prod.fst)]
  have : (((s.input ++ [(⟨s.nextId, fn, args, kwargs, none, none⟩ : Future Fn V E)]) ++
      s.workers.filterMap Worker.job ++ s.output).map Future.id).Perm
      (s.nextId :: (s.input ++ s.workers.filterMap Worker.job ++ s.output).map Future.id) := by
    rw [List.append_assoc, List.append_assoc, List.append_assoc, List.map_append]
    simp only [List.singleton_append, List.map_cons]
    exact List.perm_middle.trans (by rw [← List.map_append])
  refine this.trans ?_
  refine (h.cons s.nextId).trans ?_
  simpa using (List.perm_append_comm (l₁ := [s.nextId]) (l₂ := s.futures.map Prod.fst))

theorem inspect_id {J : Jobs Fn V E Ω} {f f' : Future Fn V E} (h : inspectResult J f = some f') :
    f'.id = f.id := by
  unfold inspectResult at h
  cases hr : f.result with
  | none => rw [hr] at h; simp only [Option.some.injEq] at h; rw [h]
  | some v =>
    rw [hr] at h
    dsimp only at h
    cases hp : J.probe v <;> rw [hp] at h <;> simp only [Option.some.injEq, reduceCtorEq] at h <;>
      rw [← h]

theorem executed_id {J : Jobs Fn V E Ω} {f f' : Future Fn V E} {D : List (Str × V)} {ω : Ω}
    (h : (execute J f D ω).bind (inspectResult J) = some f') : f'.id = f.id := by
  unfold execute at h
  cases hc : J.call f.fn f.args (dget (dmerge f.kwargs D)) ω with
  | escapes => rw [hc] at h; simp at h
  | raises e =>
    rw [hc] at h
    dsimp only [Option.bind_some] at h
    exact (inspect_id h).trans rfl
  | returns v =>
    rw [hc] at h
    dsimp only [Option.bind_some] at h
    exact (inspect_id h).trans rfl

theorem Conserved.worker {J : Jobs Fn V E Ω} {s : Evaluator Fn V E} (h : Conserved s)
    (pid : Nat) {a : WorkerAct Ω} (ha : a ≠ .takeFails) :
    Conserved (workerStep J pid a s) := by
  unfold workerStep
  cases hw : s.workers[pid]? with
  | none => exact h
  | some w =>
    have hdead : ∀ c, Conserved { s with commands := c, workers := s.workers.set pid { w with alive := false } } := by
      intro c
      unfold Conserved inFlight at *
      dsimp only
      rw [filterMap_job_set_same (w' := { w with alive := false }) hw rfl]
      exact h
    dsimp only
    split
    · cases a with
      | takeFails => exact absurd rfl ha
      | die => exact hdead s.commands
      | stop =>
        dsimp only
        split
        · exact hdead _
        · exact h
      | take =>
        dsimp only
        by_cases hb : w.busy = true
        · rw [if_pos hb]; exact h
        · rw [if_neg hb]
          cases hi : s.input with
          | nil => exact h
          | cons f rest =>
            unfold Conserved inFlight at *
            dsimp only
            have hs := filterMap_set Worker.job s.workers pid w ⟨some f, true, true⟩ hw
            have hj : w.job = none := by unfold Worker.job; rw [if_neg hb]
            rw [hj] at hs
            have hs : ((s.workers.set pid ⟨some f, true, true⟩).filterMap Worker.job).Perm
                (f :: s.workers.filterMap Worker.job) := hs
            rw [hi] at h
            refine List.Perm.trans ?_ h
            refine List.Perm.map _ ?_
            refine List.Perm.append_right _ ?_
            refine (List.Perm.append_left rest hs).trans ?_
            exact List.perm_middle
      | finish ω =>
        dsimp only
        by_cases hb : w.busy = true
        · rw [if_pos hb]
          cases hc : w.cur with
          | none => exact h
          | some f =>
            dsimp only
            cases he : (execute J f s.defaults ω).bind (inspectResult J) with
            | none =>
              have := hdead s.commands
              rw [hc] at this
              exact this
            | some f' =>
              have hid : f'.id = f.id := executed_id he
              have hs := filterMap_set Worker.job s.workers pid w ⟨some f', false, true⟩ hw
              have hj : w.job = some f := by unfold Worker.job; rw [if_pos hb, hc]
              rw [hj] at hs
              have hs : (f :: (s.workers.set pid ⟨some f', false, true⟩).filterMap Worker.job).Perm
                  (s.workers.filterMap Worker.job) := hs
              unfold Conserved inFlight at *
              dsimp only
              refine List.Perm.trans ?_ h
              simp only [List.map_append, List.map_cons, List.map_nil, hid]
              have hm := hs.map Future.id
              rw [List.map_cons] at hm
              have h2 : ((s.workers.set pid ⟨some f', false, true⟩).filterMap Worker.job).map Future.id ++
                  (s.output.map Future.id ++ [f.id]) |>.Perm
                  ((s.workers.filterMap Worker.job).map Future.id ++ s.output.map Future.id) := by
                refine List.Perm.trans ?_ (hm.append_right _)
                rw [← List.append_assoc]
                simpa using (List.perm_append_comm (l₂ := [f.id]) (l₁ :=
                  ((s.workers.set pid ⟨some f', false, true⟩).filterMap Worker.job).map Future.id ++
                  s.output.map Future.id))
              have := h2.append_left (s.input.map Future.id)
              simpa [List.append_assoc] using this
        · rw [if_neg hb]; exact h
    · exact h

end
end Gama
