import Verif.Spec.Async
import Mathlib.Tactic.ByContra

/-! # Lemmas about the asynchronous evaluator -/

namespace Gama
open PyM Spec

section
variable {Fn V E Ω : Type}

/-! ## What memory control leaves alone -/

/-- Only worker processes, counters and the log were touched. -/
structure Frame (s s' : Evaluator Fn V E) : Prop where
  futures : s'.futures = s.futures
  input : s'.input = s.input
  output : s'.output = s.output
  nextId : s'.nextId = s.nextId
  defaults : s'.defaults = s.defaults
  waiting : s'.waiting = s.waiting
  nJobs : s'.nJobs = s.nJobs
  limit : s'.limit = s.limit
  logfile : s'.logfile = s.logfile
  workers : ∀ w' ∈ s'.workers, (∃ w ∈ s.workers, w'.cur = w.cur ∧ w'.busy = w.busy) ∨
    (w'.cur = none ∧ w'.busy = false)

theorem Frame.refl (s : Evaluator Fn V E) : Frame s s :=
  ⟨rfl, rfl, rfl, rfl, rfl, rfl, rfl, rfl, rfl, fun w h => Or.inl ⟨w, h, rfl, rfl⟩⟩

theorem Frame.trans {s t u : Evaluator Fn V E} (h : Frame s t) (k : Frame t u) : Frame s u := by
  refine ⟨k.futures.trans h.futures, k.input.trans h.input, k.output.trans h.output,
    k.nextId.trans h.nextId, k.defaults.trans h.defaults, k.waiting.trans h.waiting,
    k.nJobs.trans h.nJobs, k.limit.trans h.limit, k.logfile.trans h.logfile, ?_⟩
  intro w hw
  rcases k.workers w hw with ⟨w1, h1, e1, e2⟩ | h1
  · rcases h.workers w1 h1 with ⟨w2, h2, e3, e4⟩ | ⟨e3, e4⟩
    · exact Or.inl ⟨w2, h2, e1.trans e3, e2.trans e4⟩
    · exact Or.inr ⟨e1.trans e3, e2.trans e4⟩
  · exact Or.inr h1

theorem mem_kill {s : Evaluator Fn V E} {pid : Nat} {w' : Worker Fn V E} (h : w' ∈ kill s pid) :
    ∃ w ∈ s.workers, w'.cur = w.cur ∧ w'.busy = w.busy := by
  unfold kill at h
  cases hw : s.workers[pid]? with
  | none => rw [hw] at h; exact ⟨w', h, rfl, rfl⟩
  | some w =>
    rw [hw] at h
    rcases List.mem_or_eq_of_mem_set h with h | h
    · exact ⟨w', h, rfl, rfl⟩
    · subst h
      exact ⟨w, List.mem_of_getElem? hw, rfl, rfl⟩

theorem frame_start (s : Evaluator Fn V E) : Frame s (startWorker s).2 := by
  refine ⟨rfl, rfl, rfl, rfl, rfl, rfl, rfl, rfl, rfl, ?_⟩
  intro w hw
  rcases List.mem_append.1 hw with h | h
  · exact Or.inl ⟨w, h, rfl, rfl⟩
  · simp at h; subst h; exact Or.inr ⟨rfl, rfl⟩

theorem wp_frame_stop (pid : Nat) (o : StopOutcome) (s : Evaluator Fn V E) :
    wp (stopWorker pid o) (fun _ s' => Frame s s') (fun _ s' => Frame s s') s := by
  have hk : ∀ (j : Int) (ps : List Nat),
      Frame s { s with workers := kill s pid, jobQueueSize := j, procs := ps } := fun j ps =>
    ⟨rfl, rfl, rfl, rfl, rfl, rfl, rfl, rfl, rfl, fun w hw => Or.inl (mem_kill hw)⟩
  cases o with
  | ok =>
    simp only [stopWorker, removeProc, wp_bind, wp_modify, wp_get, wp_ite]
    exact ⟨fun _ => hk _ _, fun _ => hk (s.jobQueueSize - 1) s.procs⟩
  | gone => exact hk s.jobQueueSize s.procs
  | timeout => exact Frame.refl s

theorem wp_frame_usage (r : Readings) : ∀ (ps : List Nat) (s : Evaluator Fn V E),
    wp (usageLoop r ps) (fun _ s' => Frame s s') (fun _ s' => Frame s s') s := by
  intro ps
  induction ps with
  | nil => intro s; exact Frame.refl s
  | cons p ps ih =>
    intro s
    unfold usageLoop
    cases r.worker p with
    | some mb =>
      simp only [wp_bind]
      refine wp_mono ?_ (fun _ _ h => h) (ih s)
      intro _ s' h
      exact wp_pure.2 h
    | none =>
      simp only [wp_bind, wp_modify, startWorker]
      let t : Evaluator Fn V E :=
        { s with workers := kill s p, procs := s.procs.filter fun q => q != p }
      have h1 : Frame s t :=
        ⟨rfl, rfl, rfl, rfl, rfl, rfl, rfl, rfl, rfl, fun w hw => Or.inl (mem_kill hw)⟩
      have h2 := h1.trans (frame_start t)
      exact wp_mono (fun _ _ h => h2.trans h) (fun _ _ h => h2.trans h) (ih _)

theorem wp_frame_log (r : Readings) (s : Evaluator Fn V E) :
    wp (logUsage r) (fun _ s' => Frame s s') (fun _ s' => Frame s s') s := by
  simp only [logUsage, wp_bind, wp_get, memoryUsage, wp_ite]
  refine ⟨fun _ => ?_, fun _ => Frame.refl s⟩
  exact wp_mono (fun _ _ h => wp_pure.2 h) (fun _ _ h => h) (wp_frame_usage r _ s)

theorem wp_frame_restart (pid : Nat) (o : StopOutcome) (s : Evaluator Fn V E) :
    wp (restartOrKill pid o) (fun _ s' => Frame s s') (fun _ s' => Frame s s') s := by
  simp only [restartOrKill, wp_bind, wp_get, wp_ite]
  refine ⟨fun _ => ?_, fun _ => ?_⟩
  · refine wp_mono ?_ (fun _ _ h => h) (wp_frame_stop pid o s)
    intro _ s' h
    exact h.trans (frame_start s')
  · simp only [wp_modify]
    have h1 : Frame s { s with behaved := 0, violations := 0 } :=
      ⟨rfl, rfl, rfl, rfl, rfl, rfl, rfl, rfl, rfl, fun w hw => Or.inl ⟨w, hw, rfl, rfl⟩⟩
    exact wp_mono (fun _ _ h => h1.trans h) (fun _ _ h => h1.trans h) (wp_frame_stop pid o _)

theorem wp_frame_control (r r' : Readings) (o : StopOutcome) (s : Evaluator Fn V E) :
    wp (controlMemory r r' o) (fun _ s' => Frame s s') (fun _ s' => Frame s s') s := by
  simp only [controlMemory, wp_bind, wp_get]
  cases s.limit with
  | none => exact Frame.refl s
  | some limit =>
    simp only [wp_bind, memoryUsage, wp_get]
    refine wp_mono ?_ (fun _ _ h => h) (wp_frame_usage r _ s)
    intro usage s1 h1
    rw [wp_ite]
    refine ⟨fun _ => ?_, fun _ => h1⟩
    simp only [wp_bind]
    refine wp_mono ?_ (fun _ _ h => h1.trans h) (wp_frame_log r' s1)
    intro _ s2 h2
    simp only [wp_modify]
    have h3 : Frame s { s2 with violations := s2.violations + 1 } := (h1.trans h2).trans
      ⟨rfl, rfl, rfl, rfl, rfl, rfl, rfl, rfl, rfl, fun w hw => Or.inl ⟨w, hw, rfl, rfl⟩⟩
    cases maxUsage usage with
    | none => exact h3
    | some x =>
      exact wp_mono (fun _ _ h => h3.trans h) (fun _ _ h => h3.trans h) (wp_frame_restart x.1 o _)

/-- Everything before the poll in one iteration of `wait_next`. -/
theorem waitIteration_split (r₁ r₂ r₃ : Readings) (o : StopOutcome) (s : Evaluator Fn V E) :
    (∃ s1, Frame s s1 ∧ waitIteration r₁ r₂ r₃ o s = pollOutput s1) ∨
    (∃ e s1, Frame s s1 ∧ waitIteration r₁ r₂ r₃ o s = (.error e, s1)) := by
  have h := wp_frame_control r₁ r₂ o s
  unfold waitIteration
  cases hc : controlMemory r₁ r₂ o s with
  | mk r s1 =>
    cases r with
    | error e => exact Or.inr ⟨e, s1, wp_error h hc, bind_error hc⟩
    | ok u =>
      have h1 := wp_ok h hc
      rw [bind_ok hc]
      have h' := wp_frame_log r₃ s1
      cases hl : logUsage r₃ s1 with
      | mk r s2 =>
        cases r with
        | error e => exact Or.inr ⟨e, s2, h1.trans (wp_error h' hl), bind_error hl⟩
        | ok u =>
          have h2 := wp_ok h' hl
          exact Or.inl ⟨s2, h1.trans h2, bind_ok hl⟩

/-! ## Dictionaries -/

theorem dget_ddel {K W : Type} [DecidableEq K] {d : List (K × W)} (hd : DictOK d) (k k' : K) :
    dget (ddel d k) k' = if k = k' then none else dget d k' := by
  induction d with
  | nil => simp [ddel, dget]
  | cons x d ih =>
    obtain ⟨a, w⟩ := x
    have hd' : a ∉ d.map Prod.fst ∧ (d.map Prod.fst).Nodup := by
      have : (a :: d.map Prod.fst).Nodup := hd
      exact List.nodup_cons.1 this
    by_cases h : a = k
    · subst h
      by_cases h' : a = k'
      · subst h'; simp [ddel, dget_eq_none.2 hd'.1]
      · simp [ddel, dget, h']
    · by_cases h' : a = k'
      · subst h'
        have h2 : k ≠ a := fun e => h e.symm
        simp [ddel, dget, h, h2]
      · simp [ddel, dget, h, h', ih hd'.2]

theorem ddel_sublist {K W : Type} [DecidableEq K] (d : List (K × W)) (k : K) :
    (ddel d k).Sublist d := by
  induction d with
  | nil => exact List.Sublist.refl _
  | cons x d ih =>
    obtain ⟨a, w⟩ := x
    unfold ddel
    split
    · exact List.sublist_cons_self _ _
    · exact ih.cons_cons _

theorem DictOK.ddel {K W : Type} [DecidableEq K] {d : List (K × W)} (hd : DictOK d) (k : K) :
    DictOK (Gama.ddel d k) := List.Sublist.nodup ((ddel_sublist d k).map _) hd

theorem ddel_length {K W : Type} [DecidableEq K] {d : List (K × W)} {k : K} {v : W}
    (h : dget d k = some v) : (ddel d k).length + 1 = d.length := by
  induction d with
  | nil => simp [dget] at h
  | cons x d ih =>
    obtain ⟨a, w⟩ := x
    unfold ddel
    by_cases h' : a = k
    · simp [h']
    · simp only [dget, h', if_false] at h
      simp [h', ih h]

theorem dset_length_new {K W : Type} [DecidableEq K] {d : List (K × W)} {k : K} {v : W}
    (h : k ∉ d.map Prod.fst) : dset d k v = d ++ [(k, v)] := by
  induction d with
  | nil => rfl
  | cons x d ih =>
    obtain ⟨a, w⟩ := x
    simp only [List.map_cons, List.mem_cons, not_or] at h
    have h2 : ¬ a = k := fun e => h.1 e.symm
    simp [dset, h2, ih h.2]

/-! ## Futures and their jobs -/

/-- A future in the output queue that reports a submitted job. -/
def Genuine (J : Jobs Fn V E Ω) (D : List (Str × V)) (tr : List (AsyncObs Fn V E))
    (f : Future Fn V E) : Prop :=
  ∃ j, .submitted j ∈ tr ∧ SameJob j f ∧ Reports J D j f

theorem Genuine.mono {J : Jobs Fn V E Ω} {D : List (Str × V)} {tr : List (AsyncObs Fn V E)}
    {f : Future Fn V E} (h : Genuine J D tr f) (o : AsyncObs Fn V E) :
    Genuine J D (tr ++ [o]) f := by
  obtain ⟨j, h1, h2⟩ := h
  exact ⟨j, List.mem_append_left _ h1, h2⟩

def Key (s : Evaluator Fn V E) (id : Nat) : Prop := id ∈ s.futures.map Prod.fst

/-- The invariant behind C28. -/
structure Good (J : Jobs Fn V E Ω) (D : List (Str × V)) (tr : List (AsyncObs Fn V E))
    (s : Evaluator Fn V E) : Prop where
  defaults : s.defaults = D
  trace : ∀ pre f post, tr = pre ++ .returned f :: post → Genuine J D pre f ∧
    ∀ g, .returned g ∈ pre → g.id ≠ f.id
  blank : ∀ j, .submitted j ∈ tr → j.result = none ∧ j.exception = none ∧ j.id < s.nextId
  subs : ∀ j j', .submitted j ∈ tr → .submitted j' ∈ tr → j.id = j'.id → j = j'
  dict : DictOK s.futures
  pend : ∀ id f, (id, f) ∈ s.futures → f.id = id ∧ .submitted f ∈ tr
  gone : ∀ g, .returned g ∈ tr → ¬ Key s g.id ∧ g.id < s.nextId
  input : ∀ f ∈ s.input, .submitted f ∈ tr
  busy : ∀ w ∈ s.workers, w.busy = true → ∃ f, w.cur = some f ∧ .submitted f ∈ tr
  idle : ∀ w ∈ s.workers, w.busy = false → ∀ f, w.cur = some f → f.id < s.nextId ∧
    (¬ Key s f.id ∨ ∃ g ∈ s.output, g.id = f.id ∧ Genuine J D tr g)
  out : ∀ a f b, s.output = a ++ f :: b → f.id < s.nextId ∧
    (Genuine J D tr f ∨ ¬ Key s f.id ∨ ∃ g ∈ a, g.id = f.id ∧ Genuine J D tr g)

theorem Good.frame {J : Jobs Fn V E Ω} {D : List (Str × V)} {tr : List (AsyncObs Fn V E)}
    {s s' : Evaluator Fn V E} (h : Good J D tr s) (hf : Frame s s') : Good J D tr s' := by
  have hk : ∀ i, Key s' i ↔ Key s i := fun i => by unfold Key; rw [hf.futures]
  refine ⟨hf.defaults.trans h.defaults, h.trace, ?_, h.subs, ?_, ?_, ?_, ?_, ?_, ?_, ?_⟩
  · rw [hf.nextId]; exact h.blank
  · rw [hf.futures]; exact h.dict
  · rw [hf.futures]; exact h.pend
  · intro g hg
    rw [hk, hf.nextId]
    exact h.gone g hg
  · rw [hf.input]; exact h.input
  · intro w hw hb
    rcases hf.workers w hw with ⟨w1, h1, e1, e2⟩ | ⟨e1, e2⟩
    · rw [e1]; exact h.busy w1 h1 (e2 ▸ hb)
    · rw [e2] at hb; cases hb
  · intro w hw hb f hc
    rw [hk, hf.nextId, hf.output]
    rcases hf.workers w hw with ⟨w1, h1, e1, e2⟩ | ⟨e1, e2⟩
    · exact h.idle w1 h1 (e2 ▸ hb) f (e1 ▸ hc)
    · rw [e1] at hc; cases hc
  · intro a f b he
    rw [hk, hf.nextId]
    rw [hf.output] at he
    exact h.out a f b he

/-- An event that shows nothing new about jobs. -/
theorem Good.quiet {J : Jobs Fn V E Ω} {D : List (Str × V)} {tr : List (AsyncObs Fn V E)}
    {s : Evaluator Fn V E} (h : Good J D tr s) {o : AsyncObs Fn V E}
    (ho : (∀ f, o ≠ .submitted f) ∧ ∀ f, o ≠ .returned f) : Good J D (tr ++ [o]) s := by
  have hs : ∀ j, AsyncObs.submitted j ∈ tr ++ [o] → AsyncObs.submitted j ∈ tr := by
    intro j hj
    rcases List.mem_append.1 hj with hj | hj
    · exact hj
    · simp at hj; exact absurd hj.symm (ho.1 j)
  have hr : ∀ j, AsyncObs.returned j ∈ tr ++ [o] → AsyncObs.returned j ∈ tr := by
    intro j hj
    rcases List.mem_append.1 hj with hj | hj
    · exact hj
    · simp at hj; exact absurd hj.symm (ho.2 j)
  refine ⟨h.defaults, ?_, fun j hj => h.blank j (hs j hj),
    fun j j' a b => h.subs j j' (hs j a) (hs j' b), h.dict, ?_, fun g hg => h.gone g (hr g hg),
    fun f hf => List.mem_append_left _ (h.input f hf), ?_, ?_, ?_⟩
  · intro pre f post he
    rcases List.eq_nil_or_concat post with rfl | ⟨post', x, rfl⟩
    · obtain ⟨-, h2⟩ := List.append_inj' he rfl
      simp at h2
      exact absurd h2 (ho.2 f)
    · rw [List.concat_eq_append, ← List.cons_append, ← List.append_assoc] at he
      obtain ⟨h1, -⟩ := List.append_inj' he rfl
      exact h.trace pre f post' h1
  · intro id f hf
    exact ⟨(h.pend id f hf).1, List.mem_append_left _ (h.pend id f hf).2⟩
  · intro w hw hb
    obtain ⟨f, h1, h2⟩ := h.busy w hw hb
    exact ⟨f, h1, List.mem_append_left _ h2⟩
  · intro w hw hb f hc
    obtain ⟨h1, h2⟩ := h.idle w hw hb f hc
    refine ⟨h1, h2.imp id ?_⟩
    rintro ⟨g, hg, e, hG⟩
    exact ⟨g, hg, e, hG.mono o⟩
  · intro a f b he
    obtain ⟨h1, h2⟩ := h.out a f b he
    refine ⟨h1, h2.imp (fun hG => hG.mono o) (fun h3 => h3.imp id ?_)⟩
    rintro ⟨g, hg, e, hG⟩
    exact ⟨g, hg, e, hG.mono o⟩

theorem kwargsFrom_merge (a b : List (Str × V)) : KwargsFrom a b (dget (dmerge a b)) := by
  intro k
  unfold dmerge
  induction b generalizing a with
  | nil =>
    refine ⟨fun v h => Or.inl (dget_mem h), ?_⟩
    rintro v (h | h)
    · rw [Ne, List.foldl_nil, dget_eq_none, not_not]
      exact List.mem_map.2 ⟨_, h, rfl⟩
    · simp at h
  | cons x b ih =>
    obtain ⟨k', w⟩ := x
    obtain ⟨h1, h2⟩ := ih (dset a k' w)
    have hm : ∀ v, (k, v) ∈ a → ∃ u, (k, u) ∈ dset a k' w := by
      intro v hv
      have : k ∈ (dset a k' w).map Prod.fst :=
        mem_keys_dset.2 (Or.inr (List.mem_map.2 ⟨_, hv, rfl⟩))
      obtain ⟨⟨_, u⟩, hu, rfl⟩ := List.mem_map.1 this
      exact ⟨u, hu⟩
    refine ⟨?_, ?_⟩
    · intro v hv
      rcases h1 v hv with h | h
      · have hs : ∀ (l : List (Str × V)), (k, v) ∈ dset l k' w → (k, v) ∈ l ∨ (k, v) = (k', w) := by
          intro l
          induction l with
          | nil => intro h; simp [dset] at h; exact Or.inr (by simp [h])
          | cons y l ihl =>
            obtain ⟨q, z⟩ := y
            unfold dset
            split
            · rename_i e
              subst e
              intro h
              rcases List.mem_cons.1 h with h | h
              · exact Or.inr h
              · exact Or.inl (List.mem_cons_of_mem _ h)
            · intro h
              rcases List.mem_cons.1 h with h | h
              · exact Or.inl (by rw [h]; exact List.mem_cons_self)
              · exact (ihl h).imp (List.mem_cons_of_mem _) id
        rcases hs a h with h | h
        · exact Or.inl h
        · exact Or.inr (by rw [h]; exact List.mem_cons_self)
      · exact Or.inr (List.mem_cons_of_mem _ h)
    · rintro v (h | h)
      · obtain ⟨u, hu⟩ := hm v h
        exact h2 u (Or.inl hu)
      · rcases List.mem_cons.1 h with h | h
        · injection h with e1 e2
          subst e1
          have : k ∈ (dset a k w).map Prod.fst := mem_keys_dset.2 (Or.inl rfl)
          obtain ⟨⟨_, u⟩, hu, rfl⟩ := List.mem_map.1 this
          exact h2 u (Or.inl hu)
        · exact h2 v (Or.inr h)

/-! ## The invariant holds along every schedule -/

theorem entered_run (n : Nat) (limit : Option ℚ) (logfile : Bool) (D : List (Str × V)) :
    ∃ ws ps, (∀ w ∈ ws, w = ⟨none, false, true⟩) ∧ ws.length = n ∧ ps = List.range n ∧
      (entered n limit logfile D : Evaluator Fn V E) =
        { (newEvaluator n limit logfile D : Evaluator Fn V E) with
          hasEntered := true, workers := ws, procs := ps } := by
  have key : ∀ (k : Nat) (s : Evaluator Fn V E), (∀ w ∈ s.workers, w = ⟨none, false, true⟩) →
      s.procs = List.range s.workers.length →
      ∃ ws ps, (∀ w ∈ ws, w = ⟨none, false, true⟩) ∧ ws.length = s.workers.length + k ∧
        ps = List.range (s.workers.length + k) ∧
        startWorkers k s = (.ok (), { s with workers := ws, procs := ps }) := by
    intro k
    induction k with
    | zero => intro s h hp; exact ⟨_, _, h, rfl, hp, rfl⟩
    | succ k ih =>
      intro s h hp
      have hs : startWorker s = (.ok (), { s with
          workers := s.workers ++ [⟨none, false, true⟩], procs := s.procs ++ [s.workers.length] }) := rfl
      obtain ⟨ws, ps, h1, h2, h3, h4⟩ := ih { s with
          workers := s.workers ++ [⟨none, false, true⟩], procs := s.procs ++ [s.workers.length] }
        (by
          intro w hw
          rcases List.mem_append.1 hw with hw | hw
          · exact h w hw
          · simpa using hw)
        (by rw [List.length_append, List.length_singleton, List.range_succ, hp])
      refine ⟨ws, ps, h1, ?_, ?_, ?_⟩
      · rw [h2, List.length_append, List.length_singleton]; omega
      · rw [h3, List.length_append, List.length_singleton]; congr 1; omega
      · unfold startWorkers
        rw [bind_ok hs, h4]
  obtain ⟨ws, ps, h1, h2, h3, h4⟩ := key n
    { (newEvaluator n limit logfile D : Evaluator Fn V E) with
      hasEntered := true, input := [], output := [] } (by simp [newEvaluator]) (by simp [newEvaluator])
  refine ⟨ws, ps, h1, by simpa [newEvaluator] using h2, by simpa [newEvaluator] using h3, ?_⟩
  have : enter (newEvaluator n limit logfile D : Evaluator Fn V E) =
      startWorkers n { (newEvaluator n limit logfile D : Evaluator Fn V E) with
        hasEntered := true, input := [], output := [] } := rfl
  unfold entered
  rw [this, h4]
  rfl

theorem good_entered (J : Jobs Fn V E Ω) (n : Nat) (limit : Option ℚ) (logfile : Bool)
    (D : List (Str × V)) : Good J D [] (entered n limit logfile D : Evaluator Fn V E) := by
  obtain ⟨ws, ps, h1, -, -, he⟩ := entered_run (Fn := Fn) (E := E) n limit logfile D
  rw [he]
  refine ⟨rfl, ?_, by simp, by simp, List.nodup_nil, by simp [newEvaluator], by simp,
    by simp [newEvaluator], ?_, ?_, by simp [newEvaluator]⟩
  · intro pre f post h
    simp at h
  · intro w hw hb
    rw [h1 w hw] at hb
    cases hb
  · intro w hw hb f hc
    rw [h1 w hw] at hc
    cases hc

theorem submit_run (fn : Fn) (args : List V) (kwargs : List (Str × V)) (s : Evaluator Fn V E) :
    submit fn args kwargs s = (.ok ⟨s.nextId, fn, args, kwargs, none, none⟩, { s with
      nextId := s.nextId + 1
      futures := dset s.futures s.nextId ⟨s.nextId, fn, args, kwargs, none, none⟩
      input := s.input ++ [⟨s.nextId, fn, args, kwargs, none, none⟩]
      jobQueueSize := s.jobQueueSize + 1 }) := rfl

theorem Good.key_lt {J : Jobs Fn V E Ω} {D : List (Str × V)} {tr : List (AsyncObs Fn V E)}
    {s : Evaluator Fn V E} (h : Good J D tr s) {i : Nat} (hk : Key s i) : i < s.nextId := by
  obtain ⟨⟨j, f⟩, hf, rfl⟩ := List.mem_map.1 hk
  obtain ⟨h1, h2⟩ := h.pend _ _ hf
  have := (h.blank f h2).2.2
  rw [h1] at this
  exact this

theorem Good.submit {J : Jobs Fn V E Ω} {D : List (Str × V)} {tr : List (AsyncObs Fn V E)}
    {s : Evaluator Fn V E} (h : Good J D tr s) (fn : Fn) (args : List V) (kwargs : List (Str × V)) :
    Good J D (tr ++ [.submitted ⟨s.nextId, fn, args, kwargs, none, none⟩])
      (Gama.submit fn args kwargs s).2 := by
  rw [submit_run]
  generalize hj : (⟨s.nextId, fn, args, kwargs, none, none⟩ : Future Fn V E) = j
  have hid : j.id = s.nextId := by rw [← hj]
  have hbl : j.result = none ∧ j.exception = none := by rw [← hj]; exact ⟨rfl, rfl⟩
  have hs : ∀ f, AsyncObs.submitted f ∈ tr ++ [AsyncObs.submitted j] →
      AsyncObs.submitted f ∈ tr ∨ f = j := by
    intro f hf
    rcases List.mem_append.1 hf with hf | hf
    · exact Or.inl hf
    · simp at hf; exact Or.inr hf
  have hr : ∀ g, AsyncObs.returned g ∈ tr ++ [AsyncObs.submitted j] → AsyncObs.returned g ∈ tr := by
    intro f hf
    rcases List.mem_append.1 hf with hf | hf
    · exact hf
    · simp at hf
  have hnk : ¬ Key s s.nextId := fun hk => absurd (h.key_lt hk) (Nat.lt_irrefl _)
  have hkey : ∀ i, i < s.nextId → i ∈ (dset s.futures s.nextId j).map Prod.fst → Key s i := by
    intro i hi hm
    rw [mem_keys_dset] at hm
    rcases hm with e | hm
    · omega
    · exact hm
  refine ⟨h.defaults, ?_, ?_, ?_, h.dict.dset _ _, ?_, ?_, ?_, ?_, ?_, ?_⟩
  · intro pre f post he
    rcases List.eq_nil_or_concat post with rfl | ⟨post', x, rfl⟩
    · obtain ⟨-, h2⟩ := List.append_inj' he rfl
      simp at h2
    · rw [List.concat_eq_append, ← List.cons_append, ← List.append_assoc] at he
      obtain ⟨h1, -⟩ := List.append_inj' he rfl
      exact h.trace pre f post' h1
  · intro f hf
    rcases hs f hf with hf | rfl
    · obtain ⟨a, b, c⟩ := h.blank f hf
      exact ⟨a, b, Nat.lt_succ_of_lt c⟩
    · exact ⟨hbl.1, hbl.2, by rw [hid]; exact Nat.lt_succ_self _⟩
  · intro f f' hf hf' e
    rcases hs f hf with hf | rfl <;> rcases hs f' hf' with hf' | rfl
    · exact h.subs f f' hf hf' e
    · have := (h.blank f (by assumption)).2.2
      omega
    · have := (h.blank f' (by assumption)).2.2
      omega
    · rfl
  · intro id f hf
    have hf : (id, f) ∈ dset s.futures s.nextId j := hf
    rw [dset_length_new hnk] at hf
    rcases List.mem_append.1 hf with hf | hf
    · obtain ⟨a, b⟩ := h.pend id f hf
      exact ⟨a, List.mem_append_left _ b⟩
    · simp at hf
      obtain ⟨rfl, rfl⟩ := hf
      exact ⟨hid, by simp⟩
  · intro g hg
    obtain ⟨a, b⟩ := h.gone g (hr g hg)
    exact ⟨fun hk => a (hkey _ b hk), Nat.lt_succ_of_lt b⟩
  · intro f hf
    rcases List.mem_append.1 hf with hf | hf
    · exact List.mem_append_left _ (h.input f hf)
    · simp at hf; subst hf; simp
  · intro w hw hb
    obtain ⟨f, h1, h2⟩ := h.busy w hw hb
    exact ⟨f, h1, List.mem_append_left _ h2⟩
  · intro w hw hb f hc
    obtain ⟨h1, h2⟩ := h.idle w hw hb f hc
    refine ⟨Nat.lt_succ_of_lt h1, h2.imp (fun a hk => a (hkey _ h1 hk)) ?_⟩
    rintro ⟨g, hg, e, hG⟩
    exact ⟨g, hg, e, hG.mono _⟩
  · intro a f b he
    obtain ⟨h1, h2⟩ := h.out a f b he
    refine ⟨Nat.lt_succ_of_lt h1,
      h2.imp (fun hG => hG.mono _) (fun h3 => h3.imp (fun a hk => a (hkey _ h1 hk)) ?_)⟩
    rintro ⟨g, hg, e, hG⟩
    exact ⟨g, hg, e, hG.mono _⟩

/-- The trace event of an iteration of `wait_next`. -/
def pollObs : Except Exn (Option (Future Fn V E)) → AsyncObs Fn V E
  | .ok none => .nothing
  | .ok (some f) => .returned f
  | .error e => .raised e

theorem pollOutput_run (s : Evaluator Fn V E) : pollOutput s =
    match s.output with
    | [] => (.ok none, s)
    | f :: rest =>
      match dget s.futures f.id with
      | none => (.error .keyError, { s with output := rest, jobQueueSize := s.jobQueueSize - 1 })
      | some m => (.ok (some { m with result := f.result, exception := f.exception }),
          { s with
            output := rest
            jobQueueSize := s.jobQueueSize - 1
            futures := ddel s.futures f.id
            behaved := s.behaved + 1 }) := by
  unfold pollOutput
  rw [bind_ok get_run]
  cases s.output with
  | nil => rfl
  | cons f rest =>
    dsimp only
    rw [bind_ok modify_run]
    cases dget s.futures f.id <;> rfl

theorem not_key_ddel {d : List (Nat × Future Fn V E)} (hd : DictOK d) (i : Nat) :
    i ∉ (ddel d i).map Prod.fst := by
  rw [← dget_eq_none, dget_ddel hd]
  simp

theorem key_of_ddel {d : List (Nat × Future Fn V E)} {i k : Nat}
    (h : i ∈ (ddel d k).map Prod.fst) : i ∈ d.map Prod.fst :=
  ((ddel_sublist d k).map _).subset h

theorem Good.poll {J : Jobs Fn V E Ω} {D : List (Str × V)} {tr : List (AsyncObs Fn V E)}
    {s : Evaluator Fn V E} (h : Good J D tr s) :
    Good J D (tr ++ [pollObs (pollOutput s).1]) (pollOutput s).2 := by
  rw [pollOutput_run]
  cases ho : s.output with
  | nil => exact h.quiet ⟨by intro f; simp [pollObs], by intro f; simp [pollObs]⟩
  | cons f rest =>
    obtain ⟨hflt, hfst⟩ := h.out [] f rest (by rw [ho]; rfl)
    dsimp only
    cases hd : dget s.futures f.id with
    | none =>
      have hnk : ¬ Key s f.id := dget_eq_none.1 hd
      refine Good.quiet ?_ ⟨by intro f; simp [pollObs], by intro f; simp [pollObs]⟩
      refine ⟨h.defaults, h.trace, h.blank, h.subs, h.dict, h.pend, h.gone, h.input, h.busy, ?_, ?_⟩
      · intro w hw hb g hc
        obtain ⟨h1, h2⟩ := h.idle w hw hb g hc
        refine ⟨h1, ?_⟩
        rcases h2 with h2 | ⟨g', hg', e, hG⟩
        · exact Or.inl h2
        · rw [ho] at hg'
          rcases List.mem_cons.1 hg' with rfl | hg'
          · exact Or.inl (e ▸ hnk)
          · exact Or.inr ⟨g', hg', e, hG⟩
      · intro a g b he
        have he : rest = a ++ g :: b := he
        obtain ⟨h1, h2⟩ := h.out (f :: a) g b (by rw [ho, he]; rfl)
        refine ⟨h1, ?_⟩
        rcases h2 with h2 | h2 | ⟨g', hg', e, hG⟩
        · exact Or.inl h2
        · exact Or.inr (Or.inl h2)
        · rcases List.mem_cons.1 hg' with rfl | hg'
          · exact Or.inr (Or.inl (e ▸ hnk))
          · exact Or.inr (Or.inr ⟨g', hg', e, hG⟩)
    | some m =>
      have hmem := dget_mem hd
      obtain ⟨hmid, hmsub⟩ := h.pend _ _ hmem
      have hkey : Key s f.id := List.mem_map.2 ⟨_, hmem, rfl⟩
      have hG : Genuine J D tr f := by
        rcases hfst with hG | hn | ⟨g, hg, _⟩
        · exact hG
        · exact absurd hkey hn
        · simp at hg
      obtain ⟨j, hj, hsame, hrep⟩ := hG
      have hjm : j = m := h.subs j m hj hmsub (hsame.1.trans hmid.symm)
      subst hjm
      dsimp only [pollObs]
      generalize hret : ({ j with result := f.result, exception := f.exception } : Future Fn V E) = ret
      have hretid : ret.id = f.id := by rw [← hret]; exact hmid
      have hGr : Genuine J D tr ret := by
        refine ⟨j, hj, by rw [← hret]; exact ⟨rfl, rfl, rfl, rfl⟩, ?_⟩
        rw [← hret]
        exact hrep
      have hs : ∀ x, AsyncObs.submitted x ∈ tr ++ [AsyncObs.returned ret] →
          AsyncObs.submitted x ∈ tr := by
        intro x hx
        rcases List.mem_append.1 hx with hx | hx
        · exact hx
        · simp at hx
      have hnk : f.id ∉ (ddel s.futures f.id).map Prod.fst := not_key_ddel h.dict _
      show Good J D (tr ++ [AsyncObs.returned ret]) _
      refine ⟨h.defaults, ?_, fun x hx => h.blank x (hs x hx),
        fun x y hx hy => h.subs x y (hs x hx) (hs y hy), h.dict.ddel _, ?_, ?_, ?_, ?_, ?_, ?_⟩
      · intro pre x post he
        rcases List.eq_nil_or_concat post with rfl | ⟨post', y, rfl⟩
        · obtain ⟨h1, h2⟩ := List.append_inj' he rfl
          simp at h2
          subst h1; subst h2
          refine ⟨hGr, ?_⟩
          intro g hg e
          exact (h.gone g hg).1 (by rw [e, hretid]; exact hkey)
        · rw [List.concat_eq_append, ← List.cons_append, ← List.append_assoc] at he
          obtain ⟨h1, -⟩ := List.append_inj' he rfl
          exact h.trace pre x post' h1
      · intro id x hx
        obtain ⟨a, b⟩ := h.pend id x ((ddel_sublist _ _).subset hx)
        exact ⟨a, List.mem_append_left _ b⟩
      · intro g hg
        rcases List.mem_append.1 hg with hg | hg
        · obtain ⟨a, b⟩ := h.gone g hg
          exact ⟨fun hk => a (key_of_ddel hk), b⟩
        · simp at hg
          subst hg
          exact ⟨fun hk => hnk (hretid ▸ hk), hretid ▸ hflt⟩
      · intro x hx
        exact List.mem_append_left _ (h.input x hx)
      · intro w hw hb
        obtain ⟨x, h1, h2⟩ := h.busy w hw hb
        exact ⟨x, h1, List.mem_append_left _ h2⟩
      · intro w hw hb g hc
        obtain ⟨h1, h2⟩ := h.idle w hw hb g hc
        refine ⟨h1, ?_⟩
        rcases h2 with h2 | ⟨g', hg', e, hG⟩
        · exact Or.inl (fun hk => h2 (key_of_ddel hk))
        · rw [ho] at hg'
          rcases List.mem_cons.1 hg' with rfl | hg'
          · exact Or.inl (fun hk => hnk (e ▸ hk))
          · exact Or.inr ⟨g', hg', e, hG.mono _⟩
      · intro a g b he
        have he : rest = a ++ g :: b := he
        obtain ⟨h1, h2⟩ := h.out (f :: a) g b (by rw [ho, he]; rfl)
        refine ⟨h1, ?_⟩
        rcases h2 with h2 | h2 | ⟨g', hg', e, hG⟩
        · exact Or.inl (h2.mono _)
        · exact Or.inr (Or.inl (fun hk => h2 (key_of_ddel hk)))
        · rcases List.mem_cons.1 hg' with rfl | hg'
          · exact Or.inr (Or.inl (fun hk => hnk (e ▸ hk)))
          · exact Or.inr (Or.inr ⟨g', hg', e, hG.mono _⟩)

/-- What a worker reports about a fresh job is what its function did. -/
theorem reports_execute {J : Jobs Fn V E Ω} {D : List (Str × V)} {j f : Future Fn V E} {ω : Ω}
    (hb : j.result = none ∧ j.exception = none)
    (h : (execute J j D ω).bind (inspectResult J) = some f) : SameJob j f ∧ Reports J D j f := by
  unfold execute at h
  cases hc : J.call j.fn j.args (dget (dmerge j.kwargs D)) ω with
  | escapes => rw [hc] at h; simp at h
  | raises e =>
    rw [hc] at h
    simp only [Option.bind_some, inspectResult, hb.1, Option.some.injEq] at h
    subst h
    refine ⟨⟨rfl, rfl, rfl, rfl⟩, _, ω, kwargsFrom_merge _ _, ?_⟩
    rw [hc]
    exact ⟨rfl, rfl⟩
  | returns v =>
    rw [hc] at h
    simp only [Option.bind_some, inspectResult] at h
    cases hp : J.probe v with
    | raises => rw [hp] at h; simp at h
    | falsy =>
      rw [hp] at h
      simp only [Option.some.injEq] at h
      subst h
      refine ⟨⟨rfl, rfl, rfl, rfl⟩, _, ω, kwargsFrom_merge _ _, ?_⟩
      rw [hc]
      exact Or.inl ⟨rfl, hb.2⟩
    | fine =>
      rw [hp] at h
      simp only [Option.some.injEq] at h
      subst h
      refine ⟨⟨rfl, rfl, rfl, rfl⟩, _, ω, kwargsFrom_merge _ _, ?_⟩
      rw [hc]
      exact Or.inl ⟨rfl, hb.2⟩
    | memoryError =>
      rw [hp] at h
      simp only [Option.some.injEq] at h
      subst h
      refine ⟨⟨rfl, rfl, rfl, rfl⟩, _, ω, kwargsFrom_merge _ _, ?_⟩
      rw [hc]
      exact Or.inr (Or.inl ⟨hp, rfl, hb.2⟩)
    | raisesMemory =>
      rw [hp] at h
      simp only [Option.some.injEq] at h
      subst h
      refine ⟨⟨rfl, rfl, rfl, rfl⟩, _, ω, kwargsFrom_merge _ _, ?_⟩
      rw [hc]
      exact Or.inr (Or.inr ⟨hp, rfl, rfl⟩)

/-- Ending worker processes changes nothing about jobs. -/
theorem frame_dead {s : Evaluator Fn V E} {pid : Nat} {w : Worker Fn V E}
    (hw : s.workers[pid]? = some w) (c : Nat) :
    Frame s { s with commands := c, workers := s.workers.set pid { w with alive := false } } := by
  refine ⟨rfl, rfl, rfl, rfl, rfl, rfl, rfl, rfl, rfl, ?_⟩
  intro w' h
  rcases List.mem_or_eq_of_mem_set h with h | h
  · exact Or.inl ⟨w', h, rfl, rfl⟩
  · subst h
    exact Or.inl ⟨w, List.mem_of_getElem? hw, rfl, rfl⟩

theorem Good.worker {J : Jobs Fn V E Ω} {D : List (Str × V)} {tr : List (AsyncObs Fn V E)}
    {s : Evaluator Fn V E} (h : Good J D tr s) (pid : Nat) (a : WorkerAct Ω) :
    Good J D tr (workerStep J pid a s) := by
  unfold workerStep
  cases hw : s.workers[pid]? with
  | none => exact h
  | some w =>
    have hwm : w ∈ s.workers := List.mem_of_getElem? hw
    dsimp only
    split
    · rename_i halive
      -- a future reported by this worker whose job is settled or which is genuine
      have report : ∀ (f : Future Fn V E) (inp : List (Future Fn V E)), (∀ x ∈ inp, x ∈ s.input) →
          f.id < s.nextId →
          (Genuine J D tr f ∨ ¬ Key s f.id ∨ ∃ g ∈ s.output, g.id = f.id ∧ Genuine J D tr g) →
          Good J D tr { s with
            input := inp
            output := s.output ++ [f]
            workers := s.workers.set pid ⟨some f, false, true⟩ } := by
        intro f inp hinp hlt hf
        have hset : ¬ Key s f.id ∨ ∃ g ∈ s.output ++ [f], g.id = f.id ∧ Genuine J D tr g := by
          rcases hf with hf | hf | ⟨g, hg, e⟩
          · exact Or.inr ⟨f, by simp, rfl, hf⟩
          · exact Or.inl hf
          · exact Or.inr ⟨g, List.mem_append_left _ hg, e⟩
        refine ⟨h.defaults, h.trace, h.blank, h.subs, h.dict, h.pend, h.gone,
          fun x hx => h.input x (hinp x hx), ?_, ?_, ?_⟩
        · intro w' hw' hb
          rcases List.mem_or_eq_of_mem_set hw' with hw' | rfl
          · exact h.busy w' hw' hb
          · cases hb
        · intro w' hw' hb g hc
          rcases List.mem_or_eq_of_mem_set hw' with hw' | rfl
          · obtain ⟨h1, h2⟩ := h.idle w' hw' hb g hc
            refine ⟨h1, h2.imp id ?_⟩
            rintro ⟨g', hg', e⟩
            exact ⟨g', List.mem_append_left _ hg', e⟩
          · injection hc with hc
            subst hc
            exact ⟨hlt, hset⟩
        · intro a g b he
          rcases List.eq_nil_or_concat b with rfl | ⟨b', y, rfl⟩
          · obtain ⟨h1, h2⟩ := List.append_inj' he rfl
            simp at h2
            subst h1; subst h2
            exact ⟨hlt, hf⟩
          · have he : s.output ++ [f] = _ := he
            rw [List.concat_eq_append, ← List.cons_append, ← List.append_assoc] at he
            obtain ⟨h1, -⟩ := List.append_inj' he rfl
            exact h.out a g b' h1
      cases a with
      | die => exact h.frame (frame_dead hw s.commands)
      | stop =>
        dsimp only
        split
        · exact h.frame (frame_dead hw _)
        · exact h
      | take =>
        dsimp only
        split
        · exact h
        · cases hi : s.input with
          | nil => exact h
          | cons f rest =>
            have hf : AsyncObs.submitted f ∈ tr := h.input f (by rw [hi]; simp)
            refine ⟨h.defaults, h.trace, h.blank, h.subs, h.dict, h.pend, h.gone,
              fun x hx => h.input x (by rw [hi]; exact List.mem_cons_of_mem _ hx), ?_, ?_, h.out⟩
            · intro w' hw' hb
              rcases List.mem_or_eq_of_mem_set hw' with hw' | rfl
              · exact h.busy w' hw' hb
              · exact ⟨f, rfl, hf⟩
            · intro w' hw' hb
              rcases List.mem_or_eq_of_mem_set hw' with hw' | rfl
              · exact h.idle w' hw' hb
              · cases hb
      | takeFails =>
        dsimp only
        split
        · exact h
        · rename_i hbusy
          cases hi : s.input with
          | nil => exact h
          | cons x rest =>
            have hsub : ∀ y ∈ rest, y ∈ s.input := fun y hy => by
              rw [hi]; exact List.mem_cons_of_mem _ hy
            dsimp only
            cases hc : w.cur with
            | none =>
              have h1 := h.frame (frame_dead hw s.commands)
              rw [hc] at h1
              exact ⟨h1.defaults, h1.trace, h1.blank, h1.subs, h1.dict, h1.pend, h1.gone,
                fun y hy => h.input y (hsub y hy), h1.busy, h1.idle, h1.out⟩
            | some f =>
              obtain ⟨h1, h2⟩ := h.idle w hwm (by simpa using hbusy) f hc
              exact report { f with result := none, exception := some .memory } rest hsub h1 (Or.inr h2)
      | finish ω =>
        dsimp only
        split
        · rename_i hbusy
          obtain ⟨f, hc, hf⟩ := h.busy w hwm hbusy
          rw [hc]
          dsimp only
          cases he : (execute J f s.defaults ω).bind (inspectResult J) with
          | none =>
            have := h.frame (frame_dead hw s.commands)
            rw [hc] at this
            exact this
          | some f' =>
            obtain ⟨b1, b2, b3⟩ := h.blank f hf
            obtain ⟨h1, h2⟩ := reports_execute ⟨b1, b2⟩ he
            rw [h.defaults] at h2
            exact report f' s.input (fun _ hx => hx) (by rw [← h1.1]; exact b3) (Or.inl ⟨f, hf, h1, h2⟩)
        · exact h
    · exact h

theorem Good.waiting {J : Jobs Fn V E Ω} {D : List (Str × V)} {tr : List (AsyncObs Fn V E)}
    {s : Evaluator Fn V E} (h : Good J D tr s) (b : Bool) : Good J D tr { s with waiting := b } :=
  ⟨h.defaults, h.trace, h.blank, h.subs, h.dict, h.pend, h.gone, h.input, h.busy, h.idle, h.out⟩

theorem waitBegin_run (s : Evaluator Fn V E) : waitBegin s =
    if s.futures.length = 0 then (.error .runtimeError, s) else (.ok (), { s with waiting := true }) := by
  unfold waitBegin
  rw [bind_ok get_run]
  split <;> rfl

theorem Good.step {J : Jobs Fn V E Ω} {D : List (Str × V)} {tr : List (AsyncObs Fn V E)}
    {s : Evaluator Fn V E} (h : Good J D tr s) (e : AsyncEvent Fn V Ω) :
    Good J D (tr ++ [(asyncStep J s e).1]) (asyncStep J s e).2 := by
  have hn : Good J D (tr ++ [.nothing]) s :=
    h.quiet ⟨by intro f; simp, by intro f; simp⟩
  cases hw : s.waiting with
  | true =>
    cases e with
    | submit fn args kwargs => simp only [asyncStep, hw, if_true]; exact hn
    | wait => simp only [asyncStep, hw, if_true]; exact hn
    | iterate r₁ r₂ r₃ o =>
      simp only [asyncStep, hw, if_true]
      rcases waitIteration_split r₁ r₂ r₃ o s with ⟨s1, hf, he⟩ | ⟨e, s1, hf, he⟩
      · rw [he]
        have hp := (h.frame hf).poll
        cases hr : pollOutput s1 with
        | mk r s2 =>
          rw [hr] at hp
          cases r with
          | error e => exact hp.waiting false
          | ok x => cases x with
            | none => exact hp
            | some f => exact hp.waiting false
      · rw [he]
        exact ((h.frame hf).quiet ⟨by intro f; simp, by intro f; simp⟩).waiting false
    | worker pid a =>
      exact (h.worker pid a).quiet ⟨by intro f; simp [asyncStep], by intro f; simp [asyncStep]⟩
  | false =>
    have hb : ¬ (false = true) := by simp
    cases e with
    | submit fn args kwargs =>
      simp only [asyncStep, hw, if_neg hb]
      exact h.submit fn args kwargs
    | wait =>
      simp only [asyncStep, hw, if_neg hb]
      rw [waitBegin_run]
      by_cases hl : s.futures.length = 0
      · rw [if_pos hl]
        exact h.quiet ⟨by intro f; simp, by intro f; simp⟩
      · rw [if_neg hl]
        exact hn.waiting true
    | iterate r₁ r₂ r₃ o => simp only [asyncStep, hw, if_neg hb]; exact hn
    | worker pid a =>
      exact (h.worker pid a).quiet ⟨by intro f; simp [asyncStep], by intro f; simp [asyncStep]⟩

theorem Good.run {J : Jobs Fn V E Ω} {D : List (Str × V)} (es : List (AsyncEvent Fn V Ω)) :
    ∀ {tr : List (AsyncObs Fn V E)} {s : Evaluator Fn V E}, Good J D tr s →
      Good J D (tr ++ (asyncRun J es s).1) (asyncRun J es s).2 := by
  induction es with
  | nil => intro tr s h; rw [asyncRun, List.append_nil]; exact h
  | cons e es ih =>
    intro tr s h
    have := ih (h.step e)
    rw [List.append_assoc] at this
    exact this

end
end Gama
