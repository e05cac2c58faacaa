import Verif.Props.Async

/-! # Waiting for results is not ended by what happens to worker processes (C172) -/

namespace Gama
open PyM Spec

section
variable {Fn V E Ω : Type}

/-! ## What is claimed -/

/-- The first of the worker processes that use most, of those whose use could be read. -/
def Spec.Largest (procs : List Nat) (r : Readings) (q : Nat) : Prop :=
  ∃ pre post mb, procs = pre ++ q :: post ∧ r.worker q = some mb ∧
    (∀ p ∈ pre, ∀ b, r.worker p = some b → b < mb) ∧ ∀ p ∈ post, ∀ b, r.worker p = some b → b ≤ mb

/-- What makes a check of the memory use raise `e`: the total exceeds the limit, and either there is no
worker whose use could be read, or the one that uses most is gone before it is stopped, does not stop
in time, or was replaced by a new one when the use was read once more for the log. -/
def Spec.CheckRaises (limit : Option ℚ) (logfile : Bool) (procs : List Nat) (r r' : Readings) (o : StopOutcome)
    (e : Exn) : Prop :=
  ∃ L, limit = some L ∧ L < r.main + (procs.filterMap r.worker).sum ∧
    (((∀ q ∈ procs, r.worker q = none) ∧ e = .valueError) ∨
     ∃ q, Largest procs r q ∧
      ((o = .gone ∧ e = .noSuchProcess) ∨ (o = .timeout ∧ e = .timeout) ∨
       (o = .ok ∧ logfile = true ∧ r'.worker q = none ∧ e = .valueError)))

/-- **C172, the full claim**: while it waits for a result, the evaluator raises nothing. -/
def C172_claim : Prop :=
  ∀ (Fn V E Ω : Type) (J : Jobs Fn V E Ω) (n : Nat) (limit : Option ℚ) (logfile : Bool)
    (D : List (Str × V)) (es : List (AsyncEvent Fn V Ω)) (r₁ r₂ r₃ : Readings) (o : StopOutcome) (e : Exn),
    1 ≤ n → (asyncStep J (asyncRun J es (entered n limit logfile D)).2 (.iterate r₁ r₂ r₃ o)).1 ≠ .raised e

/-! ## Reading the memory use -/

theorem wp_gone_usage (r : Readings) (q : Nat) : ∀ (ps : List Nat) (s : Evaluator Fn V E),
    q < s.workers.length →
    wp (usageLoop r ps) (fun _ s' => (q ∉ s.procs → q ∉ s'.procs) ∧
        (q ∈ ps → r.worker q = none → q ∉ s'.procs)) (fun _ _ => False) s := by
  intro ps
  induction ps with
  | nil => intro s _; exact wp_pure.2 ⟨id, nofun⟩
  | cons p ps ih =>
    intro s hq
    unfold usageLoop
    cases hr : r.worker p with
    | some mb =>
      simp only [wp_bind]
      refine wp_mono ?_ (fun _ _ h => h) (ih s hq)
      rintro us s' ⟨h1, h2⟩
      refine wp_pure.2 ⟨h1, fun hm hn => ?_⟩
      rcases List.mem_cons.1 hm with rfl | hm
      · rw [hr] at hn; cases hn
      · exact h2 hm hn
    | none =>
      simp only [wp_bind, wp_modify, startWorker]
      refine wp_mono ?_ (fun _ _ h => h) (ih _ ?_)
      · rintro us s' ⟨h1, h2⟩
        have keep : q ∉ s.procs ∨ q = p → q ∉ s'.procs := by
          intro h
          refine h1 ?_
          show q ∉ (s.procs.filter fun x => x != p) ++ [(kill s p).length]
          rw [List.mem_append, not_or, kill_length]
          refine ⟨fun hm => ?_, by simp; omega⟩
          obtain ⟨h3, h4⟩ := List.mem_filter.1 hm
          rcases h with h | h
          · exact h h3
          · simp [h] at h4
        refine ⟨fun h => keep (.inl h), fun hm hn => ?_⟩
        rcases List.mem_cons.1 hm with rfl | hm
        · exact keep (.inr rfl)
        · exact h2 hm hn
      · show q < (kill s p ++ [_]).length
        rw [List.length_append, kill_length]
        omega

/-- Reading the memory use for the log replaces exactly the workers that are gone. -/
theorem logUsage_procs (r : Readings) {s : Evaluator Fn V E} (h : ProcsOK s) :
    ∃ s', logUsage r s = (.ok (), s') ∧ ProcsOK s' ∧ s'.logfile = s.logfile ∧
      ∀ q ∈ s.procs, (q ∈ s'.procs ↔ ¬ (s.logfile = true ∧ r.worker q = none)) := by
  have hw := wp_procs_log r h
  have hf := wp_frame_log r s
  cases hr : logUsage r s with
  | mk x s' =>
    cases x with
    | error e => exact (wp_error hw hr).elim
    | ok u =>
      obtain ⟨h1, _, h3⟩ := wp_ok hw hr
      refine ⟨s', rfl, h1, (wp_ok hf hr).logfile, fun q hq => ⟨?_, fun hn => ?_⟩⟩
      · rintro hm ⟨hl, hn⟩
        have hg : wp (logUsage r) (fun _ s' => q ∉ s'.procs) (fun _ _ => True) s := by
          simp only [logUsage, wp_bind, wp_get, memoryUsage, wp_ite]
          refine ⟨fun _ => ?_, fun hl' => absurd hl hl'⟩
          refine wp_mono ?_ (fun _ _ _ => trivial) (wp_gone_usage r q s.procs s (h.2 q hq))
          intro us t ht
          exact wp_pure.2 (ht.2 hq hn)
        exact wp_ok hg hr hm
      · by_cases hl : s.logfile = true
        · exact h3 q hq fun hw => hn ⟨hl, hw⟩
        · have : logUsage r s = (.ok (), s) := by
            unfold logUsage
            rw [bind_ok get_run, if_neg hl]
            rfl
          rw [this] at hr
          cases hr
          exact hq

theorem maxUsage_none {us : List (Nat × ℚ)} : maxUsage us = none ↔ us = [] := by
  cases us with
  | nil => exact iff_of_true rfl rfl
  | cons a us => exact iff_of_false nofun nofun

/-- `max` takes the first of the largest. -/
theorem maxUsage_first {us : List (Nat × ℚ)} {x : Nat × ℚ} (h : maxUsage us = some x) :
    ∃ pre post, us = pre ++ x :: post ∧ (∀ y ∈ pre, y.2 < x.2) ∧ ∀ y ∈ post, y.2 ≤ x.2 := by
  cases us with
  | nil => cases h
  | cons a us =>
    simp only [maxUsage, Option.some.injEq] at h
    subst h
    have key : ∀ (l : List (Nat × ℚ)) (a : Nat × ℚ),
        ∃ pre post, a :: l = pre ++ (l.foldl (fun a b => if a.2 < b.2 then b else a) a) :: post ∧
          (∀ y ∈ pre, y.2 < (l.foldl (fun a b => if a.2 < b.2 then b else a) a).2) ∧
          ∀ y ∈ post, y.2 ≤ (l.foldl (fun a b => if a.2 < b.2 then b else a) a).2 := by
      intro l
      induction l with
      | nil => intro a; exact ⟨[], [], rfl, nofun, nofun⟩
      | cons b l ih =>
        intro a
        rw [List.foldl_cons]
        by_cases hlt : a.2 < b.2
        · rw [if_pos hlt]
          obtain ⟨pre, post, h1, h2, h3⟩ := ih b
          refine ⟨a :: pre, post, by rw [h1]; rfl, ?_, h3⟩
          intro y hy
          rcases List.mem_cons.1 hy with rfl | hy
          · cases pre with
            | nil =>
              have := (List.cons.inj h1).1
              rw [← this]; exact hlt
            | cons c pre =>
              have := (List.cons.inj h1).1
              subst this
              exact hlt.trans (h2 _ List.mem_cons_self)
          · exact h2 y hy
        · rw [if_neg hlt]
          obtain ⟨pre, post, h1, h2, h3⟩ := ih a
          cases pre with
          | nil =>
            obtain ⟨e1, e2⟩ := List.cons.inj h1
            refine ⟨[], b :: l, by rw [← e1]; rfl, nofun, ?_⟩
            intro y hy
            rcases List.mem_cons.1 hy with rfl | hy
            · rw [← e1]; exact not_lt.1 hlt
            · exact h3 y (e2 ▸ hy)
          | cons c pre =>
            obtain ⟨e1, e2⟩ := List.cons.inj h1
            subst e1
            refine ⟨a :: b :: pre, post, congrArg (fun x => a :: b :: x) e2, ?_, h3⟩
            intro y hy
            rcases List.mem_cons.1 hy with rfl | hy
            · exact h2 _ List.mem_cons_self
            · rcases List.mem_cons.1 hy with rfl | hy
              · exact lt_of_le_of_lt (not_lt.1 hlt) (h2 _ List.mem_cons_self)
              · exact h2 y (List.mem_cons_of_mem _ hy)
    exact key us a

theorem filterMap_split {α β : Type} (g : α → Option β) : ∀ (l : List α) (pre post : List β) (x : β),
    l.filterMap g = pre ++ x :: post →
    ∃ l₁ a l₂, l = l₁ ++ a :: l₂ ∧ l₁.filterMap g = pre ∧ g a = some x ∧ l₂.filterMap g = post := by
  intro l
  induction l with
  | nil => intro pre post x h; cases pre <;> cases h
  | cons a l ih =>
    intro pre post x h
    rw [List.filterMap_cons] at h
    cases hg : g a with
    | none =>
      rw [hg] at h
      obtain ⟨l₁, b, l₂, e, h1, h2, h3⟩ := ih pre post x h
      exact ⟨a :: l₁, b, l₂, by rw [e]; rfl, by rw [List.filterMap_cons, hg]; exact h1, h2, h3⟩
    | some y =>
      rw [hg] at h
      cases pre with
      | nil =>
        obtain ⟨e1, e2⟩ := List.cons.inj h
        subst e1
        exact ⟨[], a, l, rfl, rfl, hg, e2⟩
      | cons z pre =>
        obtain ⟨e1, e2⟩ := List.cons.inj h
        subst e1
        obtain ⟨l₁, b, l₂, e, h1, h2, h3⟩ := ih pre post x e2
        exact ⟨a :: l₁, b, l₂, by rw [e]; rfl, by rw [List.filterMap_cons, hg, h1], h2, h3⟩

theorem largest_of_max {procs : List Nat} {r : Readings} {x : Nat × ℚ}
    (h : maxUsage (procs.filterMap fun p => (r.worker p).map fun mb => (p, mb)) = some x) :
    Largest procs r x.1 := by
  obtain ⟨pre, post, e, h1, h2⟩ := maxUsage_first h
  obtain ⟨l₁, a, l₂, el, e1, ea, e2⟩ := filterMap_split _ _ _ _ _ e
  cases hw : r.worker a with
  | none => rw [hw] at ea; cases ea
  | some mb =>
    rw [hw] at ea
    cases ea
    refine ⟨l₁, l₂, mb, el, hw, fun p hp b hb => ?_, fun p hp b hb => ?_⟩
    · exact h1 (p, b) (e1 ▸ List.mem_filterMap.2 ⟨p, hp, by rw [hb]; rfl⟩)
    · exact h2 (p, b) (e2 ▸ List.mem_filterMap.2 ⟨p, hp, by rw [hb]; rfl⟩)

/-- There is only one such worker. -/
theorem largest_unique {procs : List Nat} {r : Readings} {q q' : Nat} (h : Largest procs r q)
    (h' : Largest procs r q') : q = q' := by
  obtain ⟨pre, post, mb, e, hq, h1, h2⟩ := h
  obtain ⟨pre', post', mb', e', hq', h1', h2'⟩ := h'
  rw [e] at e'
  rcases List.append_eq_append_iff.1 e' with ⟨as, ha, hb⟩ | ⟨as, ha, hb⟩
  · cases as with
    | nil => exact (List.cons.inj hb).1
    | cons c as =>
      obtain ⟨hc, hd⟩ := List.cons.inj hb
      subst hc
      have := h1' q (ha ▸ List.mem_append_right _ List.mem_cons_self) mb hq
      have := h2 q' (hd ▸ List.mem_append_right _ List.mem_cons_self) mb' hq'
      linarith
  · cases as with
    | nil => exact (List.cons.inj hb).1.symm
    | cons c as =>
      obtain ⟨hc, hd⟩ := List.cons.inj hb
      subst hc
      have := h1 q' (ha ▸ List.mem_append_right _ List.mem_cons_self) mb' hq'
      have := h2' q (hd ▸ List.mem_append_right _ List.mem_cons_self) mb hq
      linarith

/-- What ends a restart or stop: the same in both cases. -/
theorem restartOrKill_result (pid : Nat) (o : StopOutcome) (s : Evaluator Fn V E) :
    (restartOrKill pid o s).1 = match o with
      | .gone => .error .noSuchProcess
      | .timeout => .error .timeout
      | .ok => if pid ∈ s.procs then .ok () else .error .valueError := by
  have stop : ∀ t : Evaluator Fn V E, t.procs = s.procs → ∃ t', stopWorker pid o t = (match o with
      | .gone => .error .noSuchProcess
      | .timeout => .error .timeout
      | .ok => if pid ∈ s.procs then .ok () else .error .valueError, t') := by
    intro t ht
    cases o with
    | gone => exact ⟨_, rfl⟩
    | timeout => exact ⟨_, rfl⟩
    | ok =>
      unfold stopWorker
      dsimp only
      rw [bind_ok (modify_run)]
      unfold removeProc
      rw [bind_ok get_run]
      dsimp only
      rw [ht]
      by_cases hm : pid ∈ s.procs
      · rw [if_pos hm, if_pos hm]; exact ⟨_, rfl⟩
      · rw [if_neg hm, if_neg hm]; exact ⟨_, rfl⟩
  unfold restartOrKill
  rw [bind_ok get_run]
  split
  · obtain ⟨t', ht⟩ := stop s rfl
    cases o with
    | gone => rw [bind_error ht]
    | timeout => rw [bind_error ht]
    | ok =>
      dsimp only at ht ⊢
      by_cases hm : pid ∈ s.procs
      · rw [if_pos hm] at ht ⊢
        rw [bind_ok ht]
        rfl
      · rw [if_neg hm] at ht ⊢
        rw [bind_error ht]
  · rw [bind_ok (modify_run)]
    obtain ⟨t', ht⟩ := stop { s with behaved := 0, violations := 0 } rfl
    rw [ht]

/-- A check of the memory use raises exactly as said. -/
theorem control_raises (r r' : Readings) (o : StopOutcome) {s : Evaluator Fn V E} (h : ProcsOK s) (e : Exn) :
    (controlMemory r r' o s).1 = .error e ↔ CheckRaises s.limit s.logfile s.procs r r' o e := by
  unfold controlMemory
  rw [bind_ok get_run]
  cases hL : s.limit with
  | none => exact iff_of_false nofun (by rintro ⟨L, hl, -⟩; cases hl)
  | some L =>
    dsimp only
    have hw := wp_procs_usage r s.procs s h h.1 fun _ hp => hp
    have hf := wp_frame_usage r s.procs s
    cases hu : usageLoop r s.procs s with
    | mk x s1 =>
      cases x with
      | error e => exact (wp_error hw hu).elim
      | ok us =>
        obtain ⟨k1, -, k3, k4⟩ := wp_ok hw hu
        have hl1 : s1.logfile = s.logfile := (wp_ok hf hu).logfile
        have hm : memoryUsage r s = (.ok us, s1) := hu
        rw [bind_ok hm]
        by_cases hlt : L < r.main + (us.map Prod.snd).sum
        · rw [if_pos hlt]
          obtain ⟨s2, hl2, l1, _, l3⟩ := logUsage_procs r' k1
          rw [bind_ok hl2, bind_ok (modify_run)]
          rw [k3, usage_total] at hlt
          cases hmax : maxUsage us with
          | none =>
            have hnil := maxUsage_none.1 hmax
            rw [k3, List.filterMap_eq_nil_iff] at hnil
            have hall : ∀ q ∈ s.procs, r.worker q = none := by
              intro q hq
              have := hnil q hq
              cases hw : r.worker q with
              | none => rfl
              | some mb => rw [hw] at this; cases this
            constructor
            · intro he
              cases he
              exact ⟨L, rfl, hlt, .inl ⟨hall, rfl⟩⟩
            · rintro ⟨L', -, -, ⟨-, rfl⟩ | ⟨q, ⟨pre, post, mb, eq, hq, -⟩, -⟩⟩
              · rfl
              · rw [hall q (eq ▸ List.mem_append_right _ List.mem_cons_self)] at hq
                cases hq
          | some x =>
            have hlg := largest_of_max (k3 ▸ hmax)
            have hx : x.1 ∈ s.procs ∧ r.worker x.1 ≠ none := by
              obtain ⟨pre, post, mb, eq, hq, -⟩ := hlg
              exact ⟨eq ▸ List.mem_append_right _ List.mem_cons_self, by rw [hq]; nofun⟩
            dsimp only
            rw [restartOrKill_result]
            have hmem := l3 x.1 (k4 x.1 hx.1 fun _ => hx.2)
            rw [hl1] at hmem
            constructor
            · intro he
              refine ⟨L, rfl, hlt, .inr ⟨x.1, hlg, ?_⟩⟩
              cases o with
              | gone => cases he; exact .inl ⟨rfl, rfl⟩
              | timeout => cases he; exact .inr (.inl ⟨rfl, rfl⟩)
              | ok =>
                dsimp only at he
                by_cases hp : x.1 ∈ s2.procs
                · rw [if_pos hp] at he; cases he
                · rw [if_neg hp] at he
                  cases he
                  have := not_not.1 (mt hmem.2 hp)
                  exact .inr (.inr ⟨rfl, this.1, this.2, rfl⟩)
            · rintro ⟨L', -, -, ⟨hall, -⟩ | ⟨q, hq, hc⟩⟩
              · exact absurd (hall x.1 hx.1) hx.2
              · rw [← largest_unique hlg hq] at hc
                rcases hc with ⟨rfl, rfl⟩ | ⟨rfl, rfl⟩ | ⟨rfl, hf, hn, rfl⟩
                · rfl
                · rfl
                · dsimp only
                  rw [if_neg]
                  exact fun hp => hmem.1 hp ⟨hf, hn⟩
        · rw [if_neg hlt]
          rw [k3, usage_total] at hlt
          refine iff_of_false nofun ?_
          rintro ⟨L', hL', hlt', -⟩
          cases hL'
          exact hlt hlt'

theorem logfile_run (J : Jobs Fn V E Ω) (n : Nat) (limit : Option ℚ) (logfile : Bool)
    (D : List (Str × V)) (es : List (AsyncEvent Fn V Ω)) :
    (asyncRun J es (entered n limit logfile D : Evaluator Fn V E)).2.logfile = logfile := by
  have step : ∀ (s : Evaluator Fn V E) (e : AsyncEvent Fn V Ω), (asyncStep J s e).2.logfile = s.logfile := by
    intro s e
    refine step_cases (P := fun _ s' => s'.logfile = s.logfile) J s e rfl (fun _ _ _ _ _ => rfl)
      (fun _ _ _ => rfl) (fun _ _ _ => rfl) ?_ ?_
    · intro r₁ r₂ r₃ o b _ _
      show (waitIteration r₁ r₂ r₃ o s).2.logfile = s.logfile
      rcases waitIteration_split r₁ r₂ r₃ o s with ⟨s1, hf, he⟩ | ⟨e, s1, hf, he⟩
      · rw [he, pollOutput_run, ← hf.logfile]
        cases s1.output with
        | nil => rfl
        | cons f rest =>
          dsimp only
          cases dget s1.futures f.id <;> rfl
      · rw [he]; exact hf.logfile
    · intro pid a _
      exact (workerStep_frame (J := J) (s := s) pid a).2.2.2.2.2.2.2
  have run : ∀ (es : List (AsyncEvent Fn V Ω)) (s : Evaluator Fn V E),
      (asyncRun J es s).2.logfile = s.logfile := by
    intro es
    induction es with
    | nil => intro s; rfl
    | cons e es ih => intro s; exact (ih _).trans (step s e)
  rw [run]
  obtain ⟨ws, ps, -, -, -, he⟩ := entered_run (Fn := Fn) (E := E) n limit logfile D
  rw [he]
  rfl

/-! ## C172 -/

/-- **C172**, exactly: in any state a pool of workers can get into, waiting raises `e` if and only if a
check of the memory use does (`CheckRaises`), or none does and the next result is of a job that is not
pending (then a `KeyError`). -/
theorem C172_exact (J : Jobs Fn V E Ω) (n : Nat) (limit : Option ℚ) (logfile : Bool)
    (D : List (Str × V)) (es : List (AsyncEvent Fn V Ω)) (r₁ r₂ r₃ : Readings) (o : StopOutcome) (e : Exn) :
    let s : Evaluator Fn V E := (asyncRun J es (entered n limit logfile D)).2
    s.waiting = true →
    ((asyncStep J s (.iterate r₁ r₂ r₃ o)).1 = .raised e ↔
      CheckRaises limit logfile s.procs r₁ r₂ o e ∨
      ((∀ e', ¬ CheckRaises limit logfile s.procs r₁ r₂ o e') ∧ e = .keyError ∧
        ∃ f, s.output.head? = some f ∧ f.id ∉ s.futures.map Prod.fst)) := by
  intro s hwait
  have h := pool_run (J := J) es (pool_entered (Fn := Fn) (V := V) (E := E) n limit logfile D)
  have hlim : s.limit = limit := h.limit
  have hlog : s.logfile = logfile := logfile_run J n limit logfile D es
  have hc := fun e => control_raises r₁ r₂ o (s := s) h.ok e
  rw [hlim, hlog] at hc
  have hobs : (asyncStep J s (.iterate r₁ r₂ r₃ o)).1 = .raised e ↔ (waitIteration r₁ r₂ r₃ o s).1 = .error e := by
    simp only [asyncStep, hwait, if_true]
    cases hr : waitIteration r₁ r₂ r₃ o s with
    | mk x s' =>
      cases x with
      | error e' =>
        constructor
        · intro he; cases he; rfl
        · intro he; cases he; rfl
      | ok f => cases f <;> exact iff_of_false nofun nofun
  rw [hobs]
  unfold waitIteration
  have hf := wp_frame_control r₁ r₂ o s
  have hpc := wp_procs_control r₁ r₂ o h.ok
  cases hr : controlMemory r₁ r₂ o s with
  | mk x s1 =>
    rw [hr] at hc
    cases x with
    | error e' =>
      rw [bind_error hr]
      constructor
      · intro he; cases he; exact .inl ((hc e).1 rfl)
      · rintro (he | ⟨hn, -⟩)
        · have := (hc e).2 he
          cases this; rfl
        · exact absurd ((hc e').1 rfl) (hn e')
    | ok u =>
      have hno : ∀ e', ¬ CheckRaises limit logfile s.procs r₁ r₂ o e' := fun e' he => by
        have := (hc e').2 he
        cases this
      rw [bind_ok hr]
      have f1 := wp_ok hf hr
      obtain ⟨s2, hl, -⟩ := logUsage_procs r₃ (wp_ok hpc hr).ok
      have f2 := wp_ok (wp_frame_log r₃ s1) hl
      rw [bind_ok hl, pollOutput_run, f2.output, f2.futures, f1.output, f1.futures]
      cases ho : s.output with
      | nil =>
        refine iff_of_false nofun ?_
        rintro (he | ⟨-, -, f, hf, -⟩)
        · exact hno e he
        · cases hf
      | cons f rest =>
        dsimp only
        cases hg : dget s.futures f.id with
        | none =>
          constructor
          · intro he
            cases he
            exact .inr ⟨hno, rfl, f, rfl, dget_eq_none.1 hg⟩
          · rintro (he | ⟨-, rfl, -⟩)
            · exact absurd he (hno e)
            · rfl
        | some m =>
          refine iff_of_false nofun ?_
          rintro (he | ⟨-, -, f', hf', hk⟩)
          · exact hno e he
          · cases hf'
            rw [dget_eq_none.2 hk] at hg
            cases hg

/-- Unless a worker runs out of memory while it receives a job, no result is reported twice. -/
theorem conserved_run (J : Jobs Fn V E Ω) (n : Nat) (limit : Option ℚ) (logfile : Bool)
    (D : List (Str × V)) (es : List (AsyncEvent Fn V Ω)) (hn : ∀ pid, AsyncEvent.worker pid .takeFails ∉ es) :
    Conserved (asyncRun J es (entered n limit logfile D : Evaluator Fn V E)).2 := by
  have step : ∀ (tr : List (AsyncObs Fn V E)) (s : Evaluator Fn V E) (e : AsyncEvent Fn V Ω), Good J D tr s →
      Conserved s → (∀ pid, e ≠ .worker pid .takeFails) → Conserved (asyncStep J s e).2 := by
    intro tr s e hg hs he
    refine step_cases (P := fun _ s' => Conserved s') J s e hs ?_ (fun _ _ _ => hs) (fun _ _ _ => hs) ?_ ?_
    · intro fn args kwargs _ _
      exact hs.submit (fun hk => absurd (hg.key_lt hk) (Nat.lt_irrefl _)) fn args kwargs
    · intro r₁ r₂ r₃ o b _ _
      have goal : Conserved (waitIteration r₁ r₂ r₃ o s).2 := by
        unfold waitIteration
        have hf := wp_frame_control r₁ r₂ o s
        have hj := wp_jobs_control r₁ r₂ o s
        cases hr : controlMemory r₁ r₂ o s with
        | mk x s1 =>
          cases x with
          | error e =>
            rw [bind_error hr]
            exact Conserved.frame hs (wp_error hf hr) (wp_error hj hr)
          | ok u =>
            rw [bind_ok hr]
            have f1 := wp_ok hf hr
            have j1 := wp_ok hj hr
            have c1 := Conserved.frame hs f1 j1
            cases hr2 : logUsage r₃ s1 with
            | mk x s2 =>
              cases x with
              | error e =>
                rw [bind_error hr2]
                exact c1.frame (wp_error (wp_frame_log r₃ s1) hr2) (wp_error (wp_jobs_log r₃ s1) hr2)
              | ok u =>
                rw [bind_ok hr2]
                have f2 := wp_ok (wp_frame_log r₃ s1) hr2
                have j2 := wp_ok (wp_jobs_log r₃ s1) hr2
                exact ((Conserved.frame c1 f2 j2).poll
                  (f2.futures ▸ f1.futures ▸ hg.dict)).1
      exact goal
    · intro pid a ha
      subst ha
      exact hs.worker pid (by rintro rfl; exact he pid rfl)
  have along : ∀ (es : List (AsyncEvent Fn V Ω)) (s : Evaluator Fn V E),
      (∀ pid, AsyncEvent.worker pid .takeFails ∉ es) →
      Along J (fun _ e => ∀ pid, e ≠ .worker pid .takeFails) es s := by
    intro es
    induction es with
    | nil => intro s _; trivial
    | cons e es ih =>
      intro s h
      exact ⟨fun pid he => h pid (he ▸ List.mem_cons_self), ih _ fun pid hm => h pid (List.mem_cons_of_mem _ hm)⟩
  exact run_induct (J := J) (D := D) (P := fun _ s => Conserved s)
    (C := fun _ e => ∀ pid, e ≠ .worker pid .takeFails) step es [] _
    (good_entered (Fn := Fn) (E := E) J n limit logfile D) (conserved_entered n limit logfile D) (along es _ hn)

/-- **C172** as far as it holds: unless a worker runs out of memory while it receives a job, waiting raises
`e` if and only if a check of the memory use does.  So without a memory limit, or while the total is
within it, nothing is raised, whatever else happens to worker processes. -/
theorem C172_partial (J : Jobs Fn V E Ω) (n : Nat) (limit : Option ℚ) (logfile : Bool)
    (D : List (Str × V)) (es : List (AsyncEvent Fn V Ω)) (hn : ∀ pid, AsyncEvent.worker pid .takeFails ∉ es)
    (r₁ r₂ r₃ : Readings) (o : StopOutcome) (e : Exn) :
    let s : Evaluator Fn V E := (asyncRun J es (entered n limit logfile D)).2
    s.waiting = true →
    ((asyncStep J s (.iterate r₁ r₂ r₃ o)).1 = .raised e ↔ CheckRaises limit logfile s.procs r₁ r₂ o e) := by
  intro s hwait
  refine (C172_exact J n limit logfile D es r₁ r₂ r₃ o e hwait).trans ⟨?_, .inl⟩
  rintro (h | ⟨-, -, f, hf, hk⟩)
  · exact h
  · exfalso
    have hc := conserved_run J n limit logfile D es hn
    refine hk (hc.mem_iff.1 ?_)
    unfold inFlight
    refine List.mem_map.2 ⟨f, List.mem_append_right _ ?_, rfl⟩
    exact List.mem_of_mem_head? hf

/-- **C172** fails: the only worker is gone when the total exceeds the limit (here by the main process
alone), and the maximum of an empty list is asked for. -/
theorem C172_false : ¬ C172_claim := by
  intro h
  refine h Nat Nat Nat Unit Ex.jobs 1 (some 12) false []
    [.submit 0 [3] [], .worker 0 .take, .worker 0 .die, .wait] ⟨13, fun _ => none⟩ (Ex.reading 0) (Ex.reading 0) .ok
    .valueError le_rfl ?_
  rw [C172_exact _ _ _ _ _ _ _ _ _ _ _ rfl]
  exact .inl ⟨12, rfl, by decide +kernel, .inl ⟨fun _ _ => rfl, rfl⟩⟩

/-- A worker that runs out of memory while it receives a job reports its last one again: without any limit,
the wait for the next result ends in a `KeyError`. -/
theorem C172_twice : (asyncRun Ex.jobs Ex.duplicated (Ex.pool 1 none)).1.getLast? = some (.raised .keyError) := by
  rfl

/-- A worker that is gone between the reading and the attempt to stop it ends the wait as well. -/
example : (asyncStep Ex.jobs (asyncRun Ex.jobs [.submit 0 [3] [], .worker 0 .take, .wait] (Ex.pool 2 (some 12))).2
    (.iterate ⟨10, fun p => some (p + 1 : Nat)⟩ (Ex.reading 0) (Ex.reading 0) .gone)).1 = .raised .noSuchProcess :=
  (C172_partial Ex.jobs 2 (some 12) false [] [.submit 0 [3] [], .worker 0 .take, .wait] (by simp) _ _ _ _ _ rfl).2
    ⟨12, rfl, by decide +kernel, .inr ⟨1, ⟨[0], [], 2, rfl, rfl, by
      intro p hp b hb
      cases List.mem_singleton.1 hp
      cases hb
      decide +kernel, nofun⟩, .inl ⟨rfl, rfl⟩⟩⟩

end
end Gama
