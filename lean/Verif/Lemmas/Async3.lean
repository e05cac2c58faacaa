import Verif.Lemmas.Async2
import Mathlib.Tactic.Linarith

/-! # The asynchronous evaluator: processes and counters -/

namespace Gama
open PyM Spec

section
variable {Fn V E Ω : Type}

/-! ## Worker processes -/

/-- The process list has no duplicates and refers to started processes. -/
def ProcsOK (s : Evaluator Fn V E) : Prop := s.procs.Nodup ∧ ∀ p ∈ s.procs, p < s.workers.length

theorem kill_length (s : Evaluator Fn V E) (pid : Nat) : (kill s pid).length = s.workers.length := by
  unfold kill
  cases s.workers[pid]? <;> simp

theorem procs_start {s : Evaluator Fn V E} (h : ProcsOK s) : ProcsOK (startWorker s).2 := by
  refine ⟨?_, ?_⟩
  · show (s.procs ++ [s.workers.length]).Nodup
    rw [List.nodup_append]
    refine ⟨h.1, List.pairwise_singleton _ _, ?_⟩
    intro a ha b hb
    simp at hb
    have := h.2 a ha
    omega
  · intro p hp
    have hp : p ∈ s.procs ++ [s.workers.length] := hp
    show p < (s.workers ++ [_]).length
    rw [List.length_append, List.length_singleton]
    rcases List.mem_append.1 hp with hp | hp
    · have := h.2 p hp; omega
    · simp at hp; omega

theorem filter_ne_length {l : List Nat} (h : l.Nodup) {p : Nat} (hp : p ∈ l) :
    (l.filter fun q => q != p).length + 1 = l.length := by
  have : (l.filter fun q => q != p) = l.erase p := by
    rw [List.Nodup.erase_eq_filter h]
  rw [this, List.length_erase_of_mem hp]
  have := List.length_pos_of_mem hp
  omega

/-- Reading the memory use replaces vanished processes one for one. -/
theorem wp_procs_usage (r : Readings) : ∀ (ps : List Nat) (s : Evaluator Fn V E), ProcsOK s →
    ps.Nodup → (∀ p ∈ ps, p ∈ s.procs) →
    wp (usageLoop r ps) (fun us s' => ProcsOK s' ∧ s'.procs.length = s.procs.length ∧
        us = ps.filterMap (fun p => (r.worker p).map fun mb => (p, mb)) ∧
        (∀ q ∈ s.procs, (q ∈ ps → r.worker q ≠ none) → q ∈ s'.procs))
      (fun _ _ => False) s := by
  intro ps
  induction ps with
  | nil => intro s h _ _; exact ⟨h, rfl, rfl, fun q hq _ => hq⟩
  | cons p ps ih =>
    intro s h hnd hsub
    have hnd' := List.nodup_cons.1 hnd
    unfold usageLoop
    cases hr : r.worker p with
    | some mb =>
      simp only [wp_bind]
      refine wp_mono ?_ (fun _ _ h => h)
        (ih s h hnd'.2 fun q hq => hsub q (List.mem_cons_of_mem _ hq))
      intro us s' hs
      refine wp_pure.2 ⟨hs.1, hs.2.1, ?_, ?_⟩
      · rw [List.filterMap_cons, hr, hs.2.2.1]; rfl
      · intro q hq hn
        exact hs.2.2.2 q hq fun hm => hn (List.mem_cons_of_mem _ hm)
    | none =>
      simp only [wp_bind, wp_modify, startWorker]
      have hp : p ∈ s.procs := hsub p List.mem_cons_self
      have h1 : ProcsOK { s with workers := kill s p, procs := s.procs.filter fun q => q != p } := by
        refine ⟨h.1.filter _, ?_⟩
        intro q hq
        show q < (kill s p).length
        rw [kill_length]
        exact h.2 q (List.mem_filter.1 hq).1
      have h2 := procs_start h1
      refine wp_mono ?_ (fun _ _ h => h) (ih _ h2 hnd'.2 ?_)
      · intro us s' hs
        refine ⟨hs.1, ?_, ?_, ?_⟩
        · refine hs.2.1.trans ?_
          show ((s.procs.filter fun q => q != p) ++ [_]).length = _
          rw [List.length_append, List.length_singleton]
          exact filter_ne_length h.1 hp
        · rw [List.filterMap_cons, hr, hs.2.2.1]; rfl
        · intro q hq hn
          refine hs.2.2.2 q ?_ fun hm => hn (List.mem_cons_of_mem _ hm)
          refine List.mem_append_left _ (List.mem_filter.2 ⟨hq, ?_⟩)
          have : q ≠ p := by
            rintro rfl
            exact hn List.mem_cons_self hr
          simpa using this
      · intro q hq
        refine List.mem_append_left _ (List.mem_filter.2 ⟨hsub q (List.mem_cons_of_mem _ hq), ?_⟩)
        have : q ≠ p := by rintro rfl; exact hnd'.1 hq
        simpa using this

theorem wp_procs_log (r : Readings) {s : Evaluator Fn V E} (h : ProcsOK s) :
    wp (logUsage r) (fun _ s' => ProcsOK s' ∧ s'.procs.length = s.procs.length ∧
        (∀ q ∈ s.procs, r.worker q ≠ none → q ∈ s'.procs))
      (fun _ _ => False) s := by
  simp only [logUsage, wp_bind, wp_get, memoryUsage, wp_ite]
  refine ⟨fun _ => ?_, fun _ => ⟨h, rfl, fun q hq _ => hq⟩⟩
  refine wp_mono ?_ (fun _ _ h => h) (wp_procs_usage r _ s h h.1 fun _ hp => hp)
  intro us s' hs
  exact wp_pure.2 ⟨hs.1, hs.2.1, fun q hq hn => hs.2.2.2 q hq fun _ => hn⟩

/-- Restarting keeps the number of processes, killing lowers it by one but not to zero; no other
process is touched. -/
theorem wp_procs_restart (pid : Nat) (o : StopOutcome) {s : Evaluator Fn V E} (h : ProcsOK s) :
    wp (restartOrKill pid o)
      (fun _ s' => ProcsOK s' ∧ s'.procs.length ≤ s.procs.length ∧
        (1 ≤ s.procs.length → 1 ≤ s'.procs.length) ∧ (∀ q ∈ s.procs, q ≠ pid → q ∈ s'.procs))
      (fun _ s' => ProcsOK s' ∧ s'.procs.length ≤ s.procs.length ∧
        (1 ≤ s.procs.length → 1 ≤ s'.procs.length) ∧ (∀ q ∈ s.procs, q ≠ pid → q ∈ s'.procs)) s := by
  have hk : ∀ (t : Evaluator Fn V E), ProcsOK t → ProcsOK { t with workers := kill t pid } := by
    intro t ht
    refine ⟨ht.1, fun q hq => ?_⟩
    show q < (kill t pid).length
    rw [kill_length]; exact ht.2 q hq
  have her : ∀ (t : Evaluator Fn V E), ProcsOK t → ProcsOK { t with procs := t.procs.erase pid } :=
    fun t ht => ⟨ht.1.erase _, fun q hq => ht.2 q (List.mem_of_mem_erase hq)⟩
  have keep : ∀ q ∈ s.procs, q ≠ pid → q ∈ s.procs.erase pid := fun q hq hn =>
    (List.mem_erase_of_ne hn).2 hq
  have same : ProcsOK s ∧ s.procs.length ≤ s.procs.length ∧ (1 ≤ s.procs.length → 1 ≤ s.procs.length) ∧
      (∀ q ∈ s.procs, q ≠ pid → q ∈ s.procs) := ⟨h, Nat.le_refl _, id, fun q hq _ => hq⟩
  simp only [restartOrKill, wp_bind, wp_get, wp_ite]
  refine ⟨fun _ => ?_, fun hne => ?_⟩
  · cases o with
    | timeout => exact same
    | gone => exact ⟨hk s h, Nat.le_refl _, id, fun q hq _ => hq⟩
    | ok =>
      simp only [stopWorker, removeProc, wp_bind, wp_modify, wp_get, wp_ite]
      refine ⟨fun hm => ?_, fun _ => ⟨hk s h, Nat.le_refl _, id, fun q hq _ => hq⟩⟩
      have h1 : ProcsOK { s with workers := kill s pid, procs := s.procs.erase pid } :=
        her { s with workers := kill s pid } (hk s h)
      have hl : ((s.procs.erase pid) ++ [(kill s pid).length]).length = s.procs.length := by
        rw [List.length_append, List.length_singleton, List.length_erase_of_mem hm]
        have := List.length_pos_of_mem hm
        omega
      refine ⟨procs_start h1, Nat.le_of_eq hl, fun h1 => ?_, fun q hq hn => ?_⟩
      · show 1 ≤ ((s.procs.erase pid) ++ [(kill s pid).length]).length
        rw [hl]; exact h1
      · exact List.mem_append_left _ (keep q hq hn)
  · rw [not_or] at hne
    simp only [wp_modify]
    cases o with
    | timeout => exact same
    | gone => exact ⟨hk s h, Nat.le_refl _, id, fun q hq _ => hq⟩
    | ok =>
      simp only [stopWorker, removeProc, wp_bind, wp_modify, wp_get, wp_ite]
      refine ⟨fun hm => ?_, fun _ => ⟨hk s h, Nat.le_refl _, id, fun q hq _ => hq⟩⟩
      have h1 : ProcsOK { s with workers := kill s pid, procs := s.procs.erase pid } :=
        her { s with workers := kill s pid } (hk s h)
      have hl : (s.procs.erase pid).length + 1 = s.procs.length := by
        rw [List.length_erase_of_mem hm]
        have := List.length_pos_of_mem hm
        omega
      refine ⟨h1, ?_, fun h2 => ?_, keep⟩
      · show (s.procs.erase pid).length ≤ s.procs.length
        omega
      · show 1 ≤ (s.procs.erase pid).length
        have := hne.2
        omega

theorem maxUsage_spec {us : List (Nat × ℚ)} {x : Nat × ℚ} (h : maxUsage us = some x) :
    x ∈ us ∧ ∀ y ∈ us, y.2 ≤ x.2 := by
  cases us with
  | nil => simp [maxUsage] at h
  | cons a us =>
    simp only [maxUsage, Option.some.injEq] at h
    subst h
    have key : ∀ (l : List (Nat × ℚ)) (a : Nat × ℚ),
        (l.foldl (fun a b => if a.2 < b.2 then b else a) a ∈ a :: l) ∧
        ∀ y ∈ a :: l, y.2 ≤ (l.foldl (fun a b => if a.2 < b.2 then b else a) a).2 := by
      intro l
      induction l with
      | nil => intro a; simp
      | cons b l ih =>
        intro a
        rw [List.foldl_cons]
        by_cases hlt : a.2 < b.2
        · rw [if_pos hlt]
          obtain ⟨h1, h2⟩ := ih b
          refine ⟨List.mem_cons_of_mem _ h1, ?_⟩
          intro y hy
          rcases List.mem_cons.1 hy with rfl | hy
          · exact le_trans (le_of_lt hlt) (h2 b List.mem_cons_self)
          · exact h2 y hy
        · rw [if_neg hlt]
          obtain ⟨h1, h2⟩ := ih a
          refine ⟨?_, ?_⟩
          · rcases List.mem_cons.1 h1 with h | h
            · rw [h]; exact List.mem_cons_self
            · exact List.mem_cons_of_mem _ (List.mem_cons_of_mem _ h)
          · intro y hy
            rcases List.mem_cons.1 hy with rfl | hy
            · exact h2 y List.mem_cons_self
            · rcases List.mem_cons.1 hy with rfl | hy
              · exact le_trans (not_lt.1 hlt) (h2 a List.mem_cons_self)
              · exact h2 y (List.mem_cons_of_mem _ hy)
    exact key us a

/-- The total that `_control_memory_usage` compares with the limit. -/
theorem usage_total (r : Readings) (ps : List Nat) :
    ((ps.filterMap fun p => (r.worker p).map fun mb => (p, mb)).map Prod.snd) =
      ps.filterMap r.worker := by
  induction ps with
  | nil => rfl
  | cons p ps ih =>
    rw [List.filterMap_cons, List.filterMap_cons]
    cases r.worker p <;> simp [ih]

/-- What `_control_memory_usage` does to the processes. -/
structure Controlled (r r' : Readings) (s s' : Evaluator Fn V E) : Prop where
  ok : ProcsOK s'
  le : s'.procs.length ≤ s.procs.length
  pos : 1 ≤ s.procs.length → 1 ≤ s'.procs.length
  /-- a process that was there in both readings is only stopped if it is the one that uses most,
  and the limit was exceeded -/
  stopped : ∀ q ∈ s.procs, r.worker q ≠ none → r'.worker q ≠ none → q ∉ s'.procs →
    (∃ L, s.limit = some L ∧ L < r.main + (s.procs.filterMap r.worker).sum) ∧
    (∀ q₂ ∈ s.procs, r.worker q₂ ≠ none → r'.worker q₂ ≠ none → q₂ ∉ s'.procs → q₂ = q) ∧
    (∀ q₂ ∈ s.procs, ∀ a b, r.worker q = some a → r.worker q₂ = some b → b ≤ a)

theorem wp_procs_control (r r' : Readings) (o : StopOutcome) {s : Evaluator Fn V E} (h : ProcsOK s) :
    wp (controlMemory r r' o) (fun _ s' => Controlled r r' s s') (fun _ s' => Controlled r r' s s') s := by
  have hsame : Controlled r r' s s := ⟨h, Nat.le_refl _, id, fun q hq _ _ hn => absurd hq hn⟩
  simp only [controlMemory, wp_bind, wp_get]
  cases hL : s.limit with
  | none => exact hsame
  | some limit =>
    simp only [wp_bind, memoryUsage, wp_get]
    refine wp_mono ?_ (fun _ _ h => h.elim) (wp_procs_usage r _ s h h.1 fun _ hp => hp)
    rintro us s1 ⟨k1, k2, k3, k4⟩
    rw [wp_ite]
    refine ⟨fun hlt => ?_, fun _ => ⟨k1, Nat.le_of_eq k2, fun hp => by omega,
      fun q hq hr _ hn => absurd (k4 q hq fun _ => hr) hn⟩⟩
    rw [k3, usage_total] at hlt
    simp only [wp_bind]
    refine wp_mono ?_ (fun _ _ h => h.elim) (wp_procs_log r' k1)
    rintro _ s2 ⟨l1, l2, l3⟩
    simp only [wp_modify]
    have hkeep : ∀ q ∈ s.procs, r.worker q ≠ none → r'.worker q ≠ none → q ∈ s2.procs :=
      fun q hq hr hr' => l3 q (k4 q hq fun _ => hr) hr'
    cases hm : maxUsage us with
    | none =>
      exact ⟨l1, by show s2.procs.length ≤ _; omega, fun hp => by show 1 ≤ s2.procs.length; omega,
        fun q hq hr hr' hn => absurd (hkeep q hq hr hr') hn⟩
    | some x =>
      obtain ⟨hx, hmax⟩ := maxUsage_spec hm
      rw [k3, List.mem_filterMap] at hx
      obtain ⟨p, hp, hpx⟩ := hx
      have key : ∀ s' : Evaluator Fn V E, (ProcsOK s' ∧ s'.procs.length ≤ s2.procs.length ∧
          (1 ≤ s2.procs.length → 1 ≤ s'.procs.length) ∧
          (∀ q ∈ s2.procs, q ≠ x.1 → q ∈ s'.procs)) → Controlled r r' s s' := by
        rintro s' ⟨m1, m2, m3, m4⟩
        have only : ∀ q ∈ s.procs, r.worker q ≠ none → r'.worker q ≠ none → q ∉ s'.procs → q = x.1 := by
          intro q hq hr hr' hn
          by_contra hne
          exact hn (m4 q (hkeep q hq hr hr') hne)
        refine ⟨m1, by omega, fun hp => m3 (by omega), ?_⟩
        intro q hq hr hr' hn
        have hqx := only q hq hr hr' hn
        refine ⟨⟨limit, hL, hlt⟩, fun q₂ a b c d => (only q₂ a b c d).trans hqx.symm, ?_⟩
        intro q₂ hq₂ a b ha hb
        have h2 := hmax (q₂, b) (by rw [k3, List.mem_filterMap]; exact ⟨q₂, hq₂, by rw [hb]; rfl⟩)
        cases hw : r.worker p with
        | none => rw [hw] at hpx; simp at hpx
        | some mb =>
          rw [hw] at hpx
          simp only [Option.map_some, Option.some.injEq] at hpx
          rw [← hpx] at hqx h2
          dsimp only at hqx h2
          subst hqx
          rw [ha] at hw
          injection hw with hw
          rw [hw]; exact h2
      have := wp_procs_restart (s := { s2 with violations := s2.violations + 1 }) x.1 o l1
      exact wp_mono (fun _ s' h => key s' h) (fun _ s' h => key s' h) this

/-! ## Runs -/

/-- `C` holds of every event of a schedule at the state in which it happens. -/
def Along (J : Jobs Fn V E Ω) (C : Evaluator Fn V E → AsyncEvent Fn V Ω → Prop) :
    List (AsyncEvent Fn V Ω) → Evaluator Fn V E → Prop
  | [], _ => True
  | e :: es, s => C s e ∧ Along J C es (asyncStep J s e).2

theorem run_induct {J : Jobs Fn V E Ω} {D : List (Str × V)}
    {C : Evaluator Fn V E → AsyncEvent Fn V Ω → Prop}
    {P : List (AsyncObs Fn V E) → Evaluator Fn V E → Prop}
    (hstep : ∀ tr s e, Good J D tr s → P tr s → C s e →
      P (tr ++ [(asyncStep J s e).1]) (asyncStep J s e).2) :
    ∀ (es : List (AsyncEvent Fn V Ω)) (tr : List (AsyncObs Fn V E)) (s : Evaluator Fn V E),
      Good J D tr s → P tr s → Along J C es s →
      P (tr ++ (asyncRun J es s).1) (asyncRun J es s).2 := by
  intro es
  induction es with
  | nil => intro tr s _ h _; rw [asyncRun, List.append_nil]; exact h
  | cons e es ih =>
    intro tr s hg h hc
    have := ih _ _ (hg.step e) (hstep tr s e hg h hc.1) hc.2
    rw [List.append_assoc] at this
    exact this

theorem along_true {J : Jobs Fn V E Ω} (es : List (AsyncEvent Fn V Ω)) :
    ∀ s : Evaluator Fn V E, Along J (fun _ _ => True) es s := by
  induction es with
  | nil => intro s; trivial
  | cons e es ih => intro s; exact ⟨trivial, ih _⟩

/-- What a step is: five cases. -/
theorem step_cases (J : Jobs Fn V E Ω) (s : Evaluator Fn V E) (e : AsyncEvent Fn V Ω)
    {P : AsyncObs Fn V E → Evaluator Fn V E → Prop}
    (hskip : P .nothing s)
    (hsubmit : ∀ fn args kwargs, e = .submit fn args kwargs → s.waiting = false →
      P (.submitted ⟨s.nextId, fn, args, kwargs, none, none⟩) (submit fn args kwargs s).2)
    (hwait : e = .wait → s.waiting = false → 0 < s.futures.length → P .nothing { s with waiting := true })
    (hempty : e = .wait → s.waiting = false → s.futures.length = 0 → P (.raised .runtimeError) s)
    (hiter : ∀ r₁ r₂ r₃ o b, e = .iterate r₁ r₂ r₃ o → s.waiting = true →
      P (pollObs (waitIteration r₁ r₂ r₃ o s).1)
        { (waitIteration r₁ r₂ r₃ o s).2 with waiting := b })
    (hworker : ∀ pid a, e = .worker pid a → P .nothing (workerStep J pid a s)) :
    P (asyncStep J s e).1 (asyncStep J s e).2 := by
  have hb : ¬ (false = true) := by simp
  cases hw : s.waiting with
  | true =>
    cases e with
    | submit fn args kwargs => simp only [asyncStep, hw, if_true]; exact hskip
    | wait => simp only [asyncStep, hw, if_true]; exact hskip
    | iterate r₁ r₂ r₃ o =>
      simp only [asyncStep, hw, if_true]
      have := fun b => hiter r₁ r₂ r₃ o b rfl hw
      cases hr : waitIteration r₁ r₂ r₃ o s with
      | mk r s' =>
        rw [hr] at this
        cases r with
        | error e => exact this false
        | ok x => cases x with
          | none => exact this s'.waiting
          | some f => exact this false
    | worker pid a => exact hworker pid a rfl
  | false =>
    cases e with
    | submit fn args kwargs =>
      simp only [asyncStep, hw, if_neg hb]
      exact hsubmit fn args kwargs rfl hw
    | wait =>
      simp only [asyncStep, hw, if_neg hb]
      rw [waitBegin_run]
      by_cases hl : s.futures.length = 0
      · rw [if_pos hl]; exact hempty rfl hw hl
      · rw [if_neg hl]; exact hwait rfl hw (by omega)
    | iterate r₁ r₂ r₃ o => simp only [asyncStep, hw, if_neg hb]; exact hskip
    | worker pid a => exact hworker pid a rfl

theorem submittedCount_append (tr : List (AsyncObs Fn V E)) (o : AsyncObs Fn V E) :
    submittedCount (tr ++ [o]) = submittedCount tr + submittedCount [o] := by
  induction tr with
  | nil => simp [submittedCount]
  | cons x tr ih =>
    cases x <;> simp only [List.cons_append, submittedCount, ih] <;> omega

theorem returnedCount_append (tr : List (AsyncObs Fn V E)) (o : AsyncObs Fn V E) :
    returnedCount (tr ++ [o]) = returnedCount tr + returnedCount [o] := by
  induction tr with
  | nil => simp [returnedCount]
  | cons x tr ih =>
    cases x <;> simp only [List.cons_append, returnedCount, ih] <;> omega

theorem workerStep_frame {J : Jobs Fn V E Ω} {s : Evaluator Fn V E} (pid : Nat) (a : WorkerAct Ω) :
    (workerStep J pid a s).futures = s.futures ∧
    (workerStep J pid a s).jobQueueSize = s.jobQueueSize ∧
    (workerStep J pid a s).nJobs = s.nJobs ∧ (workerStep J pid a s).limit = s.limit ∧
    (workerStep J pid a s).procs = s.procs ∧
    (workerStep J pid a s).workers.length = s.workers.length ∧
    (workerStep J pid a s).waiting = s.waiting ∧ (workerStep J pid a s).logfile = s.logfile := by
  unfold workerStep
  cases s.workers[pid]? with
  | none => exact ⟨rfl, rfl, rfl, rfl, rfl, rfl, rfl, rfl⟩
  | some w =>
    dsimp only
    split
    · cases a with
      | die => simp
      | stop => dsimp only; split <;> simp
      | take => dsimp only; split; · simp
                cases s.input <;> simp
      | takeFails =>
        dsimp only; split; · simp
        cases s.input
        · simp
        · dsimp only; cases w.cur <;> simp
      | finish ω =>
        dsimp only; split
        · cases w.cur
          · simp
          · dsimp only
            split <;> simp
        · simp
    · simp

/-- The number of unreturned jobs is the size of the dictionary of futures. -/
def Counted (tr : List (AsyncObs Fn V E)) (s : Evaluator Fn V E) : Prop :=
  s.futures.length + returnedCount tr = submittedCount tr

theorem counted_step {J : Jobs Fn V E Ω} {D : List (Str × V)} (tr : List (AsyncObs Fn V E))
    (s : Evaluator Fn V E) (e : AsyncEvent Fn V Ω) (hg : Good J D tr s) (h : Counted tr s) :
    Counted (tr ++ [(asyncStep J s e).1]) (asyncStep J s e).2 := by
  have hn : Counted (tr ++ [.nothing]) s := by
    unfold Counted at *
    rw [returnedCount_append, submittedCount_append]
    simpa [returnedCount, submittedCount] using h
  refine step_cases (P := fun o s' => Counted (tr ++ [o]) s') J s e hn ?_ (fun _ _ _ => hn) ?_ ?_ ?_
  · intro fn args kwargs _ _
    rw [submit_run]
    unfold Counted at *
    rw [returnedCount_append, submittedCount_append]
    have hnk : s.nextId ∉ s.futures.map Prod.fst := fun hk => absurd (hg.key_lt hk) (Nat.lt_irrefl _)
    dsimp only
    rw [dset_length_new hnk, List.length_append, List.length_singleton]
    simp only [returnedCount, submittedCount]
    omega
  · intro _ _ _
    unfold Counted at *
    rw [returnedCount_append, submittedCount_append]
    simpa [returnedCount, submittedCount] using h
  · intro r₁ r₂ r₃ o b _ _
    rcases waitIteration_split r₁ r₂ r₃ o s with ⟨s1, hf, he⟩ | ⟨e', s1, hf, he⟩
    · rw [he, pollOutput_run]
      unfold Counted at *
      cases ho : s1.output with
      | nil =>
        dsimp only [pollObs]
        rw [returnedCount_append, submittedCount_append, hf.futures]
        simpa [returnedCount, submittedCount] using h
      | cons f rest =>
        dsimp only
        cases hd : dget s1.futures f.id with
        | none =>
          dsimp only [pollObs]
          rw [returnedCount_append, submittedCount_append, hf.futures]
          simpa [returnedCount, submittedCount] using h
        | some m =>
          dsimp only [pollObs]
          rw [returnedCount_append, submittedCount_append]
          have := ddel_length hd
          rw [hf.futures] at this ⊢
          simp only [returnedCount, submittedCount]
          omega
    · rw [he]
      unfold Counted at *
      dsimp only [pollObs]
      rw [returnedCount_append, submittedCount_append, hf.futures]
      simpa [returnedCount, submittedCount] using h
  · intro pid a _
    unfold Counted at *
    rw [(workerStep_frame pid a).1]
    exact hn

end
end Gama
