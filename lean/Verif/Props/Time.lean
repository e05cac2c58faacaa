import Verif.Model.Time
import Mathlib.Tactic.Linarith
import Mathlib.Tactic.Ring
import Mathlib.Tactic.Positivity
import Mathlib.Tactic.NormNum
import Mathlib.Tactic.ByContra

/-! # Timekeeping: C49 – C52 -/

namespace Gama

/-! ## Specification -/

/-- The time spent in activities: every moment counts once for each activity that is going on;
`n` are going on at the start. -/
def Spec.spent : Nat → List TimeEvent → ℚ
  | _, [] => 0
  | n, .tick d :: es => n * d + spent n es
  | n, .begin _ _ :: es => spent (n + 1) es
  | n, .finish _ :: es => spent (n - 1) es

/-- The clock does not go back. -/
def Spec.Forward (es : List TimeEvent) : Prop := ∀ d, TimeEvent.tick d ∈ es → 0 ≤ d

open Spec

/-! ## Invariant -/

structure KeeperOK (k : Keeper) : Prop where
  nodup : k.opened.Nodup
  running : ∀ i ∈ k.opened, ∃ a, k.activities[i]? = some a ∧ a.stopwatch.running = true
  count : (k.activities.filter fun a => a.stopwatch.running).length = k.opened.length

theorem keeperOK_new (t : Option ℚ) (now : ℚ) : KeeperOK (newKeeper t now) :=
  ⟨List.Pairwise.nil, fun i hi => (by cases hi), rfl⟩

/-- The time on all watches. -/
def watchSum (k : Keeper) : ℚ := (k.activities.map fun a => a.stopwatch.elapsed k.now).sum

theorem sum_tick (now d : ℚ) (l : List Activity) :
    (l.map fun a => a.stopwatch.elapsed (now + d)).sum =
      (l.map fun a => a.stopwatch.elapsed now).sum + (l.filter fun a => a.stopwatch.running).length * d := by
  induction l with
  | nil => simp
  | cons a l ih =>
    simp only [List.map_cons, List.sum_cons, ih]
    cases h : a.stopwatch.running with
    | true =>
      rw [List.filter_cons_of_pos (p := fun a : Activity => a.stopwatch.running) h]
      simp only [Stopwatch.elapsed, h, if_true, List.length_cons]
      push_cast
      ring
    | false =>
      rw [List.filter_cons_of_neg (p := fun a : Activity => a.stopwatch.running) (by simp [h])]
      simp only [Stopwatch.elapsed, h, Bool.false_eq_true, if_false]
      ring

theorem stop_elapsed {now : ℚ} : ∀ {l : List Activity} {i : Nat} {a : Activity}, l[i]? = some a →
    a.stopwatch.running = true →
    (stopWatch now l i).map (fun a => a.stopwatch.elapsed now) = l.map fun a => a.stopwatch.elapsed now := by
  intro l
  induction l with
  | nil => intro i a h; cases h
  | cons b l ih =>
    intro i a h hr
    cases i with
    | zero =>
      simp only [List.getElem?_cons_zero, Option.some.injEq] at h
      subst h
      simp [stopWatch, List.modify_zero_cons, Stopwatch.elapsed, Stopwatch.exit, hr]
    | succ i =>
      simp only [List.getElem?_cons_succ] at h
      have := ih h hr
      simp only [stopWatch, List.modify_succ_cons, List.map_cons] at this ⊢
      rw [this]

theorem stop_count {now : ℚ} : ∀ {l : List Activity} {i : Nat} {a : Activity}, l[i]? = some a →
    a.stopwatch.running = true →
    ((stopWatch now l i).filter fun a => a.stopwatch.running).length + 1 =
      (l.filter fun a => a.stopwatch.running).length := by
  intro l
  induction l with
  | nil => intro i a h; cases h
  | cons b l ih =>
    intro i a h hr
    cases i with
    | zero =>
      simp only [List.getElem?_cons_zero, Option.some.injEq] at h
      subst h
      simp [stopWatch, List.modify_zero_cons, Stopwatch.exit, hr]
    | succ i =>
      simp only [List.getElem?_cons_succ] at h
      have := ih h hr
      simp only [stopWatch, List.modify_succ_cons] at this ⊢
      cases hb : b.stopwatch.running with
      | true => simp [hb]; omega
      | false => simp [hb]; omega

theorem stop_other {now : ℚ} {l : List Activity} {i j : Nat} (h : i ≠ j) : (stopWatch now l i)[j]? = l[j]? := by
  unfold stopWatch
  rw [List.getElem?_modify]
  simp [h]

theorem keeperOK_step {k : Keeper} (hk : KeeperOK k) (e : TimeEvent) : KeeperOK (timeStep k e) := by
  cases e with
  | tick d => exact ⟨hk.nodup, hk.running, hk.count⟩
  | begin name limit =>
    have hlt : ∀ i ∈ k.opened, i < k.activities.length := by
      intro i hi
      obtain ⟨a, ha, _⟩ := hk.running i hi
      exact (List.getElem?_eq_some_iff.1 ha).1
    refine ⟨List.nodup_cons.2 ⟨fun h => absurd (hlt _ h) (Nat.lt_irrefl _), hk.nodup⟩, ?_, ?_⟩
    · intro i hi
      rcases List.mem_cons.1 hi with rfl | hi
      · exact ⟨⟨name, Stopwatch.enter k.now, limit⟩, by simp [timeStep], rfl⟩
      · obtain ⟨a, ha, hr⟩ := hk.running i hi
        refine ⟨a, ?_, hr⟩
        simp only [timeStep]
        rw [List.getElem?_append_left (hlt i hi)]
        exact ha
    · simp only [timeStep, List.filter_append, List.length_append, hk.count, List.length_cons]
      simp [Stopwatch.enter]
  | finish raised =>
    unfold timeStep
    cases ho : k.opened with
    | nil => exact hk
    | cons i rest =>
      have hnd := hk.nodup
      rw [ho, List.nodup_cons] at hnd
      obtain ⟨a, ha, hr⟩ := hk.running i (by rw [ho]; exact List.mem_cons_self ..)
      refine ⟨hnd.2, ?_, ?_⟩
      · intro j hj
        obtain ⟨b, hb, hrb⟩ := hk.running j (by rw [ho]; exact List.mem_cons_of_mem _ hj)
        refine ⟨b, ?_, hrb⟩
        dsimp only
        rw [stop_other (fun h : i = j => hnd.1 (h ▸ hj))]
        exact hb
      · have h1 := stop_count (now := k.now) ha hr
        have h2 := hk.count
        rw [ho, List.length_cons] at h2
        dsimp only
        omega

theorem keeperOK_run {k : Keeper} (hk : KeeperOK k) (es : List TimeEvent) : KeeperOK (timeRun k es) := by
  induction es generalizing k with
  | nil => exact hk
  | cons e es ih => exact ih (keeperOK_step hk e)

theorem total_run (k : Keeper) (es : List TimeEvent) : (timeRun k es).total = k.total := by
  induction es generalizing k with
  | nil => rfl
  | cons e es ih =>
    refine (ih (timeStep k e)).trans ?_
    cases e with
    | tick d => rfl
    | begin name limit => rfl
    | finish raised => unfold timeStep; cases k.opened <;> rfl

theorem watchSum_run {k : Keeper} (hk : KeeperOK k) (es : List TimeEvent) :
    watchSum (timeRun k es) = watchSum k + spent k.opened.length es := by
  induction es generalizing k with
  | nil => simp [timeRun, spent]
  | cons e es ih =>
    have h := ih (keeperOK_step hk e)
    rw [show timeRun k (e :: es) = timeRun (timeStep k e) es from rfl, h]
    cases e with
    | tick d =>
      have h2 := sum_tick k.now d k.activities
      rw [hk.count] at h2
      simp only [watchSum, timeStep, spent] at h2 ⊢
      rw [h2]
      ring
    | begin name limit =>
      simp [watchSum, timeStep, spent, Stopwatch.enter, Stopwatch.elapsed]
    | finish raised =>
      unfold timeStep
      cases ho : k.opened with
      | nil => simp [spent, ho]
      | cons i rest =>
        obtain ⟨a, ha, hr⟩ := hk.running i (by rw [ho]; exact List.mem_cons_self ..)
        have := stop_elapsed (now := k.now) ha hr
        simp only [watchSum, spent, List.length_cons, Nat.add_sub_cancel]
        rw [this]

theorem spent_nonneg (n : Nat) (es : List TimeEvent) (hf : Forward es) : 0 ≤ spent n es := by
  induction es generalizing n with
  | nil => simp [spent]
  | cons e es ih =>
    have hf' : Forward es := fun d hd => hf d (List.mem_cons_of_mem _ hd)
    cases e with
    | tick d =>
      have h1 := hf d (List.mem_cons_self ..)
      have h2 := ih n hf'
      have h3 : (0 : ℚ) ≤ n * d := by positivity
      simp only [spent]
      linarith
    | begin name limit => exact ih _ hf'
    | finish raised => exact ih _ hf'

/-! ## C49 -/

/-- **C49** The remaining time is the budget minus the time spent in activities. -/
theorem C49_accounts (total now : ℚ) (es : List TimeEvent) :
    totalRemaining (timeRun (newKeeper (some total) now) es) = .ok (total - spent 0 es) := by
  have h := watchSum_run (keeperOK_new (some total) now) es
  unfold totalRemaining
  rw [total_run]
  simp only [newKeeper, watchSum, List.length_nil, List.map_nil, List.sum_nil, zero_add] at h ⊢
  rw [h]

/-- **C49** It never increases, whatever happens. -/
theorem C49_decreases (total now : ℚ) (es fs : List TimeEvent) (hf : Forward fs) (r r' : ℚ)
    (h : totalRemaining (timeRun (newKeeper (some total) now) es) = .ok r)
    (h' : totalRemaining (timeRun (newKeeper (some total) now) (es ++ fs)) = .ok r') : r' ≤ r := by
  have hk := keeperOK_run (keeperOK_new (some total) now) es
  have h1 := watchSum_run hk fs
  have h2 := spent_nonneg (timeRun (newKeeper (some total) now) es).opened.length fs hf
  have e1 : timeRun (newKeeper (some total) now) (es ++ fs) =
      timeRun (timeRun (newKeeper (some total) now) es) fs := List.foldl_append
  have ht : (timeRun (newKeeper (some total) now) es).total = some total := total_run _ _
  have ht' : (timeRun (newKeeper (some total) now) (es ++ fs)).total = some total := total_run _ _
  unfold totalRemaining at h h'
  rw [ht] at h
  rw [ht'] at h'
  simp only [Except.ok.injEq] at h h'
  simp only [watchSum] at h1
  rw [e1, h1] at h'
  linarith

theorem finished_step {k : Keeper} {i : Nat} {a : Activity} (ha : k.activities[i]? = some a)
    (hr : a.stopwatch.running = false) (hk : KeeperOK k) (e : TimeEvent) :
    (timeStep k e).activities[i]? = some a := by
  cases e with
  | tick d => exact ha
  | begin name limit =>
    simp only [timeStep]
    rw [List.getElem?_append_left (List.getElem?_eq_some_iff.1 ha).1]
    exact ha
  | finish raised =>
    unfold timeStep
    cases ho : k.opened with
    | nil => exact ha
    | cons j rest =>
      obtain ⟨b, hb, hrb⟩ := hk.running j (by rw [ho]; exact List.mem_cons_self ..)
      dsimp only
      rw [stop_other]
      · exact ha
      · rintro rfl
        rw [hb] at ha
        cases ha
        rw [hrb] at hr
        cases hr

/-- **C49** The duration of an activity that has ended does not change. -/
theorem C49_finished (total : Option ℚ) (now : ℚ) (es : List TimeEvent) (raised : Bool)
    (i : Nat) (rest : List Nat) (ho : (timeRun (newKeeper total now) es).opened = i :: rest) :
    ∃ d, ∀ gs,
      ((timeRun (newKeeper total now) (es ++ .finish raised :: gs)).activities[i]?).map
        (fun a => a.stopwatch.elapsed (timeRun (newKeeper total now) (es ++ .finish raised :: gs)).now) =
        some d := by
  have hk := keeperOK_run (keeperOK_new total now) es
  obtain ⟨a, ha, hr⟩ := hk.running i (by rw [ho]; exact List.mem_cons_self ..)
  let b : Activity := { a with stopwatch := a.stopwatch.exit (timeRun (newKeeper total now) es).now }
  have hb : (timeStep (timeRun (newKeeper total now) es) (.finish raised)).activities[i]? = some b := by
    unfold timeStep
    rw [ho]
    simp only [stopWatch]
    rw [List.getElem?_modify]
    simp [ha, b]
  refine ⟨b.stopwatch.stop - b.stopwatch.start, ?_⟩
  intro gs
  have e1 : timeRun (newKeeper total now) (es ++ .finish raised :: gs) =
      timeRun (timeStep (timeRun (newKeeper total now) es) (.finish raised)) gs := List.foldl_append
  rw [e1]
  have key : ∀ (gs : List TimeEvent) (k : Keeper), KeeperOK k → k.activities[i]? = some b →
      (timeRun k gs).activities[i]? = some b := by
    intro gs
    induction gs with
    | nil => intro k _ h; exact h
    | cons e gs ih =>
      intro k hk h
      exact ih (timeStep k e) (keeperOK_step hk e) (finished_step h rfl hk e)
  rw [key gs _ (keeperOK_step hk _) hb]
  rfl

/-- A fit: 2 s of preprocessing, 1 s between the activities, 5 s of the search. -/
def Ex.fitEvents : List TimeEvent :=
  [.begin ['p'] none, .tick 2, .finish false, .tick 1, .begin ['s'] (some 4), .tick 5]

example : totalRemaining (timeRun (newKeeper (some 10) 100) Ex.fitEvents) = .ok 3 ∧
    Forward Ex.fitEvents ∧ spent 0 Ex.fitEvents = 7 := by
  refine ⟨?_, ?_, ?_⟩
  · rw [C49_accounts]; simp [Ex.fitEvents, spent]; norm_num
  · intro d hd
    simp only [Ex.fitEvents, List.mem_cons, List.not_mem_nil, TimeEvent.tick.injEq, reduceCtorEq,
      or_false, false_or] at hd
    rcases hd with rfl | rfl | rfl <;> decide
  · simp [Ex.fitEvents, spent]; norm_num

example : (timeRun (newKeeper (some 10) 100) Ex.fitEvents).opened = [1] := rfl

/-! ## C50 -/

/-- **C50** in full: after the only ongoing activity ended, none is current. -/
def C50_claim : Prop :=
  ∀ (total : Option ℚ) (now : ℚ) (es : List TimeEvent) (raised : Bool),
    (timeRun (newKeeper total now) es).opened.length = 1 →
    currentActivity (timeRun (newKeeper total now) (es ++ [.finish raised])) = none

/-- **C50** where it holds: activities that end without an exception; no limit is then enforced on
callbacks, however much later. -/
theorem C50_current_partial (total : Option ℚ) (now : ℚ) (es : List TimeEvent)
    (ho : (timeRun (newKeeper total now) es).opened ≠ []) (d : ℚ) :
    let k := timeRun (newKeeper total now) (es ++ [.finish false, .tick d])
    currentActivity k = none ∧ currentElapsed k = .error .runtimeError ∧
      currentLeft k = .error .runtimeError ∧ callbackTimesOut k = false := by
  intro k
  have hc : k.current = none := by
    have e1 : k = timeStep (timeStep (timeRun (newKeeper total now) es) (.finish false)) (.tick d) :=
      List.foldl_append
    rw [e1]
    unfold timeStep
    cases h : (timeRun (newKeeper total now) es).opened with
    | nil => exact absurd h ho
    | cons i rest => rfl
  have h : currentActivity k = none := by unfold currentActivity; rw [hc]; rfl
  refine ⟨h, ?_, ?_, ?_⟩
  · unfold currentElapsed; rw [h]
  · unfold currentLeft; rw [h]
  · unfold callbackTimesOut; rw [h]

/-- During an activity that is not nested, it is the current one, with its limit. -/
theorem C50_during (total : Option ℚ) (now : ℚ) (es : List TimeEvent) (name : Str) (limit : Option ℚ) (d : ℚ) :
    let k := timeRun (newKeeper total now) (es ++ [.begin name limit, .tick d])
    ∃ a, currentActivity k = some a ∧ a.name = name ∧ currentElapsed k = .ok d ∧
      currentLeft k = (match limit with | some l => .ok (l - d) | none => .error .runtimeError) ∧
      (callbackTimesOut k = true ↔ ∃ l, limit = some l ∧ l + 3 < d) := by
  intro k
  have e1 : k = timeStep (timeStep (timeRun (newKeeper total now) es) (.begin name limit)) (.tick d) :=
    List.foldl_append
  have hc : currentActivity k =
      some ⟨name, Stopwatch.enter (timeRun (newKeeper total now) es).now, limit⟩ := by
    rw [e1]
    simp [currentActivity, timeStep]
  have hn : k.now = (timeRun (newKeeper total now) es).now + d := by rw [e1]; rfl
  have hel : (Stopwatch.enter (timeRun (newKeeper total now) es).now).elapsed k.now = d := by
    rw [hn]
    simp [Stopwatch.enter, Stopwatch.elapsed]
  refine ⟨_, hc, rfl, ?_, ?_, ?_⟩
  · unfold currentElapsed; rw [hc]; dsimp only; rw [hel]
  · unfold currentLeft; rw [hc]; dsimp only; rw [hel]; cases limit <;> rfl
  · unfold callbackTimesOut
    rw [hc]
    unfold Activity.exceeded
    dsimp only
    rw [hel]
    cases limit with
    | none => simp
    | some l =>
      simp only [decide_eq_true_eq, Option.some.injEq, exists_eq_left']
      constructor
      · intro h; linarith
      · intro h; linarith

/-- **C50 is false** of an activity left by an exception: it stays current, with the time it took. -/
theorem C50_false : ¬ C50_claim := by
  intro h
  have := h (some 10) 0 [.begin ['s'] (some 1), .tick 5] true rfl
  simp [timeRun, timeStep, newKeeper, currentActivity, stopWatch] at this

/-- After an activity was left by an exception after its limit, all later callbacks raise a
`TimeoutException`, until another activity is started. -/
theorem C50_stale (total : Option ℚ) (now : ℚ) (es : List TimeEvent) (name : Str) (limit d d' : ℚ)
    (h : limit + 3 < d) :
    callbackTimesOut (timeRun (newKeeper total now)
      (es ++ [.begin name (some limit), .tick d, .finish true, .tick d'])) = true := by
  have e1 : timeRun (newKeeper total now) (es ++ [.begin name (some limit), .tick d, .finish true, .tick d']) =
      timeRun (timeRun (newKeeper total now) es) [.begin name (some limit), .tick d, .finish true, .tick d'] :=
    List.foldl_append
  rw [e1]
  simp only [timeRun, List.foldl_cons, List.foldl_nil, timeStep, callbackTimesOut, currentActivity,
    if_true, Option.bind_some, stopWatch]
  rw [List.getElem?_modify]
  simp [Activity.exceeded, Stopwatch.elapsed, Stopwatch.exit, Stopwatch.enter]
  linarith

/-! ## C51 -/

theorem pyInt_nonneg {q : ℚ} (h : 0 ≤ q) : pyInt q = ⌊q⌋ := by unfold pyInt; rw [if_pos h]

/-- **C51** The limit of the search phase and the share of post-processing fit into the remaining
time, leaving less than a second unused; a negative remainder is an error. -/
theorem C51_phases (k : Keeper) (fraction r : ℚ) (h0 : 0 ≤ fraction) (h1 : fraction ≤ 1)
    (hr : totalRemaining k = .ok r) :
    (r < 0 → searchLimit fraction k = .error .runtimeError) ∧
    (0 ≤ r → ∃ l, searchLimit fraction k = .ok l ∧ 0 ≤ l ∧ l ≤ r ∧ l + fraction * r ≤ r ∧ r < l + fraction * r + 1) ∧
    (0 ≤ r → ∃ l, postprocessLimit k = .ok l ∧ 0 ≤ l ∧ l ≤ r) := by
  unfold searchLimit postprocessLimit
  rw [hr]
  dsimp only
  refine ⟨fun h => by rw [if_pos h], fun h => ?_, fun h => ?_⟩
  · rw [if_neg (not_lt.2 h)]
    have hp : 0 ≤ (1 - fraction) * r := mul_nonneg (by linarith) h
    refine ⟨_, rfl, ?_, ?_, ?_, ?_⟩
    · rw [pyInt_nonneg hp]; exact Int.floor_nonneg.2 hp
    · rw [pyInt_nonneg hp]
      have h2 := Int.floor_le ((1 - fraction) * r)
      have h3 := mul_nonneg h0 h
      linarith
    · rw [pyInt_nonneg hp]
      have := Int.floor_le ((1 - fraction) * r)
      linarith
    · rw [pyInt_nonneg hp]
      have := Int.lt_floor_add_one ((1 - fraction) * r)
      linarith
  · refine ⟨_, rfl, ?_, ?_⟩
    · rw [pyInt_nonneg h]; exact Int.floor_nonneg.2 h
    · rw [pyInt_nonneg h]; exact Int.floor_le r

/-- **C51** An evaluation that is run gets a positive time, at most `max_eval_time`, and ends before
the deadline of the search; otherwise it is refused. -/
theorem C51_evaluation (maxEval : ℚ) (limit : Int) (start now : ℚ) :
    (∀ t, pipelineTimeout maxEval (some (searchDeadline start limit)) now = .ok t →
      0 < t ∧ t ≤ maxEval ∧ now + t ≤ start + limit ∧ (t = maxEval ∨ now + t = start + limit)) ∧
    (pipelineTimeout maxEval (some (searchDeadline start limit)) now = .error .valueError ↔
      maxEval ≤ 0 ∨ start + limit ≤ now) := by
  unfold pipelineTimeout evalTimeout searchDeadline
  dsimp only
  constructor
  · intro t ht
    by_cases h : min maxEval (start + limit - now) ≤ 0
    · rw [if_pos h] at ht; cases ht
    · rw [if_neg h] at ht
      cases ht
      refine ⟨not_le.1 h, min_le_left _ _, ?_, ?_⟩
      · have := min_le_right maxEval (start + limit - now)
        linarith
      · rcases min_choice maxEval (start + limit - now) with h' | h'
        · exact Or.inl h'
        · right; rw [h']; ring
  · by_cases h : min maxEval (start + limit - now) ≤ 0
    · rw [if_pos h]
      simp only [true_iff]
      rcases min_le_iff.1 h with h | h
      · exact Or.inl h
      · right; linarith
    · rw [if_neg h]
      constructor
      · intro h'; cases h'
      · intro h'
        exfalso
        apply h
        rw [min_le_iff]
        rcases h' with h' | h'
        · exact Or.inl h'
        · right; linarith

/-- 30 % of 9.5 s for post-processing: 6 s of search. -/
example : searchLimit (3 / 10) (timeRun (newKeeper (some 10) 0) [.begin ['p'] none, .tick (1 / 2), .finish false]) =
    .ok 6 := by
  have h : totalRemaining (timeRun (newKeeper (some 10) 0) [.begin ['p'] none, .tick (1 / 2), .finish false]) =
      .ok (19 / 2) := by
    rw [C49_accounts]; simp [spent]; norm_num
  unfold searchLimit
  rw [h]
  norm_num [pyInt, Int.floor_eq_iff]

example : pipelineTimeout 5 (some (searchDeadline 100 6)) 103 = .ok 3 := by
  norm_num [pipelineTimeout, evalTimeout, searchDeadline]

/-! ## C52 -/

/-- **C52** in full. -/
def C52_claim : Prop :=
  ∀ t : Int, 0 < t → ∃ m, maxEvalTime (some t) none = .ok m ∧ 0 < m ∧ m ≤ t ∧
    |(m : ℚ) - t / 10| ≤ 1 / 2

theorem pyRound_near (q : ℚ) : |(pyRound q : ℚ) - q| ≤ 1 / 2 := by
  have h1 := Int.floor_le q
  have h2 := Int.lt_floor_add_one q
  rw [abs_le]
  unfold pyRound
  by_cases a : q - ⌊q⌋ < 1 / 2
  · rw [if_pos a]
    constructor <;> linarith
  · rw [if_neg a]
    by_cases b : 1 / 2 < q - ⌊q⌋
    · rw [if_pos b]
      push_cast
      constructor <;> linarith
    · rw [if_neg b]
      have hc : q - ⌊q⌋ = 1 / 2 := le_antisymm (not_lt.1 b) (not_lt.1 a)
      by_cases c : ⌊q⌋ % 2 = 0
      · rw [if_pos c]
        constructor <;> linarith
      · rw [if_neg c]
        push_cast
        constructor <;> linarith

theorem default_eval {t : Int} (ht : 0 < t) :
    maxEvalTime (some t) none = .ok (pyRound ((1 / 10 : ℚ) * t)) ∧ pyRound ((1 / 10 : ℚ) * t) ≤ t := by
  have h := pyRound_near ((1 / 10 : ℚ) * t)
  rw [abs_le] at h
  have hle : pyRound ((1 / 10 : ℚ) * t) ≤ t := by
    have h1 : (1 : ℚ) ≤ t := by exact_mod_cast ht
    have h2 : (pyRound ((1 / 10 : ℚ) * t) : ℚ) < t + 1 := by linarith
    have : pyRound ((1 / 10 : ℚ) * t) < t + 1 := by exact_mod_cast h2
    omega
  refine ⟨?_, hle⟩
  unfold maxEvalTime
  dsimp only
  rw [if_neg (by omega), if_neg (by omega)]

/-- **C52** where it holds: a total time of at least six seconds. -/
theorem C52_default_partial (t : Int) (ht : 6 ≤ t) :
    ∃ m, maxEvalTime (some t) none = .ok m ∧ 0 < m ∧ m ≤ t ∧ |(m : ℚ) - t / 10| ≤ 1 / 2 := by
  obtain ⟨h1, h2⟩ := default_eval (t := t) (by omega)
  have h := pyRound_near ((1 / 10 : ℚ) * t)
  refine ⟨_, h1, ?_, h2, ?_⟩
  · rw [abs_le] at h
    have h3 : (6 : ℚ) ≤ t := by exact_mod_cast ht
    have h4 : (0 : ℚ) < pyRound ((1 / 10 : ℚ) * t) := by linarith
    exact_mod_cast h4
  · have : (t : ℚ) / 10 = (1 / 10 : ℚ) * t := by ring
    rw [this]
    exact h

/-- With a total time of at most five seconds every evaluation is refused. -/
theorem C52_unusable (t : Int) (h0 : 0 < t) (ht : t ≤ 5) :
    maxEvalTime (some t) none = .ok 0 ∧
    ∀ deadline now, pipelineTimeout ((0 : Int) : ℚ) deadline now = .error .valueError := by
  constructor
  · have h := (default_eval h0).1
    rw [h]
    congr 1
    have hq0 : (0 : ℚ) < t := by exact_mod_cast h0
    have hq : (t : ℚ) ≤ 5 := by exact_mod_cast ht
    have hf : ⌊(1 / 10 : ℚ) * t⌋ = 0 := by
      rw [Int.floor_eq_iff]
      push_cast
      constructor <;> linarith
    unfold pyRound
    rw [hf]
    by_cases a : (1 / 10 : ℚ) * t - ((0 : Int) : ℚ) < 1 / 2
    · rw [if_pos a]
    · rw [if_neg a, if_neg (by push_cast at a ⊢; linarith), if_pos (by decide)]
  · intro deadline now
    unfold pipelineTimeout
    rw [if_pos]
    unfold evalTimeout
    cases deadline with
    | none => simp
    | some d => exact (min_le_left _ _).trans (by simp)

/-- **C52 is false.** -/
theorem C52_false : ¬ C52_claim := by
  intro h
  obtain ⟨m, h1, h2, _⟩ := h 5 (by decide)
  rw [(C52_unusable 5 (by decide) (by decide)).1] at h1
  cases h1
  exact absurd h2 (by decide)

/-- Given values are kept, up to the total time; times that are not positive are refused. -/
theorem C52_given (t e : Int) :
    maxEvalTime (some t) (some e) = (if t ≤ 0 ∨ e ≤ 0 then .error .valueError else .ok (min e t)) ∧
    maxEvalTime none (some e) = .error .valueError := by
  refine ⟨?_, rfl⟩
  unfold maxEvalTime
  dsimp only
  by_cases h : t ≤ 0
  · rw [if_pos h, if_pos (Or.inl h)]
  · rw [if_neg h]
    by_cases h' : e ≤ 0
    · rw [if_pos h', if_pos (Or.inr h')]
    · rw [if_neg h', if_neg (c := t ≤ 0 ∨ e ≤ 0) (by omega)]
      by_cases hlt : t < e
      · rw [if_pos hlt, min_eq_right (le_of_lt hlt)]
      · rw [if_neg hlt, min_eq_left (not_lt.1 hlt)]

example : maxEvalTime (some 3600) none = .ok 360 := by
  rw [(default_eval (by decide)).1]
  norm_num [pyRound, Int.floor_eq_iff]

end Gama
