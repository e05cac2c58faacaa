import Verif.Model.Late
import Verif.Props.Asha
import Verif.Props.Search3
import Verif.Props.Front
import Verif.Props.Evolve

/-!
# C164: a search ends although its timeout was swallowed
-/

namespace Gama
open Spec PyM

variable {σ ι C : Type}

/-- The times of a passage are in order. -/
def Spec.InOrder (p : Passage σ C) (cbs : List C) : Prop :=
  p.begun ≤ p.back ∧ ∀ cb ∈ cbs, p.back ≤ p.clock cb

/-- Nothing in the passage tells the search to end: the evaluation began after the deadline, or was an
exception, or no callback lets a timeout or interrupt through and all end within three seconds of the
limit. -/
def Spec.Unnoticed (started : ℚ) (limit : Int) (maxEval deadline : ℚ) (cbs : List C) (p : Passage σ C) : Prop :=
  deadline ≤ p.begun ∨ maxEval ≤ 0 ∨ p.outcome = .failed ∨
  ∀ cb ∈ cbs, (p.call cb = .returns ∨ p.call cb = .raises) ∧ p.clock cb ≤ started + limit + 3

theorem exceeded_iff (started t : ℚ) (limit : Int) :
    (searchActivity started limit).exceeded t 3 = true ↔ started + limit + 3 < t := by
  unfold searchActivity Activity.exceeded Stopwatch.enter Stopwatch.elapsed
  simp only [if_true, decide_eq_true_eq]
  constructor <;> intro h <;> linarith

theorem pipelineTimeout_cases (maxEval deadline begun : ℚ) :
    (maxEval ≤ 0 ∨ deadline ≤ begun) ∧ pipelineTimeout maxEval (some deadline) begun = .error .valueError ∨
    (0 < maxEval ∧ begun < deadline) ∧ ∃ t, pipelineTimeout maxEval (some deadline) begun = .ok t := by
  unfold pipelineTimeout evalTimeout
  dsimp only
  by_cases h : min maxEval (deadline - begun) ≤ 0
  · rw [if_pos h]
    refine .inl ⟨?_, rfl⟩
    rcases min_le_iff.1 h with h | h
    · exact .inl h
    · right; linarith
  · rw [if_neg h]
    rw [not_le, lt_min_iff] at h
    exact .inr ⟨⟨h.1, by linarith [h.2]⟩, _, rfl⟩

theorem onEvaluation_quiet (call : C → CallEnd) (late : C → Bool) (cbs : List C) :
    (∀ cb ∈ cbs, (call cb = .returns ∨ call cb = .raises) ∧ late cb = false) ↔
      (onEvaluation call late cbs).2 = .ok () := by
  induction cbs with
  | nil => simp [onEvaluation]
  | cons cb cbs ih =>
    rw [List.forall_mem_cons, ih]
    cases hc : call cb <;> cases hl : late cb <;> simp [onEvaluation, safeOutsideCall, hc, hl]

theorem onEvaluation_ends (call : C → CallEnd) (late : C → Bool) (cbs : List C) (e : Exn)
    (h : (onEvaluation call late cbs).2 = .error e) : e = .timeout ∨ e = .keyboardInterrupt := by
  induction cbs with
  | nil => simp [onEvaluation] at h
  | cons cb cbs ih =>
    cases hc : call cb <;> cases hl : late cb <;> simp [onEvaluation, safeOutsideCall, hc, hl] at h <;>
      first | exact ih h | exact .inl h.symm | exact .inr h.symm

theorem passageWait_unnoticed (started maxEval deadline : ℚ) (limit : Int) (cbs : List C) (p : Passage σ C) :
    Unnoticed started limit maxEval deadline cbs p ↔
      passageWait (searchActivity started limit) maxEval deadline cbs p =
        .completes p.index (p.sent maxEval deadline) p.world := by
  have hlate : ∀ cb, (searchActivity started limit).exceeded (p.clock cb) 3 = false ↔
      p.clock cb ≤ started + limit + 3 := by
    intro cb
    rw [← not_lt, ← exceeded_iff]
    simp
  have hq := onEvaluation_quiet p.call (fun cb => (searchActivity started limit).exceeded (p.clock cb) 3) cbs
  simp only [hlate] at hq
  unfold passageWait onWait
  rw [if_pos rfl]
  rcases pipelineTimeout_cases maxEval deadline p.begun with ⟨h, ht⟩ | ⟨h, t, ht⟩
  · have hs : p.sent maxEval deadline = .failed := by unfold Passage.sent; rw [ht]
    rw [hs]
    simp only [iff_true]
    rcases h with h | h
    · exact .inr (.inl h)
    · exact .inl h
  · have hs : p.sent maxEval deadline = p.outcome := by unfold Passage.sent; rw [ht]
    rw [hs]
    cases ho : p.outcome with
    | failed => simp only [iff_true]; exact .inr (.inr (.inl ho))
    | result b score =>
      have hu : Unnoticed started limit maxEval deadline cbs p ↔
          ∀ cb ∈ cbs, (p.call cb = .returns ∨ p.call cb = .raises) ∧ p.clock cb ≤ started + limit + 3 := by
        constructor
        · rintro (g | g | g | g)
          · exact absurd h.2 (not_lt.2 g)
          · exact absurd h.1 (not_lt.2 g)
          · rw [ho] at g; cases g
          · exact g
        · exact fun g => .inr (.inr (.inr g))
      rw [hu, hq]
      cases (onEvaluation p.call (fun cb => (searchActivity started limit).exceeded (p.clock cb) 3) cbs).2 with
      | error e => simp
      | ok u => simp

theorem passageWait_raises (act : Activity) (maxEval deadline : ℚ) (cbs : List C) (p : Passage σ C) (e : Exn)
    (h : passageWait act maxEval deadline cbs p = .raises e) : e = .timeout ∨ e = .keyboardInterrupt := by
  unfold passageWait onWait at h
  rw [if_pos rfl] at h
  cases hs : p.sent maxEval deadline with
  | failed => rw [hs] at h; cases h
  | result b score =>
    rw [hs] at h
    dsimp only at h
    cases hr : (onEvaluation p.call (fun cb => act.exceeded (p.clock cb) 3) cbs).2 with
    | error e' => rw [hr] at h; cases h; exact onEvaluation_ends _ _ _ _ hr
    | ok u => rw [hr] at h; cases h

/-- When an evaluation comes back more than three seconds after the limit, the search is told to end
exactly if the evaluation was begun before the deadline and is no exception. -/
theorem C164_exact (started begins maxEval : ℚ) (limit : Int) (cbs : List C) (hc : cbs ≠ [])
    (p : Passage σ C) (ho : InOrder p cbs) (hl : started + limit + 3 < p.back) :
    (∃ e, passageWait (searchActivity started limit) maxEval (searchDeadline begins limit) cbs p = .raises e) ↔
      0 < maxEval ∧ p.begun < begins + limit ∧ p.outcome ≠ .failed := by
  have hu := passageWait_unnoticed started maxEval (searchDeadline begins limit) limit cbs p
  have hn : (∃ e, passageWait (searchActivity started limit) maxEval (searchDeadline begins limit) cbs p = .raises e) ↔
      ¬ Unnoticed started limit maxEval (searchDeadline begins limit) cbs p := by
    rw [hu]
    unfold passageWait
    cases hs : p.sent maxEval (searchDeadline begins limit) with
    | failed => simp
    | result b score =>
      dsimp only
      cases (onWait p.call (fun cb => (searchActivity started limit).exceeded (p.clock cb) 3) cbs true).2 with
      | error e => simp
      | ok u => simp
  rw [hn]
  unfold Unnoticed searchDeadline
  constructor
  · intro h
    exact ⟨not_le.1 fun g => h (.inr (.inl g)), not_le.1 fun g => h (.inl g), fun g => h (.inr (.inr (.inl g)))⟩
  · rintro ⟨h1, h2, h3⟩ (g | g | g | g)
    · exact absurd h2 (not_lt.2 g)
    · exact absurd h1 (not_lt.2 g)
    · exact h3 g
    · obtain ⟨cb, hcb⟩ := List.exists_mem_of_ne_nil _ hc
      have := ho.2 cb hcb
      have := (g cb hcb).2
      linarith

variable [DecidableEq ι]

/-- **C164** A search ends when an evaluation that was begun before the deadline comes back more than three
seconds after the limit, whatever callbacks swallow.  (Missing: evaluations that begin later, see
`C164_false`.) -/
theorem C164_partial (started begins maxEval : ℚ) (limit : Int) (cbs : List C) (hc : cbs ≠ [])
    (p : Passage σ C) (ho : InOrder p cbs) (hl : started + limit + 3 < p.back) (hm : 0 < maxEval)
    (hb : p.begun < begins + limit) (hr : p.outcome ≠ .failed) (o : SearchOps σ ι) :
    (∀ maxN (s : Rs σ ι), s.pc = .loop → rsMore maxN s.output.length = true →
      ∃ e, (rsStep o maxN (passageWait (searchActivity started limit) maxEval (searchDeadline begins limit) cbs p) s).pc
        = .raised e ∧ (e = .timeout ∨ e = .keyboardInterrupt)) ∧
    (∀ maxN size queue restart (s : Ea σ ι), s.pc = .loop → eaMore maxN s.evaluated = true →
      ∃ e, (eaStep o maxN size ⟨passageWait (searchActivity started limit) maxEval (searchDeadline begins limit) cbs p,
        queue, restart⟩ s).pc = .raised e ∧ (e = .timeout ∨ e = .keyboardInterrupt)) ∧
    (∀ c pick (s : Asha σ ι), s.pc = .loop → ashaMore c s = .ok true →
      ∃ e, (ashaStep o c ⟨passageWait (searchActivity started limit) maxEval (searchDeadline begins limit) cbs p, pick⟩
        s).pc = ashaHandle s.rungs e ∧ (e = .timeout ∨ e = .keyboardInterrupt)) := by
  obtain ⟨e, he⟩ := (C164_exact started begins maxEval limit cbs hc p ho hl).2 ⟨hm, hb, hr⟩
  have hk := passageWait_raises _ _ _ _ _ _ he
  rw [he]
  refine ⟨?_, ?_, ?_⟩
  · intro maxN s hpc hmore
    refine ⟨e, ?_, hk⟩
    unfold rsStep
    rw [hpc]
    dsimp only
    rw [if_pos hmore]
  · intro maxN size queue restart s hpc hmore
    refine ⟨e, ?_, hk⟩
    unfold eaStep
    rw [hpc]
    dsimp only
    rw [if_pos hmore]
  · intro c pick s hpc hmore
    refine ⟨e, ?_, hk⟩
    unfold ashaStep
    rw [hpc]
    dsimp only
    rw [hmore]

/-- **C164** in full, of random search: when an evaluation comes back more than three seconds after the
limit the search ends. -/
def C164_claim : Prop :=
  ∀ (σ ι C : Type) (_ : DecidableEq ι) (o : SearchOps σ ι) (maxN : Option Int) (cbs : List C) (started begins maxEval : ℚ)
    (limit : Int) (l out : List ι) (w : σ) (ps : List (Passage σ C)) (p : Passage σ C) (s : Rs σ ι),
    cbs ≠ [] → started ≤ begins → 0 < maxEval → 0 < limit →
    (∀ q ∈ ps, InOrder q cbs) → InOrder p cbs →
    s = rsRun o maxN (ps.map (passageWait (searchActivity started limit) maxEval (searchDeadline begins limit) cbs))
      (rsStart (.list l) out w) →
    s.pc = .loop → rsMore maxN s.output.length = true → started + limit + 3 < p.back →
    ∃ e, (rsStep o maxN (passageWait (searchActivity started limit) maxEval (searchDeadline begins limit) cbs p) s).pc
      = .raised e

/-- A random search in progress, with something to wait for. -/
def RsGoesOn (s : Rs σ ι) : Prop :=
  match s.pc with
  | .submit rest => s.pending ≠ [] ∨ rest ≠ []
  | .loop => s.pending ≠ []
  | .got _ _ => True
  | .next => True
  | .returned => False
  | .raised _ => False

/-- The number of individuals reported, with the one about to be. -/
def rsReported (s : Rs σ ι) : Nat :=
  match s.pc with
  | .got _ (.result _ _) => s.output.length + 1
  | _ => s.output.length

/-- One for an evaluation, none for an exception. -/
def Spec.counted : Completion → Nat
  | .result _ _ => 1
  | .failed => 0

/-- The waits that return an evaluation. -/
def Spec.evaluations : List (Wait σ) → Nat
  | [] => 0
  | .completes _ (.result _ _) _ :: is => evaluations is + 1
  | .completes _ .failed _ :: is => evaluations is
  | .raises _ :: is => evaluations is

omit [DecidableEq ι] in
theorem takePending_of_ne {α : Type} (pending : List α) (k : Nat) (h : pending ≠ []) :
    ∃ x rest, takePending pending k = some (x, rest) := by
  unfold takePending
  have hk : k % pending.length < pending.length := Nat.mod_lt _ (List.length_pos_iff.2 h)
  rw [List.getElem?_eq_getElem hk]
  exact ⟨_, _, rfl⟩

theorem rs_goes_on_step (o : SearchOps σ ι) (maxN : Option Int) (hi : ∀ w, ∃ x w', o.individual w = (.ok x, w'))
    (k : Nat) (c : Completion) (w : σ) (s : Rs σ ι) (h : RsGoesOn s)
    (hm : ∀ n, maxN = some n → (rsReported s : Int) < n) :
    RsGoesOn (rsStep o maxN (.completes k c w) s) ∧
      rsReported (rsStep o maxN (.completes k c w) s) ≤
        rsReported s + counted c := by
  obtain ⟨pc, w0, out, pend, hist, sub⟩ := s
  cases pc with
  | submit rest =>
    cases rest with
    | nil =>
      refine ⟨?_, by simp [rsReported, rsStep]⟩
      rcases h with h | h
      · exact h
      · exact absurd rfl h
    | cons x xs => exact ⟨.inl (by simp [rsStep]), by simp [rsReported, rsStep]⟩
  | loop =>
    have hmore : rsMore maxN out.length = true := by
      unfold rsMore
      cases maxN with
      | none => rfl
      | some n => exact decide_eq_true (hm n rfl)
    obtain ⟨x, rest, ht⟩ := takePending_of_ne pend k h
    have hs : rsStep o maxN (.completes k c w) (⟨.loop, w0, out, pend, hist, sub⟩ : Rs σ ι) =
        ⟨.got x c, w, out, rest, hist ++ [(x, c)], sub⟩ := by
      unfold rsStep
      dsimp only
      rw [if_pos hmore, ht]
    rw [hs]
    exact ⟨trivial, by cases c <;> simp [rsReported, counted]⟩
  | got x r =>
    cases r with
    | failed => exact ⟨trivial, by simp [rsReported, rsStep]⟩
    | result b sc => exact ⟨trivial, by simp [rsReported, rsStep]⟩
  | next =>
    obtain ⟨x, w', hx⟩ := hi w0
    have hs : rsStep o maxN (.completes k c w) (⟨.next, w0, out, pend, hist, sub⟩ : Rs σ ι) =
        ⟨.loop, w', out, pend ++ [x], hist, sub ++ [x]⟩ := by
      unfold rsStep
      dsimp only
      rw [hx]
    rw [hs]
    exact ⟨by simp [RsGoesOn], by simp [rsReported]⟩
  | returned => exact h.elim
  | raised e => exact h.elim

theorem rs_goes_on (o : SearchOps σ ι) (maxN : Option Int) (hi : ∀ w, ∃ x w', o.individual w = (.ok x, w')) :
    ∀ (is : List (Wait σ)) (s : Rs σ ι), (∀ i ∈ is, ∃ k c w, i = .completes k c w) → RsGoesOn s →
      (∀ n, maxN = some n → ((rsReported s + evaluations is : Nat) : Int) < n) → RsGoesOn (rsRun o maxN is s)
  | [], _, _, h, _ => h
  | i :: is, s, hc, h, hm => by
    obtain ⟨k, c, w, rfl⟩ := hc i (by simp)
    have hs := rs_goes_on_step o maxN hi k c w s h fun n hn => by have := hm n hn; push_cast at this; omega
    refine rs_goes_on o maxN hi is _ (fun j hj => hc j (by simp [hj])) hs.1 fun n hn => ?_
    have h1 := hm n hn
    have h2 := hs.2
    have h3 : (evaluations (Wait.completes k c w :: is) : Nat) =
        evaluations is + counted c := by cases c <;> rfl
    rw [h3] at h1
    omega

theorem unnoticed_completes {started maxEval deadline : ℚ} {limit : Int} {cbs : List C} {ps : List (Passage σ C)}
    (hp : ∀ p ∈ ps, Unnoticed started limit maxEval deadline cbs p) :
    ∀ i ∈ ps.map (passageWait (searchActivity started limit) maxEval deadline cbs), ∃ k c w, i = Wait.completes k c w := by
  intro i hm
  obtain ⟨p, h, rfl⟩ := List.mem_map.1 hm
  exact ⟨_, _, _, (passageWait_unnoticed _ _ _ _ _ _).1 (hp p h)⟩

/-- A random search to which nothing tells that its time is up goes on for ever, also with a maximum number
of evaluations unless that many came back with a result.  Evaluations begun after the deadline never
tell it (`Unnoticed`), and never count. -/
theorem C164_random_search (o : SearchOps σ ι) (hi : ∀ w, ∃ x w', o.individual w = (.ok x, w')) (maxN : Option Int)
    (started maxEval deadline : ℚ) (limit : Int) (cbs : List C) (c : Candidates ι) (out : List ι)
    (hl : c ≠ .list []) (ho : c = .sameAsOutput → out ≠ []) (w : σ) (ps : List (Passage σ C))
    (hp : ∀ p ∈ ps, Unnoticed started limit maxEval deadline cbs p)
    (hm : ∀ n, maxN = some n → ((out.length + (ps.filter fun p => p.sent maxEval deadline ≠ .failed).length : Nat) : Int) < n) :
    ∀ s, s = rsRun o maxN (ps.map (passageWait (searchActivity started limit) maxEval deadline cbs)) (rsStart c out w) →
      s.pc ≠ .returned ∧ ∀ e, s.pc ≠ .raised e := by
  intro s hs
  have hcount : evaluations (ps.map (passageWait (searchActivity started limit) maxEval deadline cbs)) =
      (ps.filter fun p => p.sent maxEval deadline ≠ .failed).length := by
    clear hm hs s
    induction ps with
    | nil => rfl
    | cons p ps ih =>
      have h := (passageWait_unnoticed _ _ _ _ _ _).1 (hp p (by simp))
      rw [List.map_cons, h, List.filter_cons]
      cases hsent : p.sent maxEval deadline with
      | failed => simpa [evaluations] using ih fun q hq => hp q (by simp [hq])
      | result b sc => simpa [evaluations] using ih fun q hq => hp q (by simp [hq])
  have h := rs_goes_on o maxN hi _ (rsStart c out w) (unnoticed_completes hp)
    (by
      cases c with
      | list l => exact .inr fun h => hl (congrArg Candidates.list h)
      | sameAsOutput => exact .inr (ho rfl))
    (fun n hn => by rw [hcount]; exact hm n hn)
  rw [← hs] at h
  unfold RsGoesOn at h
  constructor
  · intro hpc; rw [hpc] at h; exact h
  · intro e hpc; rw [hpc] at h; exact h

/-- **C164** is false of the code: the limit is ten seconds, evaluations may take one; one that begins
after twenty seconds is refused, no callback is called, and the search goes on. -/
theorem C164_false : ¬ C164_claim := by
  intro h
  have := h Unit Nat Unit inferInstance Ex.ops none [()] 0 0 1 10 [1] [] () (List.replicate 2 ⟨0, 0, 0, .failed, fun _ => .returns, fun _ => 0, ()⟩)
    ⟨20, 20, 0, .result true (.fin 1), fun _ => .returns, fun _ => 20, ()⟩ _ (by simp) (le_refl _) (by norm_num) (by norm_num)
    (by intro q hq; rw [List.eq_of_mem_replicate hq]; exact ⟨le_refl _, fun _ _ => le_refl _⟩)
    ⟨le_refl _, fun _ _ => le_refl _⟩ rfl rfl rfl (by norm_num)
  obtain ⟨e, he⟩ := this
  exact absurd he (by
    have hw : passageWait (searchActivity 0 10) 1 (searchDeadline 0 10) [()]
        (⟨20, 20, 0, .result true (.fin 1), fun _ => .returns, fun _ => 20, ()⟩ : Passage Unit Unit) =
        .completes 0 .failed () := by
      have := (passageWait_unnoticed (σ := Unit) (C := Unit) 0 1 (searchDeadline 0 10) 10 [()]
        ⟨20, 20, 0, .result true (.fin 1), fun _ => .returns, fun _ => 20, ()⟩).1 (.inl (by norm_num [searchDeadline]))
      rw [this]
      norm_num [Passage.sent, pipelineTimeout, evalTimeout, searchDeadline]
    rw [hw]
    intro h
    cases h)

/-- An evolutionary search to which nothing tells that its time is up goes on for ever, if it has a
population of three or more whenever it makes offspring, all of which can be mutated (C127). -/
theorem C164_evolution {c : OpConfig} (hu : Workable c) (hmax : c.maxLength = none) {cxpb : ℚ} {size n k : Nat}
    (hk : 2 ≤ k) {l out : List Nat} {w : World} (hl : l ≠ []) (hc : ∀ x ∈ l, OfSpace c.ps w x)
    (started maxEval deadline : ℚ) (limit : Int) (cbs : List C) {is : List ((Str → Bool) × EaInput World)}
    (hh : EvolveAlong c cxpb none size (fun s i => Honest k s i ∧ QueueReading n s i ∧
      (s.pc = .fill → i.queue ≤ 1 → 3 ≤ s.population.length) ∧
      ∃ p, Unnoticed started limit maxEval deadline cbs p ∧
        i.wait = passageWait (searchActivity started limit) maxEval deadline cbs p) is (eaStart (.list l) out w)) :
    ∀ s, s = evolve c cxpb none size is (eaStart (.list l) out w) → s.pc ≠ .returned ∧ ∀ e, s.pc ≠ .raised e := by
  intro s hs
  constructor
  · have h := evolve_induct (c := c) (cxpb := cxpb) (maxN := none) (size := size) (C := fun _ _ => True)
      (P := fun s => s.pc ≠ .returned) (fun d s i h _ => by
        obtain ⟨pc, w, pop, pend, ev, hist, sub⟩ := s
        unfold eaStep
        cases pc with
        | start c => dsimp only; rw [if_neg (by simp [eaRefused])]; simp
        | clear c => cases c <;> simp
        | submit rest => cases rest <;> simp
        | loop =>
          dsimp only
          rw [if_pos (show eaMore none ev = true from rfl)]
          cases i.wait with
          | raises e => simp
          | completes k c w => dsimp only; cases takePending pend k <;> simp
        | got x c =>
          cases c with
          | failed => simp
          | result b sc => cases b <;> simp
        | full =>
          dsimp only
          by_cases hlen : size < pop.length
          · rw [if_pos hlen]
            cases (gamaOps { c with completed := d } cxpb).eliminate pop w with
            | mk r w' => cases r <;> simp
          · rw [if_neg hlen]; simp
        | remove x =>
          dsimp only
          by_cases hx : x ∈ pop
          · rw [if_pos hx]; simp
          · rw [if_neg hx]; simp
        | fill =>
          dsimp only
          by_cases hq : i.queue ≤ 1
          · rw [if_pos hq]
            cases (gamaOps { c with completed := d } cxpb).create pop w with
            | mk r w' => cases r <;> simp
          · rw [if_neg hq]; simp
        | restart =>
          dsimp only
          by_cases hr : i.restart = true
          · rw [if_pos hr]; simp
          · rw [if_neg hr]; simp
        | renew k made =>
          cases k with
          | zero => simp
          | succ k =>
            dsimp only
            cases (gamaOps { c with completed := d } cxpb).individual w with
            | mk r w' => cases r <;> simp
        | returned => exact h
        | raised e => exact h) is (eaStart (.list l) out w) (by simp [eaStart])
        (evolveAlong_mono (fun _ _ _ => trivial) _ _ hh)
    rw [hs]; exact h
  · intro e he
    rw [hs] at he
    obtain ⟨as, d, i, bs, t, h1, h2, h3⟩ := C127_partial hu rfl hk hl hc
      (evolveAlong_mono (fun _ _ h => ⟨h.1, h.2.1⟩) _ _ hh) he
    subst h1
    have hi := ((evolveAlong_append as _ _).1 hh).2.1
    rw [← h2] at hi
    obtain ⟨-, -, hpop, p, hp, hw⟩ := hi
    rcases h3 with ⟨-, h3⟩ | ⟨h3, hq, h4, -⟩ | ⟨-, x, -, ss, -, h4⟩
    · rw [(passageWait_unnoticed _ _ _ _ _ _).1 hp] at hw
      rw [hw] at h3
      cases h3
    · have := hpop h3 hq
      omega
    · rcases h4 with ⟨m, h4, -⟩ | ⟨h4, -⟩
      · rw [hmax] at h4; cases h4
      · rw [hmax] at h4; cases h4

/-- Successive halving in progress. -/
def AshaGoesOn (s : Asha σ ι) : Prop :=
  match s.pc with
  | .returned _ => False
  | .raised _ => False
  | _ => True

theorem startJob_goes_on (o : SearchOps σ ι) (hi : ∀ w, ∃ x w', o.individual w = (.ok x, w')) (c : AshaConfig)
    (hr : c.rate ≤ c.maxRung) (k : Nat) (s : Asha σ ι) (hk : s.rungs.map Prod.fst = c.levels) :
    ∃ s', startJob o c k s = (.ok (), s') := by
  have hj : ∃ x rung s', getJob o c k s = (.ok (x, rung), s') ∧ rung ∈ c.levels := by
    unfold getJob
    cases hf : findPromotion c.rf k s.promoted s.rungs.tail with
    | some p =>
      obtain ⟨rung, x⟩ := p
      obtain ⟨inds, hm, -⟩ := findPromotion_some hf
      refine ⟨_, _, _, rfl, ?_⟩
      have hm' : rung ∈ c.levels.tail := by
        rw [← hk, ← List.map_tail]
        exact List.mem_map.2 ⟨_, hm, rfl⟩
      have h1 := levels_tail hm'
      have h2 := mem_levels.1 (List.mem_of_mem_tail hm')
      rw [mem_levels]
      omega
    | none =>
      dsimp only
      cases s.candidates.getLast? with
      | some x => exact ⟨_, _, _, rfl, mem_levels.2 ⟨le_refl _, hr⟩⟩
      | none =>
        obtain ⟨x, w', hx⟩ := hi s.world
        dsimp only
        rw [hx]
        exact ⟨_, _, _, rfl, mem_levels.2 ⟨le_refl _, hr⟩⟩
  obtain ⟨x, rung, s', h1, h2⟩ := hj
  have h3 : startJob o c k s = (.ok (), { s' with
      pending := s'.pending ++ [(x, rung)], submitted := s'.submitted ++ [(x, rung)] }) := by
    unfold startJob
    simp only [bind, PyM.bind, h1]
    rw [if_pos h2]
    rfl
  exact ⟨_, h3⟩

/-- Successive halving to which nothing tells that its time is up goes on for ever. -/
theorem C164_halving (o : SearchOps σ ι) (hi : ∀ w, ∃ x w', o.individual w = (.ok x, w')) (c : AshaConfig)
    (hn : c.maxFull = none) (hr : c.rate ≤ c.maxRung) (cands : List ι) (w : σ)
    (started maxEval deadline : ℚ) (limit : Int) (cbs : List C) (ps : List (Passage σ C × Nat))
    (hp : ∀ p ∈ ps, Unnoticed started limit maxEval deadline cbs p.1) :
    AshaGoesOn (ashaRun o c (ps.map fun p => ⟨passageWait (searchActivity started limit) maxEval deadline cbs p.1, p.2⟩)
      (ashaStart c cands w)) := by
  have key : ∀ (ps : List (Passage σ C × Nat)) (s : Asha σ ι),
      (∀ p ∈ ps, Unnoticed started limit maxEval deadline cbs p.1) → AshaGoesOn s → AshaOK c cands s →
      ashaBusy s.pc s.pending.length →
      AshaGoesOn (ashaRun o c (ps.map fun p => ⟨passageWait (searchActivity started limit) maxEval deadline cbs p.1, p.2⟩) s) := by
    intro ps
    induction ps with
    | nil => intro s _ h _ _; exact h
    | cons p ps ih =>
      intro s hp h hok hb
      have hok' := ashaOK_run o c cands [⟨passageWait (searchActivity started limit) maxEval deadline cbs p.1, p.2⟩] s hok
      refine ih _ (fun q hq => hp q (by simp [hq])) ?_ hok' (ashaBusy_step o c _ s hb)
      have hw := (passageWait_unnoticed _ _ _ _ _ _).1 (hp p (by simp))
      dsimp only
      rw [hw]
      have hkeys := hok.core.keysR
      obtain ⟨s', hj⟩ := startJob_goes_on o hi c hr p.2 s hkeys
      unfold ashaStep
      cases hpc : s.pc with
      | starting k =>
        cases k with
        | zero => trivial
        | succ k => dsimp only; rw [hj]; trivial
      | loop =>
        rw [hpc] at hb
        obtain ⟨⟨x, rung⟩, rest, ht⟩ := takePending_of_ne s.pending p.1.index (fun h0 => by
          rw [h0] at hb; simp [ashaBusy] at hb)
        dsimp only [ashaMore]
        rw [hn]
        dsimp only
        rw [ht]
        trivial
      | got x rung r =>
        cases r with
        | failed => trivial
        | result b sc =>
          have hmem : (x, rung) ∈ s.submitted := by
            have h1 := hok.got x rung _ hpc
            have h2 := hok.core.jobs
            refine h2.mem_iff.2 (List.mem_append_right _ (List.mem_map.2 ⟨(x, rung, .result b sc), ?_, rfl⟩))
            rw [h1]; simp
          have h3 := hok.core.entries rung (hok.core.onLevel _ hmem)
          dsimp only
          rw [h3]
          trivial
      | next => dsimp only; rw [hj]; trivial
      | returned l => unfold AshaGoesOn at h; rw [hpc] at h; exact h.elim
      | raised e => unfold AshaGoesOn at h; rw [hpc] at h; exact h.elim
  exact key ps _ hp trivial (ashaOK_start c cands w) (by simp [ashaStart, ashaBusy])

/-- Evaluations that begin after the deadline of ten seconds, whose callbacks would raise anything: random
search with at most five evaluations and successive halving go on, however many come back. -/
example (call : Unit → CallEnd) (clock : Unit → ℚ) (n : Nat) :
    (∀ s, s = rsRun Ex.ops (some 5) ((List.replicate n ⟨20, 30, 0, .result true (.fin 1), call, clock, ()⟩).map
      (passageWait (searchActivity 0 10) 1 (searchDeadline 0 10) [()])) (rsStart (.list [1, 2]) [] ()) →
      s.pc ≠ .returned ∧ ∀ e, s.pc ≠ .raised e) ∧
    AshaGoesOn (ashaRun Ex.ops ⟨2, 0, 2, none⟩ ((List.replicate n
      (⟨20, 30, 0, .result true (.fin 1), call, clock, ()⟩, 0)).map fun p =>
        ⟨passageWait (searchActivity 0 10) 1 (searchDeadline 0 10) [()] p.1, p.2⟩) (ashaStart ⟨2, 0, 2, none⟩ [1, 2] ())) := by
  have hd : searchDeadline 0 10 ≤ 20 := by norm_num [searchDeadline]
  refine ⟨C164_random_search Ex.ops (fun w => ⟨_, _, rfl⟩) _ _ _ _ _ _ _ _ (by simp) (by simp) _ _ ?_ ?_,
    C164_halving Ex.ops (fun w => ⟨_, _, rfl⟩) _ rfl (by decide) _ _ _ _ _ _ _ _ ?_⟩
  · intro p hp; rw [List.eq_of_mem_replicate hp]; exact .inl hd
  · intro m hm
    cases hm
    have : ((List.replicate n (⟨20, 30, 0, .result true (.fin 1), call, clock, ()⟩ : Passage Unit Unit)).filter
        fun p => p.sent 1 (searchDeadline 0 10) ≠ .failed) = [] := by
      rw [List.filter_eq_nil_iff]
      intro p hp
      rw [List.eq_of_mem_replicate hp]
      norm_num [Passage.sent, pipelineTimeout, evalTimeout, searchDeadline]
    rw [this]
    simp
  · intro p hp; rw [List.eq_of_mem_replicate hp]; exact .inl hd

/-- `C164_partial`: one that began after nine seconds and comes back after fourteen ends a random search,
although the callback swallowed the timeout. -/
example : ∃ e, (rsStep Ex.ops none (passageWait (searchActivity 0 10) 1 (searchDeadline 0 10) [()]
      ⟨9, 14, 0, .result true (.fin 1), fun _ => .returns, fun _ => 15, ()⟩)
      ⟨.loop, (), [], [1, 2], [], [1, 2]⟩).pc = .raised e ∧ (e = .timeout ∨ e = .keyboardInterrupt) :=
  (C164_partial 0 0 1 10 [()] (by simp) ⟨9, 14, 0, .result true (.fin 1), fun _ => .returns, fun _ => 15, ()⟩
    ⟨by norm_num, fun _ _ => by norm_num⟩ (by norm_num) (by norm_num) (by norm_num) (by simp) Ex.ops).1 none _ rfl rfl

/-- A passage within the limit gives any outcome. -/
theorem Ex.passage_any (k : Nat) (c : Completion) (w : σ) :
    ∃ p : Passage σ Unit, Unnoticed 0 10 1 10 [()] p ∧
      Wait.completes k c w = passageWait (searchActivity 0 10) 1 10 [()] p := by
  refine ⟨⟨0, 0, k, c, fun _ => .returns, fun _ => 0, w⟩, ?_, ?_⟩
  · exact .inr (.inr (.inr fun cb _ => ⟨.inl rfl, by norm_num⟩))
  · rw [(passageWait_unnoticed _ _ _ _ _ _).1 (.inr (.inr (.inr fun cb _ => ⟨.inl rfl, by norm_num⟩)))]
    norm_num [Passage.sent, pipelineTimeout, evalTimeout]

/-- Every wait of such a search completes. -/
theorem Ex.auto_completes {c : OpConfig} {cxpb : ℚ} {maxN : Option Int} {size n : Nat} :
    ∀ (chs : List Ex.Choice) (s : Ea World Nat), EvolveAlong c cxpb maxN size
      (fun _ i => ∃ k r w, i.wait = .completes k r w) (Ex.auto c cxpb maxN size n chs s) s
  | [], _ => trivial
  | _ :: chs, _ => ⟨⟨_, _, _, rfl⟩, Ex.auto_completes chs _⟩

/-- `C164_evolution`: 33 steps from six pipelines. -/
example : ∀ s, s = evolve Ex.config (1 / 5) none 50 (Ex.auto Ex.config (1 / 5) none 50 1 Ex.overLong Ex.sixStart)
      Ex.sixStart → s.pc ≠ .returned ∧ ∀ e, s.pc ≠ .raised e := by
  have hb : Ex.threeB Ex.config (1 / 5) none 50
      (Ex.auto Ex.config (1 / 5) none 50 1 Ex.overLong Ex.sixStart) Ex.sixStart = true := by
    decide +kernel
  have h := Ex.threeB_sound _ _ hb (Ex.auto_along Ex.usable_config (cxpb := 1 / 5) (maxN := none) rfl (size := 50) (n := 1)
    (le_refl 2) Ex.overLong Ex.sixStart Ex.overLong_values (sound_start (Ex.six_space rfl)))
  have h' := Ex.evolveAlong_and _ _ h (Ex.auto_completes (c := Ex.config) (cxpb := 1 / 5) (maxN := none) (size := 50)
    (n := 1) Ex.overLong Ex.sixStart)
  refine C164_evolution (n := 1) Ex.usable_config rfl (le_refl 2) (by decide) (Ex.six_space rfl) 0 1 10 10 [()]
    (evolveAlong_mono (fun s i g => ⟨g.1.1.1, fun hf => le_of_eq (g.1.1.2.2 hf), g.1.2, ?_⟩) _ _ h')
  obtain ⟨k, c, w, hw⟩ := g.2
  rw [hw]
  exact Ex.passage_any k c w

end Gama
