import Verif.Props.Search
import Verif.Props.Space

/-! # Starvation, refitting, random search: C36 – C38 -/

namespace Gama
open PyM Spec

section
variable {σ ι : Type} [DecidableEq ι]

/-! ## C36 -/

/-- With `n` workers, `job_queue_size` is the number of unreturned jobs minus `n` (C30), or
smaller. -/
def Spec.QueueReading (n : Nat) (s : Ea σ ι) (i : EaInput σ) : Prop :=
  s.pc = .fill → i.queue ≤ (s.pending.length : Int) - n

/-- Jobs are pending or about to be submitted. -/
def Fed (s : Ea σ ι) : Prop :=
  match s.pc with
  | .start c => 0 < candidatesLength c ∧ s.pending.length = 0
  | .clear c => 0 < candidatesLength c + s.pending.length
  | .submit rest => 0 < rest.length + s.pending.length
  | .loop => 0 < s.pending.length
  | .restart => 0 < s.pending.length
  | .renew _ _ => 0 < s.pending.length
  | _ => True

theorem fed_step (o : SearchOps σ ι) (maxN : Option Int) (size n : Nat) (s : Ea σ ι)
    (i : EaInput σ) (h : Fed s) (hq : QueueReading n s i) : Fed (eaStep o maxN size i s) := by
  unfold Fed at h
  unfold eaStep
  cases hpc : s.pc with
  | start c =>
    rw [hpc] at h
    dsimp only at h ⊢
    split
    · trivial
    · show 0 < candidatesLength c + s.pending.length
      omega
  | clear c =>
    rw [hpc] at h
    cases c with
    | list l => exact h
    | sameAsOutput => exact h
  | submit rest =>
    rw [hpc] at h
    cases rest with
    | nil => simpa [Fed] using h
    | cons x xs =>
      show 0 < xs.length + (s.pending ++ [x]).length
      simp
  | loop =>
    dsimp only
    split
    · cases i.wait with
      | raises e => trivial
      | completes k c w =>
        dsimp only
        cases takePending s.pending k <;> trivial
    · trivial
  | got x c =>
    cases c with
    | failed => trivial
    | result b score => cases b <;> trivial
  | full =>
    dsimp only
    split
    · cases o.eliminate s.population s.world with
      | mk r w => cases r <;> trivial
    · trivial
  | remove x => dsimp only; split <;> trivial
  | fill =>
    dsimp only
    split
    · cases o.create s.population s.world with
      | mk r w =>
        cases r with
        | error e => trivial
        | ok x =>
          show 0 < (s.pending ++ [x]).length
          simp
    · have := hq hpc
      show 0 < s.pending.length
      omega
  | restart =>
    rw [hpc] at h
    dsimp only at h ⊢
    split <;> exact h
  | renew k made =>
    rw [hpc] at h
    cases k with
    | zero =>
      show 0 < candidatesLength (.list made) + s.pending.length
      dsimp only at h
      omega
    | succ k =>
      dsimp only at h ⊢
      cases o.individual s.world with
      | mk r w =>
        cases r with
        | error e => trivial
        | ok x => exact h
  | returned => unfold Fed; rw [hpc]; trivial
  | raised e => unfold Fed; rw [hpc]; trivial

/-- **C36**, first half: starting from at least one candidate, the search never waits without a
pending job, whatever the outcomes of evaluations. -/
theorem C36_never_starves (o : SearchOps σ ι) (maxN : Option Int) (size n : Nat)
    (l : List ι) (hl : l ≠ []) (out : List ι) (w : σ) (is : List (EaInput σ))
    (hq : EaAlong o maxN size (QueueReading n) is (eaStart (.list l) out w)) (s : Ea σ ι)
    (hs : s = eaRun o maxN size is (eaStart (.list l) out w)) (hpc : s.pc = .loop) :
    s.pending ≠ [] := by
  have h := eaRun_induct (P := Fed) (fun s i h hq => fed_step o maxN size n s i h hq) is
    (eaStart (.list l) out w) ⟨List.length_pos_iff.2 hl, rfl⟩ hq
  rw [← hs] at h
  unfold Fed at h
  rw [hpc] at h
  exact List.length_pos_iff.1 h

/-- The environment does its part: evaluations come back (with any outcome), `job_queue_size`
is right. -/
def Spec.Cooperative (n : Nat) (s : Ea σ ι) (i : EaInput σ) : Prop :=
  (s.pc = .loop → ∃ k c w, i.wait = .completes k c w) ∧
  (s.pc = .fill → i.queue = (s.pending.length : Int) - n)

/-- **C36** in full: with GAMA's operators, at least one candidate and any number of workers the
search never ends with an exception of its own. -/
def C36_claim : Prop :=
  ∀ (c : OpConfig) (cxpb : ℚ) (maxN : Option Int) (size n : Nat) (l out : List Nat) (w : World)
    (is : List (EaInput World)), 1 ≤ n → 50 ≤ size → l ≠ [] → eaRefused maxN = false →
    EaAlong (gamaOps c cxpb) maxN size (Cooperative n) is (eaStart (.list l) out w) →
    ∀ e, (eaRun (gamaOps c cxpb) maxN size is (eaStart (.list l) out w)).pc ≠ .raised e

/-- All evaluations succeed; the `k`-th is that of the first pending job. -/
def Ex.allGood (queue : Int) (w : World) : EaInput World :=
  ⟨.completes 0 (.result true (.fin 1)) w, queue, false⟩

def Ex.allBad (queue : Int) (w : World) : EaInput World :=
  ⟨.completes 0 (.result false .ninf) w, queue, false⟩

/-- Decidable form of `Cooperative` along inputs that always complete. -/
def coopB (o : SearchOps σ ι) (maxN : Option Int) (size n : Nat) :
    List (EaInput σ) → Ea σ ι → Bool
  | [], _ => true
  | i :: is, s =>
    (match s.pc with
      | .fill => decide (i.queue = (s.pending.length : Int) - n)
      | _ => true) &&
    (match i.wait with
      | .completes _ _ _ => true
      | .raises _ => false) &&
    coopB o maxN size n is (eaStep o maxN size i s)

theorem coopB_sound {o : SearchOps σ ι} {maxN : Option Int} {size n : Nat} :
    ∀ (is : List (EaInput σ)) (s : Ea σ ι), coopB o maxN size n is s = true →
      EaAlong o maxN size (Cooperative n) is s := by
  intro is
  induction is with
  | nil => intro s _; trivial
  | cons i is ih =>
    intro s h
    unfold coopB at h
    rw [Bool.and_eq_true, Bool.and_eq_true] at h
    refine ⟨⟨fun _ => ?_, fun hf => ?_⟩, ih _ h.2⟩
    · cases hw : i.wait with
      | raises e => rw [hw] at h; simp at h
      | completes k c w => exact ⟨k, c, w, rfl⟩
    · rw [hf] at h
      simpa using h.1.1

/-- Whether the search ended with a `ValueError`. -/
def valueErrorB (s : Ea World Nat) : Bool :=
  match s.pc with
  | .raised .valueError => true
  | _ => false

theorem valueErrorB_sound {s : Ea World Nat} (h : valueErrorB s = true) : s.pc = .raised .valueError := by
  unfold valueErrorB at h
  split at h
  · assumption
  · cases h

def Ex.world : World := ⟨[], [], fun _ => 0⟩

def Ex.config : OpConfig := ⟨Ex.space, none, fun _ => false, 50⟩

/-- **C36 is false**: with 48 workers and the usual 50 start candidates, all of which evaluate
without error, offspring is asked for after the first evaluation; selection from one individual is
refused and the search ends. -/
theorem C36_false : ¬ C36_claim := by
  intro h
  refine h Ex.config 0 none 50 48 (List.range 50) [] Ex.world
    (List.replicate 57 (Ex.allGood 1 Ex.world)) (by omega) (by omega) (by decide) rfl
    (coopB_sound _ _ (by decide +kernel)) .valueError (valueErrorB_sound (by decide +kernel))

/-- The same happens with four workers if the first 45 evaluations fail. -/
theorem C36_false_failures : ∃ is, EaAlong (gamaOps Ex.config 0) none 50 (Cooperative 4) is
      (eaStart (.list (List.range 50)) [] Ex.world) ∧
    (eaRun (gamaOps Ex.config 0) none 50 is (eaStart (.list (List.range 50)) [] Ex.world)).pc =
      .raised .valueError := by
  -- the 53 steps before the first wait, then four steps per evaluation
  refine ⟨List.replicate 53 (Ex.allBad 0 Ex.world) ++
    (List.range 45).flatMap fun j => List.replicate 4 (Ex.allBad (45 - j) Ex.world), ?_, ?_⟩
  · exact coopB_sound _ _ (by decide +kernel)
  · exact valueErrorB_sound (by decide +kernel)

/-- As `Cooperative`, and all evaluations succeed; a restart makes enough new candidates. -/
def Spec.Successful (n size : Nat) (s : Ea σ ι) (i : EaInput σ) : Prop :=
  (s.pc = .loop → ∃ k score w, i.wait = .completes k (.result true score) w) ∧
  (s.pc = .fill → i.queue = (s.pending.length : Int) - n) ∧
  (s.pc = .restart → i.restart = true → n + 3 ≤ size)

/-- Offspring is not asked for before there are three individuals. -/
def Enough (n size : Nat) (s : Ea σ ι) : Prop :=
  match s.pc with
  | .start c => n + 4 ≤ candidatesLength c
  | .clear c => n + 4 ≤ candidatesLength c + s.pending.length
  | .submit rest => s.population.length = 0 ∧ n + 4 ≤ rest.length + s.pending.length
  | .loop => (3 ≤ s.population.length ∨ n + 4 ≤ s.pending.length + s.population.length) ∧
      0 < s.pending.length
  | .got _ c => (∃ score, c = .result true score) ∧
      (3 ≤ s.population.length ∨ n + 4 ≤ s.pending.length + 1 + s.population.length)
  | .full => 0 < s.population.length ∧
      (3 ≤ s.population.length ∨ n + 4 ≤ s.pending.length + s.population.length)
  | .remove x => x ∈ s.population ∧ size < s.population.length
  | .fill => 3 ≤ s.population.length ∨ n + 4 ≤ s.pending.length + s.population.length
  | .restart => (3 ≤ s.population.length ∨ n + 4 ≤ s.pending.length + s.population.length) ∧
      0 < s.pending.length
  | .renew k made => n + 4 ≤ s.pending.length + k + made.length
  | .returned => True
  | .raised _ => False

theorem enough_step {o : SearchOps σ ι} {maxN : Option Int} (hm : eaRefused maxN = false)
    {size n : Nat} (h3 : 3 ≤ size)
    (s : Ea σ ι)
    (hcreate : s.pc = .fill → 3 ≤ s.population.length →
      ∃ x w', o.create s.population s.world = (.ok x, w'))
    (helim : s.pc = .full → s.population ≠ [] →
      ∃ x w', o.eliminate s.population s.world = (.ok x, w') ∧ x ∈ s.population)
    (hind : ∃ x w', o.individual s.world = (.ok x, w'))
    (i : EaInput σ) (h : Enough n size s) (hq : Successful n size s i) :
    Enough n size (eaStep o maxN size i s) := by
  obtain ⟨q1, q2, q3⟩ := hq
  unfold Enough at h
  unfold eaStep
  cases hpc : s.pc with
  | start c =>
    rw [hpc] at h
    dsimp only at h ⊢
    rw [hm, if_neg (by simp)]
    show n + 4 ≤ candidatesLength c + s.pending.length
    omega
  | clear c =>
    rw [hpc] at h
    cases c with
    | list l => exact ⟨rfl, h⟩
    | sameAsOutput => exact ⟨rfl, h⟩
  | submit rest =>
    rw [hpc] at h
    cases rest with
    | nil =>
      dsimp only at h ⊢
      simp only [List.length_nil] at h
      exact ⟨Or.inr (by dsimp only; omega), by dsimp only; omega⟩
    | cons x xs =>
      dsimp only at h ⊢
      refine ⟨h.1, ?_⟩
      simp only [List.length_append, List.length_cons, List.length_nil] at h ⊢
      omega
  | loop =>
    rw [hpc] at h
    dsimp only at h ⊢
    split
    · obtain ⟨k, score, w, hw⟩ := q1 hpc
      rw [hw]
      dsimp only
      cases ht : takePending s.pending k with
      | none =>
        have := takePending_none ht
        rw [this] at h
        simp at h
      | some p =>
        obtain ⟨x, rest⟩ := p
        have := (takePending_some ht).2.1
        refine ⟨⟨score, rfl⟩, ?_⟩
        dsimp only
        omega
    · trivial
  | got x c =>
    rw [hpc] at h
    dsimp only at h
    obtain ⟨⟨score, rfl⟩, h⟩ := h
    dsimp only
    unfold Enough
    dsimp only
    rw [List.length_append, List.length_singleton]
    omega
  | full =>
    rw [hpc] at h
    dsimp only at h ⊢
    split
    · rename_i hs
      obtain ⟨x, w', he, hx⟩ := helim hpc (List.length_pos_iff.1 h.1)
      rw [he]
      exact ⟨hx, hs⟩
    · exact h.2
  | remove x =>
    rw [hpc] at h
    dsimp only at h ⊢
    rw [if_pos h.1]
    left
    dsimp only
    rw [List.length_erase_of_mem h.1]
    omega
  | fill =>
    rw [hpc] at h
    dsimp only at h ⊢
    have hqq := q2 hpc
    split
    · have : 3 ≤ s.population.length := by omega
      obtain ⟨x, w', he⟩ := hcreate hpc this
      rw [he]
      exact ⟨Or.inl this, by simp⟩
    · exact ⟨h, by dsimp only; omega⟩
  | restart =>
    rw [hpc] at h
    dsimp only at h ⊢
    split
    · rename_i hr
      have := q3 hpc hr
      unfold Enough
      simp only [List.length_nil]
      omega
    · exact h
  | renew k made =>
    rw [hpc] at h
    cases k with
    | zero =>
      show n + 4 ≤ candidatesLength (.list made) + s.pending.length
      dsimp only [candidatesLength] at h ⊢
      omega
    | succ k =>
      dsimp only at h ⊢
      obtain ⟨x, w', he⟩ := hind
      rw [he]
      unfold Enough
      simp only [List.length_append, List.length_cons, List.length_nil]
      omega
  | returned => unfold Enough; rw [hpc]; trivial
  | raised e => rw [hpc] at h; exact absurd h id

/-- **C36**, second half as far as it holds: if all evaluations succeed, there are four more
candidates than workers and operators do not fail on populations of three and more, the search
never ends with an exception. -/
theorem C36_never_aborts_partial (o : SearchOps σ ι) (maxN : Option Int) (hm : eaRefused maxN = false)
    (size n : Nat) (h3 : 3 ≤ size)
    (hcreate : ∀ pop w, 3 ≤ pop.length → ∃ x w', o.create pop w = (.ok x, w'))
    (helim : ∀ pop w, pop ≠ [] → ∃ x w', o.eliminate pop w = (.ok x, w') ∧ x ∈ pop)
    (hind : ∀ w, ∃ x w', o.individual w = (.ok x, w'))
    (l : List ι) (hl : n + 4 ≤ l.length) (out : List ι) (w : σ) (is : List (EaInput σ))
    (hq : EaAlong o maxN size (Successful n size) is (eaStart (.list l) out w)) (e : Exn) :
    (eaRun o maxN size is (eaStart (.list l) out w)).pc ≠ .raised e := by
  intro he
  have h := eaRun_induct (P := Enough n size)
    (fun s i h hq => enough_step hm h3 s (fun _ => hcreate _ _) (fun _ => helim _ _) (hind _) i h hq) is
    (eaStart (.list l) out w) hl hq
  unfold Enough at h
  rw [he] at h
  exact h

/-- Operators as assumed above: offspring copies the first parent. -/
def Ex.ops : SearchOps Unit Nat where
  create pop := if pop.length < 3 then raise .valueError else pure (pop.headD 0)
  eliminate pop := match pop with | [] => raise .indexError | x :: _ => pure x
  individual := pure 7

example : (∀ pop w, 3 ≤ pop.length → ∃ x w', Ex.ops.create pop w = (.ok x, w')) ∧
    (∀ pop w, pop ≠ [] → ∃ x w', Ex.ops.eliminate pop w = (.ok x, w') ∧ x ∈ pop) ∧
    (∀ w, ∃ x w', Ex.ops.individual w = (.ok x, w')) := by
  refine ⟨fun pop w h => ⟨pop.headD 0, w, ?_⟩, fun pop w h => ?_, fun w => ⟨_, _, rfl⟩⟩
  · simp only [Ex.ops]
    rw [if_neg (by omega)]
    rfl
  · cases pop with
    | nil => exact absurd rfl h
    | cons x xs => exact ⟨x, w, rfl, by simp⟩

/-- Five candidates, one worker, all evaluations succeed: after six evaluations four offspring have
been made. -/
def Ex.eaInputs : Nat → EaInput Unit := fun j =>
  ⟨.completes 0 (.result true (.fin 1)) (), if j ≤ 12 then 3 else if j ≤ 16 then 2 else 1, false⟩

theorem successful_of_coop {o : SearchOps σ ι} {maxN : Option Int} {size n : Nat} :
    ∀ (is : List (EaInput σ)) (s : Ea σ ι), coopB o maxN size n is s = true →
      (∀ i ∈ is, (∃ k score w, i.wait = .completes k (.result true score) w) ∧ i.restart = false) →
      EaAlong o maxN size (Successful n size) is s := by
  intro is
  induction is with
  | nil => intro s _ _; trivial
  | cons i is ih =>
    intro s h hi
    have hc := coopB_sound (i :: is) s h
    unfold coopB at h
    rw [Bool.and_eq_true] at h
    have := hi i (List.mem_cons_self ..)
    refine ⟨⟨fun _ => this.1, hc.1.2, fun _ hr => ?_⟩, ih _ h.2 fun j hj => hi j (List.mem_cons_of_mem _ hj)⟩
    rw [this.2] at hr
    cases hr

example : EaAlong Ex.ops none 10 (Successful 1 10) ((List.range 38).map Ex.eaInputs)
      (eaStart (.list [1, 2, 3, 4, 5]) [] ()) ∧
    (eaRun Ex.ops none 10 ((List.range 38).map Ex.eaInputs)
      (eaStart (.list [1, 2, 3, 4, 5]) [] ())).population = [1, 2, 3, 4, 5, 1] := by
  refine ⟨successful_of_coop _ _ (by decide +kernel) ?_, by decide +kernel⟩
  intro i hi
  obtain ⟨j, _, rfl⟩ := List.mem_map.1 hi
  exact ⟨⟨_, _, _, rfl⟩, rfl⟩

/-! ## C37 -/

/-- **C37** for evolution: once the candidates of a second fit are submitted, the jobs start with
the individuals of the previous final population. -/
def C37_evolution_claim : Prop :=
  ∀ (σ ι : Type) [DecidableEq ι] (o : SearchOps σ ι) (maxN : Option Int) (size : Nat)
    (pop fresh : List ι) (w : σ) (is : List (EaInput σ)), pop ≠ [] →
    let s := eaRun o maxN size is (eaStart (startCandidates none pop fresh) pop w)
    s.pc = .loop → pop <+: s.submitted

/-- **C37 is false** of evolution: the list of candidates is the list that is cleared, ... -/
theorem C37_false : ¬ C37_evolution_claim := by
  intro h
  have := h Unit Nat Ex.ops none 10 [1, 2] [] () (List.replicate 3 ⟨.raises .timeout, 0, false⟩)
    (by simp) rfl
  have hs : (eaRun Ex.ops none 10 (List.replicate 3 ⟨.raises .timeout, 0, false⟩)
    (eaStart (startCandidates none [1, 2] []) [1, 2] ())).submitted = [] := rfl
  rw [hs] at this
  simp at this

/-- ... and a second fit without `warm_start` always fails with a `RuntimeError`: nothing is
submitted, and the first `wait_next` finds nothing to wait for. -/
theorem C37_second_fit_fails (o : SearchOps σ ι) (maxN : Option Int) (hm : eaRefused maxN = false)
    (size : Nat) (pop fresh : List ι) (hp : pop ≠ []) (w : σ) (i₁ i₂ i₃ i₄ : EaInput σ)
    (hw : ∃ k c w', i₄.wait = .completes k c w') :
    (eaRun o maxN size [i₁, i₂, i₃, i₄] (eaStart (startCandidates none pop fresh) pop w)).pc =
      .raised .runtimeError := by
  have hc : startCandidates none pop fresh = .sameAsOutput := by
    unfold startCandidates
    rw [if_pos (List.length_pos_iff.2 hp)]
  have hmore : eaMore maxN 0 = true := by
    cases maxN with
    | none => rfl
    | some n =>
      simp [eaRefused] at hm
      simpa [eaMore] using hm
  obtain ⟨k, c, w', hw⟩ := hw
  rw [hc]
  simp only [eaRun, eaStep, eaStart, hm, hmore, hw, takePending, if_true, List.length_nil,
    Bool.false_eq_true, if_false]
  rfl

/-! ## C38 -/

/-- The individuals of the returned evaluations. -/
def Spec.reported : List (ι × Completion) → List ι
  | [] => []
  | (x, .result _ _) :: h => x :: reported h
  | (_, .failed) :: h => reported h

omit [DecidableEq ι] in
theorem reported_append (a b : List (ι × Completion)) : reported (a ++ b) = reported a ++ reported b := by
  induction a with
  | nil => rfl
  | cons p a ih =>
    obtain ⟨x, c⟩ := p
    cases c <;> simp [reported, ih]

/-- The value of `maxN` that stops the search now. -/
def Spec.Reached (maxN : Option Int) (k : Nat) : Prop := ∃ n, maxN = some n ∧ n ≤ k

/-- Invariant of random search. -/
structure RsOK (maxN : Option Int) (out cands : List ι) (s : Rs σ ι) : Prop where
  output : match s.pc with
    | .got x (.result _ _) => s.output ++ [x] = out ++ reported s.history
    | _ => s.output = out ++ reported s.history
  pending : match s.pc with
    | .submit rest => s.pending.length + rest.length = cands.length ∧ s.submitted ++ rest = cands
    | .got _ _ => s.pending.length + 1 = cands.length
    | .next => s.pending.length + 1 = cands.length
    | .raised _ => True
    | _ => s.pending.length = cands.length
  first : s.submitted <+: cands ∨ cands <+: s.submitted
  started : (∃ rest, s.pc = .submit rest) ∨ cands <+: s.submitted
  bound : ∀ n, maxN = some n → (s.output.length : Int) ≤ max n out.length
  room : ∀ x c, s.pc = .got x c → ∀ n, maxN = some n → (s.output.length : Int) < n
  stop : s.pc = .returned → Reached maxN s.output.length
  empty : ∀ rest, s.pc = .submit rest → s.output = out

omit [DecidableEq ι] in
theorem rsOK_step (o : SearchOps σ ι) (maxN : Option Int) (out cands : List ι) (s : Rs σ ι)
    (i : Wait σ) (h : RsOK maxN out cands s) : RsOK maxN out cands (rsStep o maxN i s) := by
  obtain ⟨h1, h2, h3, h3', h4, h5, h6, h7⟩ := h
  have fail : ∀ (e : Exn) (w : σ), s.output = out ++ reported s.history → (cands <+: s.submitted) →
      RsOK maxN out cands { s with pc := .raised e, world := w } := fun e w ho hs =>
    ⟨ho, trivial, h3, Or.inr hs, h4, fun _ _ hx => (by cases hx), fun hx => (by cases hx),
      fun _ hx => (by cases hx)⟩
  unfold rsStep
  cases hpc : s.pc with
  | submit rest =>
    rw [hpc] at h1 h2
    dsimp only at h1 h2
    have h7 := h7 rest hpc
    cases rest with
    | nil =>
      simp only [List.append_nil, List.length_nil, Nat.add_zero] at h2
      exact ⟨h1, h2.1, h3, Or.inr (by dsimp only; rw [h2.2]; exact List.prefix_rfl), h4, fun _ _ hx => (by cases hx),
        fun hx => (by cases hx), fun _ hx => (by cases hx)⟩
    | cons x xs =>
      simp only [List.length_cons] at h2
      refine ⟨h1, ⟨?_, ?_⟩, Or.inl ?_, Or.inl ⟨xs, rfl⟩, h4, fun _ _ hx => (by cases hx),
        fun hx => (by cases hx), fun _ _ => h7⟩
      · simp only [List.length_append, List.length_cons, List.length_nil]; omega
      · simp only [List.append_assoc, List.cons_append, List.nil_append]; exact h2.2
      · refine ⟨xs, ?_⟩
        simp only [List.append_assoc, List.cons_append, List.nil_append]; exact h2.2
  | loop =>
    rw [hpc] at h1 h2
    dsimp only at h1 h2
    have hs : cands <+: s.submitted := by
      rcases h3' with ⟨r, hr⟩ | h
      · rw [hpc] at hr; cases hr
      · exact h
    dsimp only
    split
    · rename_i hmore
      cases i with
      | raises e => exact fail _ _ h1 hs
      | completes k c w =>
        dsimp only
        cases ht : takePending s.pending k with
        | none => exact fail _ _ h1 hs
        | some p =>
          obtain ⟨x, rest⟩ := p
          have hlen := (takePending_some ht).2.1
          refine ⟨?_, ?_, h3, Or.inr hs, h4, ?_, fun hx => (by cases hx), fun _ hx => (by cases hx)⟩
          · cases c with
            | failed => dsimp only; rw [reported_append]; simpa [reported] using h1
            | result b sc => dsimp only; rw [reported_append, h1]; simp [reported]
          · dsimp only; omega
          · intro y c' _ n hn
            subst hn
            simpa [rsMore] using hmore
    · rename_i hmore
      refine ⟨h1, h2, h3, Or.inr hs, h4, fun _ _ hx => (by cases hx), fun _ => ?_, fun _ hx => (by cases hx)⟩
      cases maxN with
      | none => simp [rsMore] at hmore
      | some n =>
        refine ⟨n, rfl, ?_⟩
        simpa [rsMore] using hmore
  | got x c =>
    rw [hpc] at h1 h2
    have hroom := h5 x c hpc
    have hs : cands <+: s.submitted := by
      rcases h3' with ⟨r, hr⟩ | h
      · rw [hpc] at hr; cases hr
      · exact h
    cases c with
    | failed =>
      exact ⟨h1, h2, h3, Or.inr hs, h4, fun _ _ hx => (by cases hx), fun hx => (by cases hx),
        fun _ hx => (by cases hx)⟩
    | result b sc =>
      refine ⟨h1, h2, h3, Or.inr hs, fun n hn => ?_, fun _ _ hx => (by cases hx), fun hx => (by cases hx),
        fun _ hx => (by cases hx)⟩
      have := hroom n hn
      dsimp only
      rw [List.length_append, List.length_singleton]
      push_cast
      omega
  | next =>
    rw [hpc] at h1 h2
    dsimp only at h1 h2 ⊢
    have hs : cands <+: s.submitted := by
      rcases h3' with ⟨r, hr⟩ | h
      · rw [hpc] at hr; cases hr
      · exact h
    cases o.individual s.world with
    | mk r w =>
      cases r with
      | error e => exact fail _ _ h1 hs
      | ok x =>
        have hs' : cands <+: s.submitted ++ [x] := hs.trans (List.prefix_append _ _)
        refine ⟨h1, ?_, Or.inr hs', Or.inr hs', h4, fun _ _ hx => (by cases hx), fun hx => (by cases hx),
          fun _ hx => (by cases hx)⟩
        dsimp only
        rw [List.length_append, List.length_singleton]
        exact h2
  | returned => exact ⟨h1, h2, h3, h3', h4, h5, h6, h7⟩
  | raised e => exact ⟨h1, h2, h3, h3', h4, h5, h6, h7⟩

omit [DecidableEq ι] in
theorem rsOK_run (o : SearchOps σ ι) (maxN : Option Int) (out cands : List ι) :
    ∀ (is : List (Wait σ)) (s : Rs σ ι), RsOK maxN out cands s →
      RsOK maxN out cands (rsRun o maxN is s) := by
  intro is
  induction is with
  | nil => intro s h; exact h
  | cons i is ih => intro s h; exact ih _ (rsOK_step o maxN out cands s i h)

omit [DecidableEq ι] in
theorem rsOK_start (maxN : Option Int) (out l : List ι) (w : σ) :
    RsOK maxN out l (rsStart (.list l) out w) :=
  ⟨by simp [rsStart, reported], ⟨by simp [rsStart], by simp [rsStart]⟩, Or.inl (List.nil_prefix),
    Or.inl ⟨_, rfl⟩, fun n _ => Int.le_max_right _ _, fun _ _ hx => (by cases hx), fun hx => (by cases hx),
    fun _ _ => rfl⟩

/-- **C38.** Whenever random search waits for an evaluation or returns, it has reported exactly the
individuals of the returned evaluations, in order, after what was there before, and as many
jobs are pending as there were candidates. -/
theorem C38_reports_all (o : SearchOps σ ι) (maxN : Option Int) (l out : List ι) (w : σ)
    (is : List (Wait σ)) (s : Rs σ ι) (hs : s = rsRun o maxN is (rsStart (.list l) out w))
    (hpc : s.pc = .loop ∨ s.pc = .returned) :
    s.output = out ++ reported s.history ∧ s.pending.length = l.length := by
  have h := rsOK_run o maxN out l is _ (rsOK_start maxN out l w)
  rw [← hs] at h
  have h1 := h.output
  have h2 := h.pending
  rcases hpc with hpc | hpc <;> rw [hpc] at h1 h2 <;> exact ⟨h1, h2⟩

/-- **C38.** Interrupted at any point, at most the evaluation returned last is not reported. -/
theorem C38_interrupted (o : SearchOps σ ι) (maxN : Option Int) (l out : List ι) (w : σ)
    (is : List (Wait σ)) (s : Rs σ ι) (hs : s = rsRun o maxN is (rsStart (.list l) out w)) :
    s.output = out ++ reported s.history ∨ ∃ x, s.output ++ [x] = out ++ reported s.history := by
  have h := (rsOK_run o maxN out l is _ (rsOK_start maxN out l w)).output
  rw [← hs] at h
  cases hpc : s.pc with
  | got x c =>
    rw [hpc] at h
    cases c with
    | failed => exact Or.inl h
    | result b sc => exact Or.inr ⟨x, h⟩
  | submit rest => rw [hpc] at h; exact Or.inl h
  | loop => rw [hpc] at h; exact Or.inl h
  | next => rw [hpc] at h; exact Or.inl h
  | returned => rw [hpc] at h; exact Or.inl h
  | raised e => rw [hpc] at h; exact Or.inl h

/-- **C38.** Random search with a budget returns only when the budget is reached, and never reports
more than the budget (or than was there before). -/
theorem C38_budget (o : SearchOps σ ι) (maxN : Option Int) (l out : List ι) (w : σ)
    (is : List (Wait σ)) (s : Rs σ ι) (hs : s = rsRun o maxN is (rsStart (.list l) out w)) :
    (s.pc = .returned → ∃ n, maxN = some n ∧ n ≤ s.output.length) ∧
    ∀ n, maxN = some n → (s.output.length : Int) ≤ max n out.length := by
  have h := rsOK_run o maxN out l is _ (rsOK_start maxN out l w)
  rw [← hs] at h
  exact ⟨h.stop, h.bound⟩

/-- **C38.** The candidates are submitted first. -/
theorem C38_candidates_first (o : SearchOps σ ι) (maxN : Option Int) (l out : List ι) (w : σ)
    (is : List (Wait σ)) (s : Rs σ ι) (hs : s = rsRun o maxN is (rsStart (.list l) out w)) :
    s.submitted <+: l ∨ l <+: s.submitted := by
  have h := rsOK_run o maxN out l is _ (rsOK_start maxN out l w)
  rw [← hs] at h
  exact h.first

/-- **C37** for random search, where it holds: a second fit submits the previous population first. -/
theorem C37_random_search_partial (o : SearchOps σ ι) (maxN : Option Int) (pop fresh : List ι)
    (hp : pop ≠ []) (w : σ) (is : List (Wait σ)) (s : Rs σ ι)
    (hs : s = rsRun o maxN is (rsStart (startCandidates none pop fresh) pop w)) :
    s.submitted <+: pop ∨ pop <+: s.submitted := by
  have hc : startCandidates none pop fresh = .sameAsOutput := by
    unfold startCandidates
    rw [if_pos (List.length_pos_iff.2 hp)]
  rw [hc] at hs
  exact C38_candidates_first o maxN pop pop w is s hs

/-- Two candidates, the first evaluation fails, budget of two. -/
example : (fun s : Rs Unit Nat => (s.output, s.pending, s.submitted))
      (rsRun Ex.ops (some 2) ((List.range 13).map fun j =>
        if j ≤ 4 then .completes 0 .failed () else .completes 0 (.result true (.fin 1)) ())
      (rsStart (.list [1, 2]) [] ())) = ([2, 7], [7, 7], [1, 2, 7, 7, 7]) := by decide +kernel

end
end Gama
