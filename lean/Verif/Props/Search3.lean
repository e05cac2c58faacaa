import Verif.Props.Search2
import Verif.Props.Asha

/-!
# More about searches: evaluations under way, restarts, start candidates (C105 – C108)
-/

namespace Gama
open PyM Spec

section
variable {σ ι : Type} [DecidableEq ι]

/-! ### C105: eight evaluations are under way -/

/-- The number of evaluations that should be under way. -/
def ashaBusy : AshaPc ι → Nat → Prop
  | .starting k, n => n + k = 8
  | .loop, n => n = 8
  | .got _ _ _, n => n = 7
  | .next, n => n = 7
  | _, _ => True

theorem startJob_pending (o : SearchOps σ ι) (c : AshaConfig) (k : Nat) (s s' : Asha σ ι)
    (h : startJob o c k s = (.ok (), s')) :
    s'.pending.length = s.pending.length + 1 ∧ s'.submitted.length = s.submitted.length + 1 ∧
      s'.history = s.history := by
  unfold startJob at h
  simp only [bind, PyM.bind] at h
  have hg : ∀ r t, getJob o c k s = (r, t) → t.pending = s.pending ∧ t.submitted = s.submitted ∧
      t.history = s.history := by
    intro r t hr
    unfold getJob at hr
    cases hf : findPromotion c.rf k s.promoted s.rungs.tail with
    | some p =>
      obtain ⟨a, b⟩ := p
      rw [hf] at hr
      simp only [Prod.mk.injEq] at hr
      obtain ⟨_, rfl⟩ := hr
      exact ⟨rfl, rfl, rfl⟩
    | none =>
      rw [hf] at hr
      dsimp only at hr
      cases hl : s.candidates.getLast? with
      | some x =>
        rw [hl] at hr
        simp only [Prod.mk.injEq] at hr
        obtain ⟨_, rfl⟩ := hr
        exact ⟨rfl, rfl, rfl⟩
      | none =>
        rw [hl] at hr
        dsimp only at hr
        cases hi : o.individual s.world with
        | mk r' w =>
          rw [hi] at hr
          cases r' with
          | error e =>
            simp only [Prod.mk.injEq] at hr
            obtain ⟨_, rfl⟩ := hr
            exact ⟨rfl, rfl, rfl⟩
          | ok x =>
            simp only [Prod.mk.injEq] at hr
            obtain ⟨_, rfl⟩ := hr
            exact ⟨rfl, rfl, rfl⟩
  cases hj : getJob o c k s with
  | mk r t =>
    obtain ⟨h1, h2, h3⟩ := hg r t hj
    rw [hj] at h
    cases r with
    | error e => simp at h
    | ok p =>
      obtain ⟨x, rung⟩ := p
      dsimp only at h
      split at h
      · simp only [PyM.modify, Prod.mk.injEq, true_and] at h
        subst h
        simp [h1, h2, h3]
      · simp [PyM.raise] at h

theorem ashaBusy_handle (rungs : List (Nat × List (RungEntry ι))) (e : Exn) (n : Nat) :
    ashaBusy (ashaHandle rungs e) n := by
  rcases ashaHandle_ended rungs e with ⟨l, h⟩ | ⟨x, h⟩ <;> rw [h] <;> trivial

theorem ashaBusy_step (o : SearchOps σ ι) (c : AshaConfig) (i : AshaInput σ) (s : Asha σ ι)
    (h : ashaBusy s.pc s.pending.length) :
    ashaBusy (ashaStep o c i s).pc (ashaStep o c i s).pending.length := by
  unfold ashaStep
  cases hpc : s.pc with
  | starting k =>
    rw [hpc] at h
    cases k with
    | zero => dsimp only; simpa [ashaBusy] using h
    | succ k =>
      dsimp only
      cases hj : startJob o c i.pick s with
      | mk r s' =>
        cases r with
        | error e => exact ashaBusy_handle (ι := ι) _ _ _
        | ok u =>
          have hp := (startJob_pending o c i.pick s s' hj).1
          simp only [ashaBusy] at h ⊢
          omega
  | loop =>
    rw [hpc] at h
    dsimp only
    cases ashaMore c s with
    | error e => exact ashaBusy_handle (ι := ι) _ _ _
    | ok b =>
      cases b with
      | false =>
        dsimp only
        cases c.levels.head? with
        | none => trivial
        | some top =>
          dsimp only
          unfold ashaReport
          split <;> trivial
      | true =>
        dsimp only
        cases i.wait with
        | raises e => exact ashaBusy_handle (ι := ι) _ _ _
        | completes k r w =>
          dsimp only
          cases ht : takePending s.pending k with
          | none => dsimp only; exact ashaBusy_handle _ _ _
          | some p =>
            obtain ⟨⟨x, rung⟩, rest⟩ := p
            have := (takePending_some ht).2.1
            simp only [ashaBusy] at h ⊢
            omega
  | got x rung r =>
    rw [hpc] at h
    cases r with
    | failed => exact h
    | result b score =>
      dsimp only
      cases dget s.rungs rung with
      | none => dsimp only; exact ashaBusy_handle _ _ _
      | some l => exact h
  | next =>
    rw [hpc] at h
    dsimp only
    cases hj : startJob o c i.pick s with
    | mk r s' =>
      cases r with
      | error e => exact ashaBusy_handle (ι := ι) _ _ _
      | ok u =>
        have hp := (startJob_pending o c i.pick s s' hj).1
        simp only [ashaBusy] at h ⊢
        omega
  | returned l => trivial
  | raised e => trivial

/-- **C105.** Whenever successive halving waits for an evaluation, exactly eight are under way: each
evaluation that came back, failed or not, was replaced by a new one. -/
theorem C105_busy (o : SearchOps σ ι) (c : AshaConfig) (cands : List ι) (w : σ)
    (is : List (AshaInput σ)) (s : Asha σ ι) (hs : s = ashaRun o c is (ashaStart c cands w))
    (hpc : s.pc = .loop) :
    s.pending.length = 8 ∧ s.submitted.length = s.history.length + 8 := by
  have hb : ∀ (is : List (AshaInput σ)) (t : Asha σ ι), ashaBusy t.pc t.pending.length →
      ashaBusy (ashaRun o c is t).pc (ashaRun o c is t).pending.length := by
    intro is
    induction is with
    | nil => intro t h; exact h
    | cons i is ih => intro t h; exact ih _ (ashaBusy_step o c i t h)
  have h1 := hb is (ashaStart c cands w) (by simp [ashaStart, ashaBusy])
  rw [← hs, hpc] at h1
  have h2 := (ashaOK_run o c cands is _ (ashaOK_start c cands w)).core.jobs.length_eq
  rw [← hs] at h2
  simp only [ashaBusy] at h1
  simp only [List.length_append, List.length_map] at h2
  exact ⟨h1, by omega⟩

/-- After nine starting steps and a failed evaluation with its successor. -/
example : (ashaRun Ex.ops ⟨2, 0, 2, none⟩ (List.replicate 12 ⟨.completes 3 .failed (), 0⟩)
      (ashaStart ⟨2, 0, 2, none⟩ [1, 2, 3] ())).history = [(7, 0, .failed)] ∧
    (match (ashaRun Ex.ops ⟨2, 0, 2, none⟩ (List.replicate 12 ⟨.completes 3 .failed (), 0⟩)
      (ashaStart ⟨2, 0, 2, none⟩ [1, 2, 3] ())).pc with | .loop => true | _ => false) = true := by
  decide +kernel

/-! ### C106: what was found is kept -/

/-- The individuals of the evaluations without error. -/
def Spec.succeeded : List (ι × Completion) → List ι
  | [] => []
  | (x, .result true _) :: h => x :: succeeded h
  | (_, .result false _) :: h => succeeded h
  | (_, .failed) :: h => succeeded h

omit [DecidableEq ι] in
theorem succeeded_append (a b : List (ι × Completion)) :
    succeeded (a ++ b) = succeeded a ++ succeeded b := by
  induction a with
  | nil => rfl
  | cons p a ih =>
    obtain ⟨x, c⟩ := p
    cases c with
    | failed => simpa [succeeded] using ih
    | result b s => cases b <;> simpa [succeeded] using ih

/-- The population against the individuals found since a restart. -/
structure KeptAt (size : Nat) (found pop : List ι) : Prop where
  count : pop.length = min size found.length
  sub : pop.Subperm found

/-- The invariant; `N` evaluations came back before the restart. -/
def KeptSince (size N : Nat) (s : Ea σ ι) : Prop :=
  N ≤ s.history.length ∧
  match s.pc with
  | .clear _ => N = s.history.length
  | .submit _ => KeptAt size (succeeded (s.history.drop N)) s.population
  | .loop => KeptAt size (succeeded (s.history.drop N)) s.population
  | .got x (.result true _) => ∃ found, succeeded (s.history.drop N) = found ++ [x] ∧
      KeptAt size found s.population
  | .got _ _ => KeptAt size (succeeded (s.history.drop N)) s.population
  | .full => s.population.length = min size ((succeeded (s.history.drop N)).length - 1) + 1 ∧
      0 < (succeeded (s.history.drop N)).length ∧
      s.population.Subperm (succeeded (s.history.drop N))
  | .remove _ => s.population.length = min size ((succeeded (s.history.drop N)).length - 1) + 1 ∧
      0 < (succeeded (s.history.drop N)).length ∧ size < s.population.length ∧
      s.population.Subperm (succeeded (s.history.drop N))
  | .fill => KeptAt size (succeeded (s.history.drop N)) s.population
  | .restart => KeptAt size (succeeded (s.history.drop N)) s.population
  | .returned => KeptAt size (succeeded (s.history.drop N)) s.population
  | .raised _ => True
  | _ => False

theorem kept_step (o : SearchOps σ ι) (maxN : Option Int) (size N : Nat) (s : Ea σ ι) (i : EaInput σ)
    (h : KeptSince size N s) (hr : i.restart = false) : KeptSince size N (eaStep o maxN size i s) := by
  obtain ⟨hN, h⟩ := h
  unfold eaStep
  cases hpc : s.pc with
  | start c => rw [hpc] at h; exact h.elim
  | clear c =>
    rw [hpc] at h
    dsimp only at h
    cases c <;> exact ⟨hN, by rw [h]; simp [succeeded], by rw [h]; simp [succeeded]⟩
  | submit rest => rw [hpc] at h; cases rest <;> exact ⟨hN, h⟩
  | loop =>
    rw [hpc] at h
    dsimp only at h ⊢
    split
    · cases i.wait with
      | raises e => exact ⟨hN, trivial⟩
      | completes k c w =>
        dsimp only
        cases ht : takePending s.pending k with
        | none => exact ⟨hN, trivial⟩
        | some p =>
          obtain ⟨x, rest⟩ := p
          have hd : (s.history ++ [(x, c)]).drop N = s.history.drop N ++ [(x, c)] :=
            List.drop_append_of_le_length hN
          refine ⟨by simp only [List.length_append]; omega, ?_⟩
          cases c with
          | failed => dsimp only; rw [hd, succeeded_append]; simpa [succeeded] using h
          | result b score =>
            cases b with
            | false => dsimp only; rw [hd, succeeded_append]; simpa [succeeded] using h
            | true => exact ⟨succeeded (s.history.drop N), by dsimp only; rw [hd, succeeded_append]; rfl, h⟩
    · exact ⟨hN, h⟩
  | got x c =>
    rw [hpc] at h
    cases c with
    | failed => exact ⟨hN, h⟩
    | result b score =>
      cases b with
      | false => exact ⟨hN, h⟩
      | true =>
        obtain ⟨found, hf, hk⟩ := h
        refine ⟨hN, ?_, ?_, ?_⟩
        · dsimp only; rw [hf]; simp [hk.count]
        · dsimp only; rw [hf]; simp
        · dsimp only; rw [hf]; exact (List.subperm_append_right _).2 hk.sub
  | full =>
    rw [hpc] at h
    obtain ⟨h1, h2, h3⟩ := h
    dsimp only
    split
    · rename_i hlt
      cases o.eliminate s.population s.world with
      | mk r w =>
        cases r with
        | error e => exact ⟨hN, trivial⟩
        | ok x => exact ⟨hN, h1, h2, hlt, h3⟩
    · exact ⟨hN, by dsimp only; omega, h3⟩
  | remove x =>
    rw [hpc] at h
    obtain ⟨h1, h2, h3, h4⟩ := h
    dsimp only
    split
    · rename_i hm
      refine ⟨hN, ?_, ?_⟩
      · dsimp only; rw [List.length_erase_of_mem hm]; omega
      · exact (List.erase_subperm _ _).trans h4
    · exact ⟨hN, trivial⟩
  | fill =>
    rw [hpc] at h
    dsimp only
    split
    · cases o.create s.population s.world with
      | mk r w =>
        cases r with
        | error e => exact ⟨hN, trivial⟩
        | ok x => exact ⟨hN, h⟩
    · exact ⟨hN, h⟩
  | restart =>
    rw [hpc] at h
    dsimp only
    rw [hr]
    exact ⟨hN, h⟩
  | renew k made => rw [hpc] at h; exact h.elim
  | returned => exact ⟨hN, h⟩
  | raised e => exact ⟨hN, by rw [hpc]; trivial⟩

/-- **C106, the full claim:** when the evolutionary search has used up its evaluations and at least
one of them succeeded, it reports something. -/
def C106_claim : Prop :=
  ∀ (o : SearchOps Unit Nat) (n : Int) (size : Nat) (l : List Nat) (is : List (EaInput Unit))
    (s : Ea Unit Nat), 0 < size → s = eaRun o (some n) size is (eaStart (.list l) [] ()) →
    s.pc = .returned → succeeded s.history ≠ [] → s.population ≠ []

/-- **C106** for the evaluations since the last restart: in every state in which the search waits or
has returned, the population consists of individuals evaluated without error since then, each for
one evaluation, and there are as many as there were such evaluations, or the population is full. -/
theorem C106_partial (o : SearchOps σ ι) (maxN : Option Int) (size : Nat) (c : Candidates ι)
    (s₀ : Ea σ ι) (h0 : s₀.pc = .clear c) (is : List (EaInput σ)) (s : Ea σ ι)
    (hr : ∀ i ∈ is, i.restart = false)
    (hs : s = eaRun o maxN size is s₀) (hpc : s.pc = .loop ∨ s.pc = .returned) :
    s.population.length = min size (succeeded (s.history.drop s₀.history.length)).length ∧
      s.population.Subperm (succeeded (s.history.drop s₀.history.length)) := by
  have along : ∀ (is : List (EaInput σ)) (t : Ea σ ι), (∀ i ∈ is, i.restart = false) →
      EaAlong o maxN size (fun _ i => i.restart = false) is t := by
    intro is
    induction is with
    | nil => intro t _; trivial
    | cons i is ih => intro t h; exact ⟨h i (by simp), ih _ fun j hj => h j (by simp [hj])⟩
  have h := eaRun_induct (P := KeptSince size s₀.history.length)
    (fun s i h hr => kept_step o maxN size _ s i h hr) is s₀
    ⟨Nat.le_refl _, by rw [h0]⟩ (along is s₀ hr)
  rw [← hs] at h
  rcases hpc with hpc | hpc <;> (have h2 := h.2; rw [hpc] at h2; exact ⟨h2.count, h2.sub⟩)

/-- **C106** without restarts: the full claim. -/
theorem C106_no_restart_partial (o : SearchOps σ ι) (n : Int) (size : Nat) (c : Candidates ι)
    (out : List ι) (w : σ) (is : List (EaInput σ)) (s : Ea σ ι) (hz : 0 < size)
    (hr : ∀ i ∈ is, i.restart = false)
    (hs : s = eaRun o (some n) size is (eaStart c out w)) (hpc : s.pc = .returned)
    (hg : succeeded s.history ≠ []) : s.population ≠ [] := by
  cases is with
  | nil => rw [hs] at hpc; cases hpc
  | cons i is =>
    have h1 : eaStep o (some n) size i (eaStart c out w) = { eaStart c out w with pc := .clear c } ∨
        ∃ e, eaStep o (some n) size i (eaStart c out w) = { eaStart c out w with pc := .raised e } := by
      show (if eaRefused (some n) then { eaStart c out w with pc := .raised .valueError }
        else { eaStart c out w with pc := .clear c }) = _ ∨ ∃ e, (if eaRefused (some n) then
          { eaStart c out w with pc := .raised .valueError }
        else { eaStart c out w with pc := .clear c }) = { eaStart c out w with pc := .raised e }
      split
      · exact Or.inr ⟨_, rfl⟩
      · exact Or.inl rfl
    have hrun : s = eaRun o (some n) size is (eaStep o (some n) size i (eaStart c out w)) := hs
    rcases h1 with h1 | ⟨e, h1⟩
    · rw [h1] at hrun
      have := (C106_partial o (some n) size c _ rfl is s (fun j hj => hr j (by simp [hj])) hrun
        (Or.inr hpc)).1
      have h0 : ({ eaStart c out w with pc := .clear c } : Ea σ ι).history.length = 0 := rfl
      rw [h0, List.drop_zero] at this
      have hpos : 0 < (succeeded s.history).length := List.length_pos_iff.2 hg
      intro he
      rw [he] at this
      simp only [List.length_nil] at this
      omega
    · exfalso
      rw [h1] at hrun
      have hstay : ∀ (is : List (EaInput σ)) (t : Ea σ ι), t.pc = .raised e →
          (eaRun o (some n) size is t).pc = .raised e := by
        intro is
        induction is with
        | nil => intro t h; exact h
        | cons j is ih =>
          intro t h
          refine ih _ ?_
          unfold eaStep
          rw [h]
          exact h
      rw [hrun, hstay is _ rfl] at hpc
      cases hpc

/-- The first candidate succeeds and the restart criterion is met at the last evaluation. -/
def Ex.lastRestart : Ea Unit Nat :=
  eaRun Ex.ops (some 1) 1 (List.replicate 15 ⟨.completes 0 (.result true (.fin 1)) (), 2, true⟩)
    (eaStart (.list [4]) [] ())

/-- **C106** fails with restarts: the population is cleared after the last evaluation. -/
theorem C106_false : ¬ C106_claim := by
  intro h
  refine h Ex.ops 1 1 [4] (List.replicate 15 ⟨.completes 0 (.result true (.fin 1)) (), 2, true⟩)
    Ex.lastRestart (by omega) rfl ?_ ?_ ?_
  · have : (match Ex.lastRestart.pc with | .returned => true | _ => false) = true := by decide +kernel
    revert this
    cases Ex.lastRestart.pc <;> simp
  · decide +kernel
  · decide +kernel

/-- Three candidates, two of which succeed, in a population of five. -/
example : (eaRun Ex.ops (some 3) 5 ((List.replicate 6 ⟨.completes 0 (.result true (.fin 1)) (), 2, false⟩) ++
      (List.replicate 5 ⟨.completes 0 (.result true (.fin 1)) (), 2, false⟩) ++
      (List.replicate 4 ⟨.completes 0 (.result true (.fin 1)) (), 2, false⟩) ++
      (List.replicate 5 ⟨.completes 0 .failed (), 2, false⟩))
      (eaStart (.list [4, 5, 6]) [] ())).population = [4, 5] := by decide +kernel

/-! ### C107: a restart starts afresh -/

/-- What is in the search was under way at the restart (`P`), or submitted after it. -/
def FreshSince (P : List ι) (N : Nat) (s : Ea σ ι) : Prop :=
  N ≤ s.submitted.length ∧
  (∀ x ∈ s.pending, x ∈ P ∨ x ∈ s.submitted.drop N) ∧
  ((∃ c, s.pc = .clear c) ∨ ∀ x ∈ s.population, x ∈ P ∨ x ∈ s.submitted.drop N) ∧
  ∀ x c, s.pc = .got x c → x ∈ P ∨ x ∈ s.submitted.drop N

theorem fresh_step (o : SearchOps σ ι) (maxN : Option Int) (size : Nat) (P : List ι) (N : Nat)
    (s : Ea σ ι) (i : EaInput σ) (h : FreshSince P N s) : FreshSince P N (eaStep o maxN size i s) := by
  obtain ⟨h1, h2, h3, h4⟩ := h
  have more : ∀ (x : ι), N ≤ (s.submitted ++ [x]).length ∧
      (∀ y, y ∈ P ∨ y ∈ s.submitted.drop N → y ∈ P ∨ y ∈ (s.submitted ++ [x]).drop N) ∧
      x ∈ (s.submitted ++ [x]).drop N := by
    intro x
    rw [List.drop_append_of_le_length h1]
    exact ⟨by simp only [List.length_append]; omega, fun y hy => by
      rcases hy with hy | hy
      · exact Or.inl hy
      · exact Or.inr (List.mem_append_left _ hy), by simp⟩
  have send : ∀ (x : ι) (pc : EaPc ι) (w : σ) (ev : Nat), (¬ ∃ c, s.pc = .clear c) →
      (∀ y c, pc ≠ .got y c) →
      FreshSince P N { s with
        pc := pc, world := w, evaluated := ev, pending := s.pending ++ [x], submitted := s.submitted ++ [x] } := by
    intro x pc w ev hc hg
    obtain ⟨m1, m2, m3⟩ := more x
    refine ⟨m1, fun y hy => ?_, Or.inr fun y hy => m2 y ((h3.resolve_left hc) y hy),
      fun y c hy => absurd hy (hg y c)⟩
    rcases List.mem_append.1 hy with hy | hy
    · exact m2 y (h2 y hy)
    · rw [List.mem_singleton.1 hy]; exact Or.inr m3
  have keep : ∀ (pc : EaPc ι) (w : σ) (ev : Nat), (¬ ∃ c, s.pc = .clear c) → (∀ y c, pc ≠ .got y c) →
      FreshSince P N { s with pc := pc, world := w, evaluated := ev } :=
    fun pc w ev hc hg => ⟨h1, h2, Or.inr (h3.resolve_left hc), fun y c hy => absurd hy (hg y c)⟩
  unfold eaStep
  cases hpc : s.pc with
  | start c =>
    have hc : ¬ ∃ c, s.pc = .clear c := by rw [hpc]; rintro ⟨_, h⟩; cases h
    dsimp only
    split
    · exact keep _ _ _ hc (by simp)
    · exact keep _ _ _ hc (by simp)
  | clear c =>
    cases c <;> exact ⟨h1, h2, Or.inr (fun x hx => by cases hx), fun y c hy => by cases hy⟩
  | submit rest =>
    have hc : ¬ ∃ c, s.pc = .clear c := by rw [hpc]; rintro ⟨_, h⟩; cases h
    cases rest with
    | nil => exact keep _ _ _ hc (by simp)
    | cons x xs => exact send x _ _ _ hc (by simp)
  | loop =>
    have hc : ¬ ∃ c, s.pc = .clear c := by rw [hpc]; rintro ⟨_, h⟩; cases h
    dsimp only
    split
    · cases i.wait with
      | raises e => exact keep _ _ _ hc (by simp)
      | completes k c w =>
        dsimp only
        cases ht : takePending s.pending k with
        | none => exact keep _ _ _ hc (by simp)
        | some p =>
          obtain ⟨x, rest⟩ := p
          obtain ⟨hx, _, hp⟩ := takePending_some ht
          refine ⟨h1, fun y hy => h2 y (hp.symm.subset (List.mem_cons_of_mem _ hy)),
            Or.inr (h3.resolve_left hc), fun y c' hy => ?_⟩
          simp only [EaPc.got.injEq] at hy
          rw [← hy.1]
          exact h2 x hx
    · exact keep _ _ _ hc (by simp)
  | got x c =>
    have hc : ¬ ∃ c, s.pc = .clear c := by rw [hpc]; rintro ⟨_, h⟩; cases h
    cases c with
    | failed => exact keep _ _ _ hc (by simp)
    | result b score =>
      cases b with
      | false => exact keep _ _ _ hc (by simp)
      | true =>
        refine ⟨h1, h2, Or.inr fun y hy => ?_, fun y c' hy => by cases hy⟩
        rcases List.mem_append.1 hy with hy | hy
        · exact (h3.resolve_left hc) y hy
        · rw [List.mem_singleton.1 hy]; exact h4 x _ hpc
  | full =>
    have hc : ¬ ∃ c, s.pc = .clear c := by rw [hpc]; rintro ⟨_, h⟩; cases h
    dsimp only
    split
    · cases o.eliminate s.population s.world with
      | mk r w => cases r <;> exact keep _ _ _ hc (by simp)
    · exact keep _ _ _ hc (by simp)
  | remove x =>
    have hc : ¬ ∃ c, s.pc = .clear c := by rw [hpc]; rintro ⟨_, h⟩; cases h
    dsimp only
    split
    · exact ⟨h1, h2, Or.inr fun y hy => (h3.resolve_left hc) y (List.mem_of_mem_erase hy),
        fun y c' hy => by cases hy⟩
    · exact keep _ _ _ hc (by simp)
  | fill =>
    have hc : ¬ ∃ c, s.pc = .clear c := by rw [hpc]; rintro ⟨_, h⟩; cases h
    dsimp only
    split
    · cases o.create s.population s.world with
      | mk r w =>
        cases r with
        | error e => exact keep _ _ _ hc (by simp)
        | ok x => exact send x _ _ _ hc (by simp)
    · exact keep _ _ _ hc (by simp)
  | restart =>
    have hc : ¬ ∃ c, s.pc = .clear c := by rw [hpc]; rintro ⟨_, h⟩; cases h
    dsimp only
    split <;> exact keep _ _ _ hc (by simp)
  | renew k made =>
    have hc : ¬ ∃ c, s.pc = .clear c := by rw [hpc]; rintro ⟨_, h⟩; cases h
    cases k with
    | zero => exact keep _ _ _ hc (by simp)
    | succ k =>
      dsimp only
      cases o.individual s.world with
      | mk r w => cases r <;> exact keep _ _ _ hc (by simp)
  | returned => exact ⟨h1, h2, h3, fun x c hx => by rw [hpc] at hx; cases hx⟩
  | raised e => exact ⟨h1, h2, h3, fun x c hx => by rw [hpc] at hx; cases hx⟩

/-- **C107, the full claim:** after a restart (state `s₀` about to clear the population) the
population has only individuals submitted since. -/
def C107_claim : Prop :=
  ∀ (o : SearchOps Unit Nat) (maxN : Option Int) (size : Nat) (l made : List Nat)
    (before after : List (EaInput Unit)) (s₀ s : Ea Unit Nat),
    s₀ = eaRun o maxN size before (eaStart (.list l) [] ()) → s₀.pc = .clear (.list made) →
    s = eaRun o maxN size after s₀ → s.pc = .loop →
    ∀ x ∈ s.population, x ∈ s.submitted.drop s₀.submitted.length

/-- **C107** as far as it holds: everything in the population was submitted after the restart or was
under way at that time; with nothing under way the full claim holds. -/
theorem C107_partial (o : SearchOps σ ι) (maxN : Option Int) (size : Nat) (c : Candidates ι)
    (s₀ : Ea σ ι) (h0 : s₀.pc = .clear c) (is : List (EaInput σ)) (s : Ea σ ι)
    (hs : s = eaRun o maxN size is s₀) (hpc : ∀ c', s.pc ≠ .clear c') :
    ∀ x ∈ s.population, x ∈ s₀.pending ∨ x ∈ s.submitted.drop s₀.submitted.length := by
  have h := eaRun_induct (C := fun _ _ => True) (P := FreshSince s₀.pending s₀.submitted.length)
    (fun s i h _ => fresh_step o maxN size _ _ s i h) is s₀
    ⟨Nat.le_refl _, fun x hx => Or.inl hx, Or.inl ⟨c, h0⟩, fun x c' hx => by rw [h0] at hx; cases hx⟩
    (eaAlong_true is s₀)
  rw [← hs] at h
  exact h.2.2.1.resolve_left fun ⟨c', hc'⟩ => hpc c' hc'

/-- Candidates 4 and 5 are submitted, 4 comes back and the search restarts while 5 is under way. -/
def Ex.restarting : List (EaInput Unit) :=
  List.replicate 12 ⟨.completes 0 (.result true (.fin 1)) (), 2, true⟩

/-- After the restart 5 comes back. -/
def Ex.restarted : List (EaInput Unit) :=
  List.replicate 8 ⟨.completes 0 (.result true (.fin 1)) (), 2, false⟩

theorem Ex.restarting_pc : (eaRun Ex.ops none 1 Ex.restarting (eaStart (.list [4, 5]) [] ())).pc =
    .clear (.list [7]) := by
  have : (match (eaRun Ex.ops none 1 Ex.restarting (eaStart (.list [4, 5]) [] ())).pc with
    | .clear (.list [7]) => true | _ => false) = true := by decide +kernel
  revert this
  split
  · intro _; assumption
  · intro h; cases h

theorem Ex.restarted_pc : (eaRun Ex.ops none 1 Ex.restarted
    (eaRun Ex.ops none 1 Ex.restarting (eaStart (.list [4, 5]) [] ()))).pc = .loop := by
  have : (match (eaRun Ex.ops none 1 Ex.restarted
    (eaRun Ex.ops none 1 Ex.restarting (eaStart (.list [4, 5]) [] ()))).pc with
    | .loop => true | _ => false) = true := by decide +kernel
  revert this
  split
  · intro _; assumption
  · intro h; cases h

/-- **C107** fails: an evaluation under way at the restart enters the new population. -/
theorem C107_false : ¬ C107_claim := by
  intro h
  have := h Ex.ops none 1 [4, 5] [7] Ex.restarting Ex.restarted _ _ rfl Ex.restarting_pc rfl
    Ex.restarted_pc
  revert this
  decide +kernel

/-- Submitting the rest of the candidates. -/
theorem eaRun_submits (o : SearchOps σ ι) (maxN : Option Int) (size : Nat) (i : EaInput σ) :
    ∀ (l : List ι) (s : Ea σ ι), s.pc = .submit l →
      eaRun o maxN size (List.replicate (l.length + 1) i) s =
        { s with pending := s.pending ++ l, submitted := s.submitted ++ l, pc := .loop }
  | [], s, h => by simp [eaRun, eaStep, h]
  | x :: xs, s, h => by
    rw [List.length_cons, List.replicate_succ, eaRun,
      eaRun_submits o maxN size i xs _ (by simp [eaStep, h])]
    simp [eaStep, h]

/-- **C107**, how it fails: whenever evaluations are under way at a restart (and the search may still
evaluate something) any one of them can be the first of the new population, although nothing but the
new candidates has been submitted since. -/
theorem C107_otherwise (o : SearchOps σ ι) (maxN : Option Int) (size : Nat) (made : List ι)
    (s₀ : Ea σ ι) (h0 : s₀.pc = .clear (.list made))
    (hmax : ∀ n, maxN = some n → (s₀.evaluated : Int) < n) (x : ι) (hx : x ∈ s₀.pending) :
    ∃ is : List (EaInput σ), (eaRun o maxN size is s₀).population = [x] ∧
      (eaRun o maxN size is s₀).pc = .full ∧
      (eaRun o maxN size is s₀).submitted = s₀.submitted ++ made := by
  have hm : eaMore maxN s₀.evaluated = true := by
    cases maxN with
    | none => rfl
    | some n => exact decide_eq_true (hmax n rfl)
  obtain ⟨k, hk, rfl⟩ := List.getElem_of_mem hx
  let i : EaInput σ := ⟨.completes k (.result true (.fin 1)) s₀.world, 0, false⟩
  refine ⟨i :: (List.replicate (made.length + 1) i ++ [i, i]), ?_⟩
  have hlt : k < (s₀.pending ++ made).length := by rw [List.length_append]; omega
  have e1 : eaStep o maxN size i s₀ = { s₀ with population := [], pc := .submit made } := by
    simp [eaStep, h0]
  have ht : takePending (s₀.pending ++ made) k =
      some (s₀.pending[k], (s₀.pending ++ made).eraseIdx k) := by
    unfold takePending
    rw [Nat.mod_eq_of_lt hlt, List.getElem?_append_left hk, List.getElem?_eq_getElem hk]
  rw [eaRun, e1, eaRun_append, eaRun_submits o maxN size i made _ rfl]
  simp [eaRun, eaStep, hm, i, ht]

/-- In the run above 5 is under way at the restart. -/
example : (5 : Nat) ∈ (eaRun Ex.ops none 1 Ex.restarting (eaStart (.list [4, 5]) [] ())).pending := by
  decide +kernel

/-! ### C108: the list of start candidates -/

/-- **C108, the full claim** for successive halving: the list given as start candidates is not
changed.  (The other searches only read it.) -/
def C108_claim : Prop :=
  ∀ (o : SearchOps Unit Nat) (c : AshaConfig) (cands : List Nat) (is : List (AshaInput Unit)),
    (ashaRun o c is (ashaStart c cands ())).candidates = cands

/-- **C108** fails: the candidates are popped from the list of the caller. -/
theorem C108_false : ¬ C108_claim := by
  intro h
  have := h Ex.ops ⟨2, 0, 2, none⟩ [1, 2, 3] [⟨.completes 0 .failed (), 0⟩]
  revert this
  decide +kernel

/-- **C108**, what is left of the list: the candidates at its end are gone, one for each job on the
lowest rung.  So the list is unchanged only if it was empty or nothing was submitted. -/
theorem C108_partial (o : SearchOps σ ι) (c : AshaConfig) (hc : c.rate ≤ c.maxRung) (cands : List ι)
    (w : σ) (is : List (AshaInput σ)) (s : Asha σ ι) (hs : s = ashaRun o c is (ashaStart c cands w)) :
    s.candidates = cands.take (cands.length - (jobsOn c.rate s.submitted).length) ∧
      (s.candidates = cands ↔ cands = [] ∨ jobsOn c.rate s.submitted = []) := by
  have h := (ashaOK_run o c cands is _ (ashaOK_start c cands w)).core.base
  rw [← hs] at h
  have hl : c.levels ≠ [] := by
    intro h
    have : c.rate ∈ c.levels := mem_levels.2 ⟨Nat.le_refl _, hc⟩
    rw [h] at this
    cases this
  have e : s.candidates = cands.take (cands.length - (jobsOn c.rate s.submitted).length) := by
    rcases h with h | ⟨h1, h2⟩ | ⟨h1, _⟩
    · have h' : cands = s.candidates ++ (jobsOn c.rate s.submitted).reverse := by
        have := congrArg List.reverse h
        simpa using this.symm
      have hlen : cands.length - (jobsOn c.rate s.submitted).length = s.candidates.length := by
        have := congrArg List.length h'
        simp only [List.length_append, List.length_reverse] at this
        omega
      rw [hlen]
      conv_rhs => rw [h']
      simp
    · have := h2.length_le
      rw [List.length_reverse] at this
      rw [h1, Nat.sub_eq_zero_of_le this, List.take_zero]
    · exact absurd h1 hl
  refine ⟨e, ?_⟩
  rw [e]
  constructor
  · intro h
    have hlen := congrArg List.length h
    rw [List.length_take] at hlen
    by_cases h0 : cands = []
    · exact Or.inl h0
    · right
      have : 0 < cands.length := List.length_pos_iff.2 h0
      exact List.length_eq_zero_iff.1 (by omega)
  · rintro (h | h)
    · rw [h]; simp
    · rw [h]; simp

example : (⟨2, 0, 2, none⟩ : AshaConfig).rate ≤ (⟨2, 0, 2, none⟩ : AshaConfig).maxRung ∧
    (ashaRun Ex.ops ⟨2, 0, 2, none⟩ (List.replicate 2 ⟨.completes 3 .failed (), 0⟩)
      (ashaStart ⟨2, 0, 2, none⟩ [1, 2, 3] ())).candidates = [1] := by
  decide +kernel

end
end Gama
