import Verif.Model.Search
import Mathlib.Tactic.ByContra
import Mathlib.Data.List.Perm.Basic

/-! # Evolutionary and random search: C34 – C38 -/

namespace Gama
open PyM

section
variable {σ ι : Type} [DecidableEq ι]

theorem takePending_some {α : Type} {l rest : List α} {k : Nat} {x : α}
    (h : takePending l k = some (x, rest)) : x ∈ l ∧ rest.length + 1 = l.length ∧
      l.Perm (x :: rest) := by
  unfold takePending at h
  cases hx : l[k % l.length]? with
  | none => rw [hx] at h; cases h
  | some y =>
    rw [hx] at h
    simp only [Option.some.injEq, Prod.mk.injEq] at h
    obtain ⟨rfl, rfl⟩ := h
    obtain ⟨hlt, he⟩ := List.getElem?_eq_some_iff.1 hx
    refine ⟨List.mem_of_getElem? hx, ?_, ?_⟩
    · rw [List.length_eraseIdx, if_pos hlt]; omega
    · rw [← he]; exact (List.getElem_cons_eraseIdx_perm hlt).symm

theorem takePending_none {α : Type} {l : List α} {k : Nat} (h : takePending l k = none) : l = [] := by
  unfold takePending at h
  cases l with
  | nil => rfl
  | cons a l =>
    have : k % (a :: l).length < (a :: l).length := Nat.mod_lt _ (by simp)
    rw [List.getElem?_eq_getElem this] at h
    cases h

/-- Each input satisfies a condition in the state in which it is used. -/
def Spec.EaAlong (o : SearchOps σ ι) (maxN : Option Int) (size : Nat)
    (C : Ea σ ι → EaInput σ → Prop) : List (EaInput σ) → Ea σ ι → Prop
  | [], _ => True
  | i :: is, s => C s i ∧ EaAlong o maxN size C is (eaStep o maxN size i s)

open Spec

theorem eaRun_induct {o : SearchOps σ ι} {maxN : Option Int} {size : Nat}
    {C : Ea σ ι → EaInput σ → Prop} {P : Ea σ ι → Prop}
    (hstep : ∀ s i, P s → C s i → P (eaStep o maxN size i s)) :
    ∀ (is : List (EaInput σ)) (s : Ea σ ι), P s → EaAlong o maxN size C is s →
      P (eaRun o maxN size is s) := by
  intro is
  induction is with
  | nil => intro s h _; exact h
  | cons i is ih => intro s h k; exact ih _ (hstep s i h k.1) k.2

theorem eaAlong_true {o : SearchOps σ ι} {maxN : Option Int} {size : Nat} :
    ∀ (is : List (EaInput σ)) (s : Ea σ ι), EaAlong o maxN size (fun _ _ => True) is s := by
  intro is
  induction is with
  | nil => intro s; trivial
  | cons i is ih => intro s; exact ⟨trivial, ih _⟩

theorem eaRun_append {o : SearchOps σ ι} {maxN : Option Int} {size : Nat} (a b : List (EaInput σ)) :
    ∀ s : Ea σ ι, eaRun o maxN size (a ++ b) s = eaRun o maxN size b (eaRun o maxN size a s) := by
  induction a with
  | nil => intro s; rfl
  | cons i a ih => intro s; exact ih _

/-! ## C34 -/

/-- Where the population may be over its size. -/
def EaPc.slack : EaPc ι → Nat
  | .full => 1
  | .remove _ => 1
  | .raised _ => 1
  | _ => 0

/-- The population is within its size and evaluated. -/
def PopOK (size : Nat) (s : Ea σ ι) : Prop :=
  s.population.length ≤ size + s.pc.slack ∧
  (∀ x ∈ s.population, ∃ score, (x, Completion.result true score) ∈ s.history) ∧
  ∀ x score, s.pc = .got x (.result true score) → (x, Completion.result true score) ∈ s.history

/-- Nothing has happened yet. -/
def Untouched (out : List ι) (s : Ea σ ι) : Prop :=
  s.population = out ∧ s.submitted = [] ∧ s.history = [] ∧ s.pending = [] ∧
    ((∃ c, s.pc = .start c) ∨ (∃ c, s.pc = .clear c) ∨ s.pc = .raised .valueError)

theorem popOK_step (o : SearchOps σ ι) (maxN : Option Int) (size : Nat) (s : Ea σ ι)
    (i : EaInput σ) (h : PopOK size s) : PopOK size (eaStep o maxN size i s) := by
  obtain ⟨h1, h2, h3⟩ := h
  have keep : ∀ (pc : EaPc ι), (∀ x score, pc ≠ .got x (.result true score)) →
      s.population.length ≤ size + pc.slack → ∀ (pend sub : List ι) (w : σ) (n : Nat),
      PopOK size { s with pc := pc, pending := pend, submitted := sub, world := w, evaluated := n } :=
    fun pc hne hl _ _ _ _ => ⟨hl, h2, fun x score hx => absurd hx (hne x score)⟩
  unfold eaStep
  cases hpc : s.pc with
  | start c =>
    rw [hpc] at h1
    dsimp only
    split
    · exact keep _ (by simp) (by simp only [EaPc.slack] at *; omega) _ _ _ _
    · exact keep _ (by simp) (by simp only [EaPc.slack] at *; omega) _ _ _ _
  | clear c => cases c <;> exact ⟨by simp, by simp, by simp⟩
  | submit rest =>
    rw [hpc] at h1
    cases rest with
    | nil => exact keep _ (by simp) (by simp only [EaPc.slack] at *; omega) _ _ _ _
    | cons x xs => exact keep _ (by simp) (by simp only [EaPc.slack] at *; omega) _ _ _ _
  | loop =>
    rw [hpc] at h1
    dsimp only
    split
    · cases i.wait with
      | raises e => exact keep _ (by simp) (by simp only [EaPc.slack] at *; omega) _ _ _ _
      | completes k c w =>
        dsimp only
        cases ht : takePending s.pending k with
        | none => exact keep _ (by simp) (by simp only [EaPc.slack] at *; omega) _ _ _ _
        | some p =>
          refine ⟨h1, fun x hx => ?_, fun x score hx => ?_⟩
          · obtain ⟨score, hs⟩ := h2 x hx
            exact ⟨score, List.mem_append_left _ hs⟩
          · dsimp only at hx ⊢
            injection hx with hx hc
            rw [← hx, ← hc]
            simp
    · exact keep _ (by simp) (by simp only [EaPc.slack] at *; omega) _ _ _ _
  | got x c =>
    rw [hpc] at h1
    cases c with
    | failed => exact keep _ (by simp) (by simp only [EaPc.slack] at *; omega) _ _ _ _
    | result b score =>
      cases b with
      | false => exact keep _ (by simp) (by simp only [EaPc.slack] at *; omega) _ _ _ _
      | true =>
        refine ⟨?_, fun y hy => ?_, by simp⟩
        · show (s.population ++ [x]).length ≤ size + 1
          rw [List.length_append, List.length_singleton]
          simp only [EaPc.slack] at h1
          omega
        · rcases List.mem_append.1 hy with hy | hy
          · exact h2 y hy
          · simp at hy
            rw [hy]
            exact ⟨score, h3 x score hpc⟩
  | full =>
    rw [hpc] at h1
    dsimp only
    split
    · cases o.eliminate s.population s.world with
      | mk r w =>
        cases r with
        | error e => exact keep _ (by simp) (by simp only [EaPc.slack] at *; omega) _ _ _ _
        | ok x => exact keep _ (by simp) (by simp only [EaPc.slack] at *; omega) _ _ _ _
    · rename_i hs
      exact keep _ (by simp) (by simp only [EaPc.slack]; omega) _ _ _ _
  | remove x =>
    rw [hpc] at h1
    dsimp only
    split
    · rename_i hx
      refine ⟨?_, fun y hy => h2 y (List.mem_of_mem_erase hy), by simp⟩
      show (s.population.erase x).length ≤ size + 0
      rw [List.length_erase_of_mem hx]
      simp only [EaPc.slack] at h1
      omega
    · exact keep _ (by simp) (by simp only [EaPc.slack] at *; omega) _ _ _ _
  | fill =>
    rw [hpc] at h1
    dsimp only
    split
    · cases o.create s.population s.world with
      | mk r w =>
        cases r with
        | error e => exact keep _ (by simp) (by simp only [EaPc.slack] at *; omega) _ _ _ _
        | ok x => exact keep _ (by simp) (by simp only [EaPc.slack] at *; omega) _ _ _ _
    · exact keep _ (by simp) (by simp only [EaPc.slack] at *; omega) _ _ _ _
  | restart =>
    rw [hpc] at h1
    dsimp only
    split <;> exact keep _ (by simp) (by simp only [EaPc.slack] at *; omega) _ _ _ _
  | renew k made =>
    rw [hpc] at h1
    cases k with
    | zero => exact keep _ (by simp) (by simp only [EaPc.slack] at *; omega) _ _ _ _
    | succ k =>
      dsimp only
      cases o.individual s.world with
      | mk r w =>
        cases r with
        | error e => exact keep _ (by simp) (by simp only [EaPc.slack] at *; omega) _ _ _ _
        | ok x => exact keep _ (by simp) (by simp only [EaPc.slack] at *; omega) _ _ _ _
  | returned => exact ⟨h1, h2, h3⟩
  | raised e => exact ⟨h1, h2, h3⟩

theorem ea_reach (o : SearchOps σ ι) (maxN : Option Int) (size : Nat) (c : Candidates ι)
    (out : List ι) (w : σ) (is : List (EaInput σ)) :
    Untouched out (eaRun o maxN size is (eaStart c out w)) ∨
      PopOK size (eaRun o maxN size is (eaStart c out w)) := by
  refine eaRun_induct (C := fun _ _ => True) (P := fun s => Untouched out s ∨ PopOK size s) ?_ is _
    (Or.inl ⟨rfl, rfl, rfl, rfl, Or.inl ⟨c, rfl⟩⟩) (eaAlong_true is _)
  rintro s i (⟨h1, h2, h3, h4, h5⟩ | h) -
  · rcases h5 with ⟨c, hc⟩ | ⟨c, hc⟩ | hc
    · left
      unfold eaStep
      rw [hc]
      dsimp only
      split
      · exact ⟨h1, h2, h3, h4, Or.inr (Or.inr rfl)⟩
      · exact ⟨h1, h2, h3, h4, Or.inr (Or.inl ⟨c, rfl⟩)⟩
    · right
      unfold eaStep
      rw [hc]
      cases c <;> exact ⟨by simp, by simp, by simp⟩
    · left
      unfold eaStep
      rw [hc]
      exact ⟨h1, h2, h3, h4, Or.inr (Or.inr hc)⟩
  · exact Or.inr (popOK_step o maxN size s i h)

/-- **C34.** Interrupted at any point, the output list is still what it was before anything was
submitted, or it holds at most `population_size + 1` individuals, each evaluated without error;
it is over its size only between adding an individual and removing one, or after an exception. -/
theorem C34_population (o : SearchOps σ ι) (maxN : Option Int) (size : Nat) (c : Candidates ι)
    (out : List ι) (w : σ) (is : List (EaInput σ)) (s : Ea σ ι)
    (hs : s = eaRun o maxN size is (eaStart c out w)) :
    (s.population = out ∧ s.submitted = []) ∨
    (s.population.length ≤ size + 1 ∧
      (size < s.population.length → s.pc = .full ∨ (∃ x, s.pc = .remove x) ∨ ∃ e, s.pc = .raised e) ∧
      ∀ x ∈ s.population, ∃ score, (x, Completion.result true score) ∈ s.history) := by
  rcases ea_reach o maxN size c out w is with h | ⟨h1, h2, -⟩
  · rw [← hs] at h
    exact Or.inl ⟨h.1, h.2.1⟩
  · rw [← hs] at h1 h2
    refine Or.inr ⟨?_, fun hl => ?_, h2⟩
    · have : s.pc.slack ≤ 1 := by cases s.pc <;> simp [EaPc.slack]
      omega
    · cases hpc : s.pc <;> rw [hpc] at h1 <;> simp only [EaPc.slack] at h1 <;> first | omega | simp

/-! ## C35 -/

/-- Whether an evaluation was returned that is not counted yet. -/
def EaPc.uncounted : EaPc ι → Bool
  | .got _ _ => true
  | .full => true
  | .remove _ => true
  | .fill => true
  | .restart => true
  | _ => false

/-- The counter is right and within the bound. -/
structure CountOK (n : Int) (s : Ea σ ι) : Prop where
  within : (s.evaluated : Int) ≤ n
  history : (∃ e, s.pc = .raised e) ∨ s.history.length = s.evaluated + s.pc.uncounted.toNat
  room : s.pc.uncounted = true → (s.evaluated : Int) < n
  most : (s.history.length : Int) ≤ n
  finished : s.pc = .returned → (s.evaluated : Int) = n

theorem countOK_step (o : SearchOps σ ι) {n : Int} (size : Nat) (s : Ea σ ι)
    (i : EaInput σ) (h : CountOK n s) : CountOK n (eaStep o (some n) size i s) := by
  obtain ⟨h1, h2, h3, h4, h5⟩ := h
  have keep : ∀ (pc : EaPc ι), pc.uncounted = s.pc.uncounted → pc ≠ .returned →
      (∀ e, s.pc ≠ .raised e) → ∀ (pop pend sub : List ι) (w : σ),
      CountOK n { s with pc := pc, population := pop, pending := pend, submitted := sub, world := w } :=
    fun pc hu hne hnr _ _ _ _ => ⟨h1, by
      rcases h2 with ⟨e, he⟩ | h2
      · exact absurd he (hnr e)
      · right; dsimp only; rw [hu]; exact h2, fun hx => h3 (by rw [← hu]; exact hx), h4,
      fun he => absurd he hne⟩
  have fail : ∀ (e : Exn) (w : σ), CountOK n { s with pc := .raised e, world := w } :=
    fun e w => ⟨h1, Or.inl ⟨e, rfl⟩, fun hx => by simp [EaPc.uncounted] at hx, h4, fun he => by cases he⟩
  unfold eaStep
  cases hpc : s.pc with
  | start c =>
    dsimp only
    split
    · exact fail _ _
    · exact keep _ (by rw [hpc]; rfl) (by simp) (by simp [hpc]) _ _ _ _
  | clear c => cases c <;> exact keep _ (by rw [hpc]; rfl) (by simp) (by simp [hpc]) _ _ _ _
  | submit rest => cases rest <;> exact keep _ (by rw [hpc]; rfl) (by simp) (by simp [hpc]) _ _ _ _
  | loop =>
    have hh : s.history.length = s.evaluated := by
      rcases h2 with ⟨e, he⟩ | h2
      · rw [hpc] at he; cases he
      · rw [hpc] at h2; simpa [EaPc.uncounted] using h2
    dsimp only
    split
    · rename_i hm
      have hlt : (s.evaluated : Int) < n := by simpa [eaMore] using hm
      cases i.wait with
      | raises e => exact fail _ _
      | completes k c w =>
        dsimp only
        cases ht : takePending s.pending k with
        | none => exact fail _ _
        | some p =>
          refine ⟨h1, Or.inr ?_, fun _ => hlt, ?_, fun he => by cases he⟩
          · dsimp only; simp [EaPc.uncounted, hh]
          · dsimp only
            rw [List.length_append, List.length_singleton, hh]
            push_cast
            omega
    · rename_i hm
      have hlt : ¬ (s.evaluated : Int) < n := by simpa [eaMore] using hm
      refine ⟨h1, Or.inr ?_, fun hx => by simp [EaPc.uncounted] at hx, h4, fun _ => ?_⟩
      · dsimp only; simp [EaPc.uncounted, hh]
      · dsimp only; omega
  | got x c =>
    cases c with
    | failed => exact keep _ (by rw [hpc]; rfl) (by simp) (by simp [hpc]) _ _ _ _
    | result b score => cases b <;> exact keep _ (by rw [hpc]; rfl) (by simp) (by simp [hpc]) _ _ _ _
  | full =>
    dsimp only
    split
    · cases o.eliminate s.population s.world with
      | mk r w =>
        cases r with
        | error e => exact fail _ _
        | ok x => exact keep _ (by rw [hpc]; rfl) (by simp) (by simp [hpc]) _ _ _ _
    · exact keep _ (by rw [hpc]; rfl) (by simp) (by simp [hpc]) _ _ _ _
  | remove x =>
    dsimp only
    split
    · exact keep _ (by rw [hpc]; rfl) (by simp) (by simp [hpc]) _ _ _ _
    · exact fail _ _
  | fill =>
    dsimp only
    split
    · cases o.create s.population s.world with
      | mk r w =>
        cases r with
        | error e => exact fail _ _
        | ok x => exact keep _ (by rw [hpc]; rfl) (by simp) (by simp [hpc]) _ _ _ _
    · exact keep _ (by rw [hpc]; rfl) (by simp) (by simp [hpc]) _ _ _ _
  | restart =>
    have hlt := h3 (by rw [hpc]; rfl)
    have hh : s.history.length = s.evaluated + 1 := by
      rcases h2 with ⟨e, he⟩ | h2
      · rw [hpc] at he; cases he
      · rw [hpc] at h2; simpa [EaPc.uncounted] using h2
    dsimp only
    split
    · exact ⟨by push_cast; omega, Or.inr (by simp [EaPc.uncounted, hh]),
        fun hx => by simp [EaPc.uncounted] at hx, h4, fun he => by cases he⟩
    · exact ⟨by push_cast; omega, Or.inr (by simp [EaPc.uncounted, hh]),
        fun hx => by simp [EaPc.uncounted] at hx, h4, fun he => by cases he⟩
  | renew k made =>
    cases k with
    | zero => exact keep _ (by rw [hpc]; rfl) (by simp) (by simp [hpc]) _ _ _ _
    | succ k =>
      dsimp only
      cases o.individual s.world with
      | mk r w =>
        cases r with
        | error e => exact fail _ _
        | ok x => exact keep _ (by rw [hpc]; rfl) (by simp) (by simp [hpc]) _ _ _ _
  | returned => exact ⟨h1, h2, h3, h4, h5⟩
  | raised e => exact ⟨h1, h2, h3, h4, h5⟩

/-- **C35.** With `max_n_evaluations = n > 0` at most `n` evaluations are processed at any point,
and exactly `n` if the search returns. -/
theorem C35_bound (o : SearchOps σ ι) (n : Int) (hn : 0 < n) (size : Nat) (c : Candidates ι)
    (out : List ι) (w : σ) (is : List (EaInput σ)) (s : Ea σ ι)
    (hs : s = eaRun o (some n) size is (eaStart c out w)) :
    (s.history.length : Int) ≤ n ∧ (s.pc = .returned → (s.history.length : Int) = n) := by
  have h : CountOK n s := by
    rw [hs]
    refine eaRun_induct (C := fun _ _ => True) (fun s i h _ => countOK_step o size s i h) is _ ?_
      (eaAlong_true is _)
    exact ⟨by simp [eaStart]; omega, Or.inr rfl, fun hx => by simp [eaStart, EaPc.uncounted] at hx,
      by simp [eaStart]; omega, fun he => by cases he⟩
  refine ⟨h.most, fun hr => ?_⟩
  rcases h.history with ⟨e, he⟩ | hh
  · rw [hr] at he; cases he
  · rw [hr] at hh
    have := h.finished hr
    simp [EaPc.uncounted] at hh
    rw [hh]; exact this

/-- **C35.** A non-positive `max_n_evaluations` is refused before anything is evaluated. -/
theorem C35_refused (o : SearchOps σ ι) (n : Int) (hn : n ≤ 0) (size : Nat) (c : Candidates ι)
    (out : List ι) (w : σ) (i : EaInput σ) (is : List (EaInput σ)) :
    eaRun o (some n) size (i :: is) (eaStart c out w) =
      { eaStart c out w with pc := .raised .valueError } := by
  have h1 : eaStep o (some n) size i (eaStart c out w) =
      { eaStart c out w with pc := .raised .valueError } := by
    simp only [eaStep, eaStart, eaRefused, decide_eq_true hn, if_true]
  have h2 : ∀ (is : List (EaInput σ)), eaRun o (some n) size is
      { eaStart c out w with pc := .raised .valueError } =
      { eaStart c out w with pc := .raised .valueError } := by
    intro is
    induction is with
    | nil => rfl
    | cons i is ih => exact ih
  show eaRun o (some n) size is (eaStep o (some n) size i (eaStart c out w)) = _
  rw [h1, h2]

/-- The search is over. -/
def Spec.EaDone (s : Ea σ ι) : Prop := s.pc = .returned ∨ ∃ e, s.pc = .raised e

def candidatesLength : Candidates ι → Nat
  | .list l => l.length
  | .sameAsOutput => 0

/-- Steps left in an iteration. -/
def EaPc.rank : EaPc ι → Nat
  | .restart => 1
  | .fill => 2
  | .remove _ => 3
  | .full => 4
  | .got _ _ => 5
  | .loop => 6
  | .submit rest => 7 + rest.length
  | .clear c => 8 + candidatesLength c
  | .renew k made => 9 + 2 * k + made.length
  | .start c => 9 + candidatesLength c
  | .returned => 0
  | .raised _ => 0

theorem rank_step (o : SearchOps σ ι) {n : Int} (size : Nat) (s : Ea σ ι) (i : EaInput σ)
    (h : CountOK n s) (hd : ¬ EaDone s) :
    (eaStep o (some n) size i s).evaluated = s.evaluated + 1 ∧ (s.evaluated : Int) < n ∨
    (eaStep o (some n) size i s).evaluated = s.evaluated ∧
      (eaStep o (some n) size i s).pc.rank < s.pc.rank := by
  unfold eaStep
  cases hpc : s.pc with
  | start c =>
    dsimp only
    split <;> exact Or.inr ⟨rfl, by simp [EaPc.rank]⟩
  | clear c => cases c <;> exact Or.inr ⟨rfl, by simp [EaPc.rank, candidatesLength]⟩
  | submit rest => cases rest <;> exact Or.inr ⟨rfl, by simp [EaPc.rank]⟩
  | loop =>
    dsimp only
    split
    · cases i.wait with
      | raises e => exact Or.inr ⟨rfl, by simp [EaPc.rank]⟩
      | completes k c w =>
        dsimp only
        cases takePending s.pending k <;> exact Or.inr ⟨rfl, by simp [EaPc.rank]⟩
    · exact Or.inr ⟨rfl, by simp [EaPc.rank]⟩
  | got x c =>
    cases c with
    | failed => exact Or.inr ⟨rfl, by simp [EaPc.rank]⟩
    | result b score => cases b <;> exact Or.inr ⟨rfl, by simp [EaPc.rank]⟩
  | full =>
    dsimp only
    split
    · cases o.eliminate s.population s.world with
      | mk r w => cases r <;> exact Or.inr ⟨rfl, by simp [EaPc.rank]⟩
    · exact Or.inr ⟨rfl, by simp [EaPc.rank]⟩
  | remove x => dsimp only; split <;> exact Or.inr ⟨rfl, by simp [EaPc.rank]⟩
  | fill =>
    dsimp only
    split
    · cases o.create s.population s.world with
      | mk r w => cases r <;> exact Or.inr ⟨rfl, by simp [EaPc.rank]⟩
    · exact Or.inr ⟨rfl, by simp [EaPc.rank]⟩
  | restart =>
    have hlt := h.room (by rw [hpc]; rfl)
    dsimp only
    split <;> exact Or.inl ⟨rfl, hlt⟩
  | renew k made =>
    cases k with
    | zero => exact Or.inr ⟨rfl, by simp [EaPc.rank, candidatesLength]⟩
    | succ k =>
      dsimp only
      cases o.individual s.world with
      | mk r w => cases r <;> exact Or.inr ⟨rfl, by simp [EaPc.rank]; try omega⟩
  | returned => exact absurd (Or.inl hpc) hd
  | raised e => exact absurd (Or.inr ⟨e, hpc⟩) hd

theorem ea_terminates (o : SearchOps σ ι) {n : Int} (size : Nat) (m : Nat) : ∀ (r : Nat)
    (s : Ea σ ι), CountOK n s → (n - s.evaluated).toNat = m → s.pc.rank = r →
    ∀ f : Nat → EaInput σ, ∃ k, EaDone (eaRun o (some n) size ((List.range k).map f) s) := by
  induction m using Nat.strongRecOn with
  | ind m ihm =>
    intro r
    induction r using Nat.strongRecOn with
    | ind r ihr =>
      intro s h hm hr f
      by_cases hd : EaDone s
      · exact ⟨0, hd⟩
      · have hstep : ∀ k, eaRun o (some n) size ((List.range (k + 1)).map f) s =
            eaRun o (some n) size ((List.range k).map fun j => f (j + 1)) (eaStep o (some n) size (f 0) s) := by
          intro k
          rw [List.range_succ_eq_map, List.map_cons, List.map_map]
          rfl
        have h' := countOK_step o size s (f 0) h
        rcases rank_step o size s (f 0) h hd with ⟨e1, e2⟩ | ⟨e1, e2⟩
        · obtain ⟨k, hk⟩ := ihm (n - (s.evaluated + 1 : Nat)).toNat (by push_cast; omega) _ _ h'
            (by rw [e1]) rfl (fun j => f (j + 1))
          exact ⟨k + 1, by rw [hstep]; exact hk⟩
        · obtain ⟨k, hk⟩ := ihr _ (by rw [← hr]; exact e2) _ h' (by rw [e1]; exact hm) rfl
            (fun j => f (j + 1))
          exact ⟨k + 1, by rw [hstep]; exact hk⟩

/-- **C35.** With `max_n_evaluations` given, the search comes to an end, whatever happens. -/
theorem C35_terminates (o : SearchOps σ ι) (n : Int) (size : Nat) (c : Candidates ι)
    (out : List ι) (w : σ) (f : Nat → EaInput σ) :
    ∃ k, EaDone (eaRun o (some n) size ((List.range k).map f) (eaStart c out w)) := by
  by_cases hn : 0 < n
  · refine ea_terminates o size _ _ _ ?_ rfl rfl f
    exact ⟨by simp [eaStart]; omega, Or.inr rfl, fun hx => by simp [eaStart, EaPc.uncounted] at hx,
      by simp [eaStart]; omega, fun he => by cases he⟩
  · refine ⟨1, Or.inr ⟨.valueError, ?_⟩⟩
    have := C35_refused o n (by omega) size c out w (f 0) []
    show (eaRun o (some n) size [f 0] (eaStart c out w)).pc = _
    rw [this]


/-- A population of two, four candidates and a budget of three: the third individual evaluated
without error makes the first one leave. -/
def Ex.smallOps : SearchOps Unit Nat where
  create pop := if pop.length < 3 then raise .valueError else pure (pop.headD 0)
  eliminate pop := match pop with | [] => raise .indexError | x :: _ => pure x
  individual := pure 7

example : (fun s : Ea Unit Nat => (s.population, s.pending, s.evaluated, s.history.length))
      (eaRun Ex.smallOps (some 3) 2
        (List.replicate 30 ⟨.completes 0 (.result true (.fin 1)) (), 2, false⟩)
        (eaStart (.list [1, 2, 3, 4]) [] ())) = ([2, 3], [4], 3, 3) := by decide +kernel

end
end Gama
