import Verif.Props.Search2
import Verif.Props.Asha

/-! # What the searches report was evaluated (C87) -/

namespace Gama
open Spec PyM

variable {σ ι : Type} [DecidableEq ι]

namespace Spec

/-- In the course of the search, `x` was evaluated without error. -/
def Succeeded (x : ι) (history : List (ι × Completion)) : Prop :=
  ∃ score, (x, Completion.result true score) ∈ history

/-- In the course of the search, the evaluation of `x` came back, without or with an error. -/
def CameBack (x : ι) (history : List (ι × Completion)) : Prop :=
  ∃ errorFree score, (x, Completion.result errorFree score) ∈ history

end Spec

/-- The history of successive halving without its rungs. -/
def plainHistory (h : List (ι × Nat × Completion)) : List (ι × Completion) := h.map fun e => (e.1, e.2.2)

/-- The full claim C87: what a search reports was evaluated in that search, without error.  `output` is
what the output list holds when it starts. -/
def C87_claim : Prop :=
  ∀ (σ ι : Type) [DecidableEq ι] (o : SearchOps σ ι) (out : List ι) (w : σ),
    (∀ (maxN : Option Int) (c : Candidates ι) (is : List (Wait σ)),
      ∀ x ∈ (rsRun o maxN is (rsStart c out w)).output, Succeeded x (rsRun o maxN is (rsStart c out w)).history) ∧
    (∀ (maxN : Option Int) (size : Nat) (c : Candidates ι) (is : List (EaInput σ)),
      (eaRun o maxN size is (eaStart c out w)).submitted ≠ [] →
      ∀ x ∈ (eaRun o maxN size is (eaStart c out w)).population,
        Succeeded x (eaRun o maxN size is (eaStart c out w)).history) ∧
    (∀ (c : AshaConfig) (cands : List ι) (is : List (AshaInput σ)) (l : List ι),
      (ashaRun o c is (ashaStart c cands w)).pc = .returned l →
      ∀ x ∈ l, Succeeded x (plainHistory (ashaRun o c is (ashaStart c cands w)).history))

omit [DecidableEq ι] in
theorem mem_reported {h : List (ι × Completion)} {x : ι} (hx : x ∈ reported h) : CameBack x h := by
  induction h with
  | nil => cases hx
  | cons p h ih =>
    obtain ⟨y, c⟩ := p
    have up : CameBack x h → CameBack x ((y, c) :: h) := fun ⟨b, sc, hm⟩ => ⟨b, sc, List.mem_cons_of_mem _ hm⟩
    cases c with
    | failed => exact up (ih hx)
    | result b sc =>
      rcases List.mem_cons.1 hx with rfl | hx'
      · exact ⟨b, sc, List.mem_cons_self⟩
      · exact up (ih hx')

/-- **C87** for random search, the part that holds: in the first fit, what is reported at any time was
evaluated in that search; without error if no evaluation came back with one.  Missing: later fits, and
evaluations with errors. -/
theorem C87_partial (o : SearchOps σ ι) (maxN : Option Int) (l : List ι) (w : σ) (is : List (Wait σ)) (s : Rs σ ι)
    (hs : s = rsRun o maxN is (rsStart (.list l) [] w)) :
    ∀ x ∈ s.output, CameBack x s.history ∧
      ((∀ y score, (y, Completion.result false score) ∉ s.history) → Succeeded x s.history) := by
  intro x hx
  have hb : CameBack x s.history := by
    rcases C38_interrupted o maxN l [] w is s hs with h | ⟨y, h⟩
    · rw [h] at hx
      exact mem_reported (by simpa using hx)
    · refine mem_reported ?_
      have : x ∈ s.output ++ [y] := List.mem_append_left _ hx
      rw [h] at this
      simpa using this
  refine ⟨hb, fun he => ?_⟩
  obtain ⟨b, sc, hm⟩ := hb
  cases b with
  | true => exact ⟨sc, hm⟩
  | false => exact absurd hm (he x sc)

/-- **C87** for evolution, in full, in every fit: once anything was submitted, what would be reported was
evaluated in that search without error. -/
theorem C87_evolution (o : SearchOps σ ι) (maxN : Option Int) (size : Nat) (c : Candidates ι) (out : List ι)
    (w : σ) (is : List (EaInput σ)) (s : Ea σ ι) (hs : s = eaRun o maxN size is (eaStart c out w))
    (hsub : s.submitted ≠ []) : ∀ x ∈ s.population, Succeeded x s.history := by
  rcases C34_population o maxN size c out w is s hs with ⟨_, h⟩ | ⟨_, _, h⟩
  · exact absurd h hsub
  · exact h

omit [DecidableEq ι] in
theorem mem_evaluated {k : Nat} {h : List (ι × Nat × Completion)} {e : RungEntry ι} (he : e ∈ evaluatedOn k h) :
    ∃ b, (e.2, k, Completion.result b e.1) ∈ h := by
  induction h with
  | nil => cases he
  | cons p h ih =>
    obtain ⟨x, r, c⟩ := p
    have up : e ∈ evaluatedOn k h → ∃ b, (e.2, k, Completion.result b e.1) ∈ (x, r, c) :: h :=
      fun h => let ⟨b, hb⟩ := ih h; ⟨b, List.mem_cons_of_mem _ hb⟩
    cases c with
    | failed => exact up he
    | result b sc =>
      by_cases hr : r = k
      · rw [evaluatedOn, if_pos hr] at he
        rcases List.mem_cons.1 he with rfl | he
        · exact ⟨b, by rw [hr]; exact List.mem_cons_self⟩
        · exact up he
      · rw [evaluatedOn, if_neg hr] at he
        exact up he

/-- **C87** for successive halving, the part that holds, in every fit: what is reported was evaluated in
that search, all on one rung; without error if no evaluation came back with one.  Missing: evaluations
with errors. -/
theorem C87_halving_partial (o : SearchOps σ ι) (c : AshaConfig) (cands : List ι) (w : σ)
    (is : List (AshaInput σ)) (s : Asha σ ι) (hs : s = ashaRun o c is (ashaStart c cands w)) (l : List ι)
    (hl : s.pc = .returned l) :
    ∃ rung, ∀ x ∈ l, (∃ b score, (x, rung, Completion.result b score) ∈ s.history) ∧
      ((∀ y r score, (y, r, Completion.result false score) ∉ s.history) →
        ∃ score, (x, rung, Completion.result true score) ∈ s.history) := by
  have run : ∀ (is : List (AshaInput σ)) (s : Asha σ ι), AshaOK c cands s → ReturnedOK c s →
      ReturnedOK c (ashaRun o c is s) := by
    intro is
    induction is with
    | nil => intro s _ h; exact h
    | cons i is ih =>
      intro s h1 h2
      exact ih _ (ashaOK_step o c cands s i h1) (returnedOK_step o c cands s i h1 h2)
  have h := run is _ (ashaOK_start c cands w) (fun l hl => by cases hl)
  rw [← hs] at h
  obtain ⟨k, rfl, -⟩ := h l hl
  refine ⟨k, fun x hx => ?_⟩
  obtain ⟨e, he, rfl⟩ := List.mem_map.1 hx
  obtain ⟨b, hb⟩ := mem_evaluated he
  refine ⟨⟨b, _, hb⟩, fun hn => ?_⟩
  cases b with
  | true => exact ⟨_, hb⟩
  | false => exact absurd hb (hn _ _ _)

/-- No operation works; none is needed. -/
def Ex.noOps : SearchOps Unit Nat :=
  ⟨fun _ => PyM.raise .valueError, fun _ => PyM.raise .valueError, PyM.raise .valueError⟩

/-- **C87 is false**: a second fit with random search reports the individuals of the first without
evaluating them. -/
theorem C87_false : ¬ C87_claim := by
  intro h
  obtain ⟨sc, hm⟩ := (h Unit Nat Ex.noOps [1] ()).1 none (.list []) [] 1 (by simp [rsRun, rsStart])
  simp [rsRun, rsStart] at hm

omit [DecidableEq ι] in
/-- It is false of a first fit as well: random search reports every pipeline whose evaluation came
back, also with an error. -/
theorem C87_errors (o : SearchOps σ ι) (x : ι) (w : σ) (score : Score) :
    let s := rsRun o none [.raises .timeout, .raises .timeout, .completes 0 (.result false score) w, .raises .timeout]
      (rsStart (.list [x]) [] w)
    s.output = [x] ∧ s.history = [(x, .result false score)] := ⟨rfl, rfl⟩

/-- So does successive halving. -/
theorem C87_errors_halving (score : Score) : ∃ is : List (AshaInput Unit),
    let s := ashaRun Ex.ops ⟨3, 0, 0, some 1⟩ is (ashaStart ⟨3, 0, 0, some 1⟩ [1, 2, 3, 4, 5, 6, 7, 8, 9] ())
    s.pc = .returned [9] ∧ s.history = [(9, 0, .result false score)] :=
  ⟨List.replicate 9 ⟨.raises .timeout, 0⟩ ++
    [⟨.completes 0 (.result false score) (), 0⟩] ++ List.replicate 3 ⟨.raises .timeout, 0⟩, rfl, rfl⟩

/-! ### Cases of the theorems above -/

/-- Two candidates, of which one has an error and one has none. -/
def Ex.oneError : List (Wait Unit) := [.raises .timeout, .raises .timeout, .raises .timeout,
  .completes 0 (.result false .ninf) (), .raises .timeout, .raises .timeout,
  .completes 0 (.result true (.fin 1)) (), .raises .timeout]

/-- `C87_partial`: both are in the output. -/
example : let s := rsRun Ex.ops none Ex.oneError (rsStart (.list [1, 2]) [] ())
    s.output = [1, 2] ∧ CameBack 1 s.history ∧ CameBack 2 s.history ∧ ¬ Succeeded 1 s.history := by
  refine ⟨rfl, (C87_partial Ex.ops none [1, 2] () Ex.oneError _ rfl 1 (show 1 ∈ [1, 2] by simp)).1,
    (C87_partial Ex.ops none [1, 2] () Ex.oneError _ rfl 2 (show 2 ∈ [1, 2] by simp)).1, ?_⟩
  rintro ⟨sc, hm⟩
  revert hm
  show ¬ (1, Completion.result true sc) ∈ [(1, Completion.result false .ninf), (2, Completion.result true (.fin 1))]
  simp

/-- The same evaluations for evolution. -/
def Ex.oneErrorEa : List (EaInput Unit) :=
  [⟨.raises .timeout, 2, false⟩, ⟨.raises .timeout, 2, false⟩, ⟨.raises .timeout, 2, false⟩,
    ⟨.raises .timeout, 2, false⟩, ⟨.raises .timeout, 2, false⟩, ⟨.completes 0 (.result false .ninf) (), 2, false⟩,
    ⟨.raises .timeout, 2, false⟩, ⟨.raises .timeout, 2, false⟩, ⟨.raises .timeout, 2, false⟩,
    ⟨.completes 0 (.result true (.fin 1)) (), 2, false⟩, ⟨.raises .timeout, 2, false⟩]

/-- `C87_evolution`: one is in the population; what the output list held before is not. -/
example : (eaRun Ex.ops none 50 Ex.oneErrorEa (eaStart (.list [1, 2]) [5] ())).population = [2] ∧
    Succeeded 2 (eaRun Ex.ops none 50 Ex.oneErrorEa (eaStart (.list [1, 2]) [5] ())).history :=
  ⟨rfl, C87_evolution Ex.ops none 50 (.list [1, 2]) [5] () Ex.oneErrorEa _ rfl (List.cons_ne_nil 1 [2]) 2
    (show 2 ∈ [2] by simp)⟩

/-- `C87_halving_partial`: two rungs, one full evaluation asked for. -/
example : ∃ rung b score, (2, rung, Completion.result b score) ∈ (ashaRun Ex.ops ⟨2, 0, 1, some 1⟩ (Ex.ashaInputs 40)
      (ashaStart ⟨2, 0, 1, some 1⟩ [1, 2, 3] ())).history := by
  have hl : (Gama.ashaRun Ex.ops ⟨2, 0, 1, some 1⟩ (Ex.ashaInputs 40)
      (ashaStart ⟨2, 0, 1, some 1⟩ [1, 2, 3] ())).pc = .returned [2] := Ex.returned_of (by decide +kernel)
  obtain ⟨k, h⟩ := C87_halving_partial Ex.ops ⟨2, 0, 1, some 1⟩ [1, 2, 3] () (Ex.ashaInputs 40) _ rfl [2] hl
  exact ⟨k, (h 2 (by simp)).1⟩

end Gama
