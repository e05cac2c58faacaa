import Verif.Props.Evolve

/-!
# Making offspring with and without length regularisation (C69)

An individual has one fitness value for each metric, and one for its length if the length is
regularised (C59).
-/

namespace Gama
open Spec PyM

/-- A population offspring can be made of: three evaluated pipelines of the search space, with `k` values
each, that mutation does not refuse. -/
structure Spec.Breeding (c : OpConfig) (k : Nat) (w : World) (pop : List Nat) : Prop where
  three : 3 ≤ pop.length
  space : ∀ x ∈ pop, OfSpace c.ps w x
  evaluated : ∀ x ∈ pop, Evaluated k w x
  mutable : ∀ x ∈ pop, ∀ ss, Is w x ss → ¬ CannotMutate c ss

/-- **C69** in full: with any number of metrics, and with or without the length as metric, offspring is
made of any population of evaluated pipelines. -/
def C69_claim : Prop :=
  ∀ (regularize : Bool) (metrics : Nat) (c : OpConfig) (cxpb : ℚ) (w : World) (pop : List Nat), 1 ≤ metrics →
    Workable c → Breeding c (metrics + if regularize then 1 else 0) w pop →
    ∃ x w', (gamaOps c cxpb).create pop w = (.ok x, w') ∧ OfSpace c.ps w' x

/-- **C69** with the length as metric, or with at least two other metrics. -/
theorem C69_partial (regularize : Bool) (metrics : Nat) (c : OpConfig) (cxpb : ℚ) (w : World) (pop : List Nat)
    (h1 : 1 ≤ metrics) (hm : regularize = true ∨ 2 ≤ metrics) (hu : Workable c)
    (hp : Breeding c (metrics + if regularize then 1 else 0) w pop) :
    ∃ x w', (gamaOps c cxpb).create pop w = (.ok x, w') ∧ OfSpace c.ps w' x := by
  have hk : 2 ≤ metrics + if regularize then 1 else 0 := by
    rcases hm with rfl | h
    · rw [if_pos rfl]; omega
    · omega
  have hw := wp_create hu (cxpb := cxpb) hk hp.space hp.evaluated
  cases hr : (gamaOps c cxpb).create pop w with
  | mk r w' =>
    cases r with
    | ok x =>
      obtain ⟨ss, hf, ho⟩ := wp_ok hw hr
      obtain ⟨as, ha, _⟩ := hf.is
      exact ⟨x, w', rfl, ss, ⟨as, ha⟩, ho⟩
    | error e =>
      exfalso
      obtain ⟨_, ⟨h, _⟩ | ⟨x, hx, ss, hs, hc⟩⟩ := wp_error hw hr
      · have := hp.three; omega
      · exact hp.mutable x hx ss hs hc

/-- With one metric and without the length, making offspring fails for every population. -/
theorem C69_fails (c : OpConfig) (cxpb : ℚ) (w : World) (pop : List Nat) (hp : 3 ≤ pop.length)
    (hv : ∀ x ∈ pop, Evaluated 1 w x) : (gamaOps c cxpb).create pop w = (.error .indexError, w) := by
  have hmap : mapGP twoMetrics pop w = (.error .indexError, w) := by
    cases pop with
    | nil => simp at hp
    | cons i pop =>
      obtain ⟨v, h, hl⟩ := hv i List.mem_cons_self
      have : twoMetrics i w = (.error .indexError, w) := by
        unfold twoMetrics
        rw [bind_ok (fitnessValues_run h)]
        match v, hl with
        | [_], _ => rfl
      unfold mapGP
      rw [bind_error this]
  show firstOf (createFromPopulation c pop 1 cxpb) w = _
  unfold firstOf createFromPopulation
  rw [if_neg (by omega)]
  dsimp only
  rw [bind_error (bind_error hmap)]

namespace Ex

/-- The six pipelines of `sixWorld`, evaluated with the given values. -/
def scoredSix (v : List Score) : World :=
  { sixWorld with inds := sixWorld.inds.map fun ind => { ind with fitness := some v } }

theorem scored_is (v : List Score) : ∀ x ∈ List.range 6, Is (scoredSix v) x long := by
  intro x hx
  have hx : x < 6 := List.mem_range.1 hx
  have hx : x = 0 ∨ x = 1 ∨ x = 2 ∨ x = 3 ∨ x = 4 ∨ x = 5 := by omega
  refine ⟨[3 * x, 3 * x + 1, 3 * x + 2], rfl, { main := 3 * x, fitness := some v }, ?_, ?_⟩
  · rcases hx with rfl | rfl | rfl | rfl | rfl | rfl <;> rfl
  · rcases hx with rfl | rfl | rfl | rfl | rfl | rfl <;> exact ⟨rfl, _, rfl, rfl, _, rfl, rfl, _, rfl, rfl⟩

theorem scored_evaluated (v : List Score) : ∀ x ∈ List.range 6, Evaluated v.length (scoredSix v) x := by
  intro x hx
  have hx : x < 6 := List.mem_range.1 hx
  have hx : x = 0 ∨ x = 1 ∨ x = 2 ∨ x = 3 ∨ x = 4 ∨ x = 5 := by omega
  refine ⟨v, ⟨{ main := 3 * x, fitness := some v }, ?_, rfl⟩, rfl⟩
  rcases hx with rfl | rfl | rfl | rfl | rfl | rfl <;> rfl

theorem scored_breeding (v : List Score) : Breeding Ex.config v.length (scoredSix v) (List.range 6) where
  three := by decide
  space := fun x hx => ⟨long, scored_is v x hx, long_ok⟩
  evaluated := scored_evaluated v
  mutable := by
    rintro x _ ss _ (⟨m, hm, _⟩ | ⟨hm, _⟩) <;> cases hm

end Ex

/-- **C69 is false.** -/
theorem C69_false : ¬ C69_claim := by
  intro h
  obtain ⟨x, w', hx, _⟩ := h false 1 Ex.config (1 / 5) (Ex.scoredSix [.fin 1]) (List.range 6) (le_refl _)
    Ex.usable_config (Ex.scored_breeding [.fin 1])
  rw [C69_fails _ _ _ _ (by decide) (Ex.scored_evaluated [.fin 1])] at hx
  cases hx

/-- The hypotheses of `C69_partial` in two cases: one metric and the length, and two metrics. -/
example : Breeding Ex.config (1 + if true then 1 else 0) (Ex.scoredSix [.fin 1, .fin (-3)]) (List.range 6) ∧
    Breeding Ex.config (2 + if false then 1 else 0) (Ex.scoredSix [.fin 1, .fin 2]) (List.range 6) :=
  ⟨Ex.scored_breeding [.fin 1, .fin (-3)], Ex.scored_breeding [.fin 1, .fin 2]⟩

end Gama
