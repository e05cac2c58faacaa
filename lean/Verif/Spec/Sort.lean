import Mathlib.Data.List.Forall2

/-! # Specification of dominance and of layering a population into fronts -/

namespace Gama.Spec

/-- `v` dominates `u`: better on every objective. -/
def Dominates {S : Type} [LT S] (v u : List S) : Prop := List.Forall₂ (fun a b => b < a) v u

/-- `x` is in the `j`-th front. -/
def InFront (fronts : List (List Nat)) (j x : Nat) : Prop := ∃ f, fronts[j]? = some f ∧ x ∈ f

/-- A correct layering of the positions `0 … n-1` under a dominance relation. -/
structure Layering (dom : Nat → Nat → Prop) (n : Nat) (fronts : List (List Nat)) : Prop where
  /-- each member of the population is in exactly one front, once -/
  partition : fronts.flatten.Perm (List.range n)
  /-- members of one front do not dominate each other -/
  apart : ∀ j x y, InFront fronts j x → InFront fronts j y → ¬ dom x y
  /-- a member of a later front is dominated by one of the directly preceding front -/
  below : ∀ j x, InFront fronts (j + 1) x → ∃ y, InFront fronts j y ∧ dom y x
  /-- dominators are in earlier fronts -/
  above : ∀ j x y, InFront fronts j x → y < n → dom y x → ∃ i, i < j ∧ InFront fronts i y

end Gama.Spec
