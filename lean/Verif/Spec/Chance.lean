import Verif.Lemmas.Reach
import Mathlib.Algebra.BigOperators.Group.List.Lemmas
import Mathlib.Algebra.Order.Field.Rat
import Mathlib.Tactic.FieldSimp
import Mathlib.Tactic.Ring
import Mathlib.Tactic.Linarith

/-!
# How likely a result is

Random draws are numbers, of which `random.choice` and `random.randint` use the remainder.  If a draw is
each of the numbers below `M` equally often, and `M` is a multiple of the number of candidates, every
candidate is equally likely, as Python promises for `random.choice` and `random.randint`.
-/

namespace Gama
open Spec PyM

/-- The average over the first `k` draws, each of which is any number below `M`. -/
def Spec.average (M : Nat) : Nat → (List Nat → ℚ) → ℚ
  | 0, F => F []
  | k + 1, F => ((List.range M).map fun d => average M k fun l => F (d :: l)).sum / M

open Classical in
/-- One if `m` returns a result in `P` when given these draws, and nought otherwise. -/
noncomputable def Spec.hit {α : Type} (m : GP α) (w : World) (P : α → World → Prop) (s : Stream) : ℚ :=
  if ∃ a w', m (withRnd w s) = (.ok a, w') ∧ P a w' then 1 else 0

/-- The chance that `m` returns a result in `P` is `q`: that is the share of the beginnings of the
draws with such a result, if these are long enough, whatever the draws after it. -/
def Spec.Chance {α : Type} (M : Nat) (m : GP α) (w : World) (P : α → World → Prop) (q : ℚ) : Prop :=
  ∃ K, ∀ k, K ≤ k → ∀ s, average M k (fun l => hit m w P (draws l s)) = q

end Gama
