import Mathlib.Data.List.Forall2
import Mathlib.Order.Defs.LinearOrder

/-! # Specification of dominance between value vectors -/

namespace Gama.Spec

/-- `v` is dominated or equalled by `u`: not better on any objective. -/
def Below {S : Type} [LE S] (v u : List S) : Prop := List.Forall₂ (· ≤ ·) v u

end Gama.Spec
