import Mathlib.Order.Defs.LinearOrder
import Mathlib.Algebra.Order.Field.Rat
import Mathlib.Tactic.Linarith

/-!
# Scores

A score is a Python float other than NaN: an exact rational or an infinity.  Rounding is not
modelled.
-/

namespace Gama

inductive Score
  | ninf | fin (q : ℚ) | pinf
  deriving DecidableEq, Repr

namespace Score

/-- `a <= b` -/
def le : Score → Score → Bool
  | ninf, _ => true
  | _, pinf => true
  | fin a, fin b => decide (a ≤ b)
  | _, _ => false

instance : LE Score := ⟨fun a b => le a b = true⟩
instance : LT Score := ⟨fun a b => le b a = false⟩

theorem le_def (a b : Score) : a ≤ b ↔ le a b = true := Iff.rfl
theorem lt_def (a b : Score) : a < b ↔ le b a = false := Iff.rfl

instance (a b : Score) : Decidable (a ≤ b) := inferInstanceAs (Decidable (le a b = true))
instance (a b : Score) : Decidable (a < b) := inferInstanceAs (Decidable (le b a = false))

instance : LinearOrder Score where
  le_refl a := by cases a <;> simp [le_def, le]
  le_trans a b c := by
    cases a <;> cases b <;> cases c <;> simp [le_def, le]
    exact fun h1 h2 => le_trans h1 h2
  lt_iff_le_not_ge a b := by
    cases a <;> cases b <;> simp [le_def, lt_def, le]
    rename_i x y
    intro h; exact le_of_lt h
  le_antisymm a b := by
    cases a <;> cases b <;> simp [le_def, le]
    exact fun h1 h2 => le_antisymm h1 h2
  le_total a b := by
    cases a <;> cases b <;> simp [le_def, le]
    exact le_total _ _
  toDecidableLE := inferInstance
  toDecidableEq := inferInstance
  toDecidableLT := inferInstance

/-- `-x` -/
def neg : Score → Score
  | ninf => pinf
  | fin q => fin (-q)
  | pinf => ninf

instance : Neg Score := ⟨neg⟩

theorem neg_le_neg_iff (a b : Score) : -a ≤ -b ↔ b ≤ a := by
  cases a <;> cases b <;> simp [Neg.neg, neg, le_def, le]
  exact _root_.neg_le_neg_iff (α := ℚ)

theorem neg_inj {a b : Score} (h : -a = -b) : a = b := by
  apply le_antisymm
  · rw [← neg_le_neg_iff]; exact le_of_eq h.symm
  · rw [← neg_le_neg_iff]; exact le_of_eq h

/-- `np.isinf(x)` -/
def isInf : Score → Bool
  | fin _ => false
  | _ => true

end Score
end Gama
