import Verif.Model.Py
import Verif.Model.Score

/-!
# Pareto fronts

Models `gama/utilities/generic/paretofront.py`.  The state of a front is its list `_front`;
Python `==` on items is `DecidableEq`.  Values are in any linear order (no NaN).
-/

namespace Gama
open PyM

section
variable {α S : Type} [DecidableEq α] [LinearOrder S]

/-- `all(v1 <= v2 for v1, v2 in zip(values, old_values))`, paretofront.py l.68 (and, with the
arguments exchanged, l.71). -/
def allLe (a b : List S) : Bool := (a.zip b).all fun p => decide (p.1 ≤ p.2)

/-- The for loop of `update`, paretofront.py l.64-74.  `none` is the early `return False`,
otherwise the items to remove, in order. -/
def paretoScan (val : α → List S) (new : α) : List α → Option (List α)
  | [] => some []
  | old :: rest =>
    if allLe (val new) (val old) then none
    else match paretoScan val new rest with
      | none => none
      | some rm => if allLe (val old) (val new) then some (old :: rm) else some rm

/-- `ParetoFront.update`, paretofront.py l.35-80.  `itemsHaveLen` says whether `len` works on
the items themselves (it does for tuples): building the error message of l.58-62 needs it,
otherwise that raises a `TypeError`. -/
def paretoUpdate (itemsHaveLen : Bool) (val : α → List S) (new : α) : PyM (List α) Bool := do
  let front ← get
  match front with
  | [] => do
    modify fun f => f ++ [new]
    pure true
  | first :: _ =>
    if (val first).length ≠ (val new).length then
      raise (if itemsHaveLen then .valueError else .typeError)
    else match paretoScan val new front with
      | none => pure false
      | some rm => do
        modify fun f => (rm.foldl List.erase f) ++ [new]
        pure true

/-- Offering a list of items in order, paretofront.py l.26-28 (`__init__` with a start list). -/
def paretoOffer (itemsHaveLen : Bool) (val : α → List S) : List α → PyM (List α) Unit
  | [] => pure ()
  | x :: xs => do
    let _ ← paretoUpdate itemsHaveLen val x
    paretoOffer itemsHaveLen val xs

end
end Gama
