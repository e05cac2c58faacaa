import Verif.Model.NanFront

/-!
# Scores that are not numbers on a rung of successive halving

The promotion of `get_job`, `gama/search_methods/asha.py` l.153-162, out of one rung whose scores may be NaN.
`Model/Search` has scores of a linear order.
-/

namespace Gama

/-- What is stored in a rung, l.192-194: the tuple of the score and the individual, numbered in the order in which they
were stored.  A tuple is equal to itself, also with NaN. -/
structure RungScore where
  number : Nat
  score : Option Score
  deriving DecidableEq

/-- The loop of `max(..., key=lambda i: i[0])` after its first element: another one is taken if its key is greater. -/
def maxScore : RungScore → List RungScore → RungScore
  | best, [] => best
  | best, x :: xs => maxScore (if floatGt x.score best.score then x else best) xs

/-- l.155-161: the entry to promote, if there is one; `ord` is the order in which the set `not_promoted` is gone
through, which is not specified. -/
def rungPromotion (rf : Nat) (ord : List RungScore → List RungScore) (individuals promoted : List RungScore) :
    Option RungScore :=
  if 0 < ((individuals.length / rf : Nat) : Int) - (promoted.length : Int) then
    match ord (individuals.filter fun x => x ∉ promoted) with
    | [] => none
    | x :: xs => some (maxScore x xs)
  else none

end Gama
