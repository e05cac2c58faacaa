import Verif.Model.Score
import Verif.Model.Nsga2

/-!
# Scores that are not numbers in the population of the evolutionary search

`gama/utilities/generic/paretofront.py` l.26-80, `gama/genetic_programming/selection.py` l.32-41 and the comparisons of
`gama/genetic_programming/nsga2.py` l.25-36, for fitness values that may be NaN (see `Model/Nan` for where these come
from).  `Model/Pareto`, `Model/Selection` and `Model/Nsga2` have values of a linear order; here comparisons are those
of Python's floats, so that every comparison with NaN is false.  An evaluation whose score is NaN has no error, and
its individual becomes a member of the population (`gama/search_methods/async_ea.py` l.128-132).
-/

namespace Gama

/-- `v1 <= v2` of floats, `none` for NaN. -/
def floatLe : Option Score → Option Score → Bool
  | some x, some y => decide (x ≤ y)
  | _, _ => false

/-- `v1 > v2` of floats, `none` for NaN. -/
def floatGt : Option Score → Option Score → Bool
  | some x, some y => decide (y < x)
  | _, _ => false

/-- `all(v1 <= v2 for v1, v2 in zip(values, old_values))`, paretofront.py l.68 and l.71. -/
def floatAllLe (a b : List (Option Score)) : Bool := (a.zip b).all fun p => floatLe p.1 p.2

/-- The for loop of `update`, paretofront.py l.64-74, as `paretoScan` in `Model/Pareto`. -/
def floatScan (val : Nat → List (Option Score)) (new : Nat) : List Nat → Option (List Nat)
  | [] => some []
  | old :: rest =>
    if floatAllLe (val new) (val old) then none
    else match floatScan val new rest with
      | none => none
      | some rm => if floatAllLe (val old) (val new) then some (old :: rm) else some rm

/-- `ParetoFront.update`, paretofront.py l.35-80, of a front of individuals (which have no length, l.58-62); returns
the front afterwards. -/
def floatUpdate (val : Nat → List (Option Score)) (front : List Nat) (new : Nat) : Except Exn (List Nat) :=
  match front with
  | [] => .ok [new]
  | first :: _ =>
    if (val first).length ≠ (val new).length then .error .typeError
    else match floatScan val new front with
      | none => .ok front
      | some rm => .ok (rm.foldl List.erase front ++ [new])

/-- `ParetoFront(start_list)`, paretofront.py l.26-28. -/
def floatOffer (val : Nat → List (Option Score)) : List Nat → List Nat → Except Exn (List Nat)
  | [], front => .ok front
  | x :: xs, front => (floatUpdate val front x).bind (floatOffer val xs)

/-- `inverse_fitness`, selection.py l.37-38: `-value` of NaN is NaN. -/
def floatInverse (v : List (Option Score)) : List (Option Score) := v.map fun o => o.map fun x => -x

/-- `eliminate_from_pareto`, selection.py l.32-41: `fit` are the fitness values, `r` is the random number that
`random.choice` uses. -/
def floatEliminate (fit : Nat → List (Option Score)) (pop : List Nat) (n : Int) (r : Nat) : Except Exn (List Nat) :=
  if n ≠ 1 then .error .notImplemented
  else match floatOffer (fun i => floatInverse (fit i)) pop [] with
    | .error e => .error e
    | .ok front => match front[r % front.length]? with
      | some x => .ok [x]
      | none => .error .indexError

/-- `NSGAMeta.dominates`, nsga2.py l.25-29. -/
def floatDominates (a b : List (Option Score)) : Bool := (a.zip b).all fun p => floatGt p.1 p.2

/-- `crowd_compare(self, other) < 0`, nsga2.py l.31-36; `wider a b` stands for `a.distance > b.distance`, where
distances may be NaN as well. -/
def floatBetter (rank : Nat → Nat) (wider : Nat → Nat → Bool) (a b : Nat) : Bool :=
  decide (rank a < rank b) || (decide (rank a = rank b) && wider a b)

/-- Who wins a tournament, nsga2.py l.57. -/
def floatTournament (rank : Nat → Nat) (wider : Nat → Nat → Bool) (a b : Nat) : Nat :=
  if floatBetter rank wider a b then a else b

/-- The ranks that `fast_non_dominated_sort` gives to a population with these values, nsga2.py l.119-145. -/
def floatRanks (values : List (List (Option Score))) : Except Exn (Nat → Nat) :=
  match fastNonDominatedSort (fun p q => floatDominates (values.getD p []) (values.getD q [])) values.length with
  | .error e => .error e
  | .ok (_, s) => .ok s.rank

end Gama
