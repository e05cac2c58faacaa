import Verif.Model.Operators
import Verif.Model.Nsga2
import Verif.Model.Pareto

/-!
# Selection operators

Models `gama/genetic_programming/selection.py`.
-/

namespace Gama
open PyM

/-- `random.random() < p`; `random.random()` returns a multiple of `2⁻⁵³` in `[0, 1)`. -/
def randomBelow {σ : Type} [HasRand σ] (p : ℚ) : PyM σ Bool := do
  let d ← draw
  pure (decide (((d % 2 ^ 53 : Nat) : ℚ) / 2 ^ 53 < p))

/-- `ind.fitness.values`; `fitness` is `None` until the individual was evaluated. -/
def fitnessValues (i : Nat) : GP (List Score) := do
  let ind ← getInd i
  match ind.fitness with
  | none => raise .attributeError
  | some v => pure v

/-- The two metrics of `create_from_population` on one individual, selection.py l.21 (as
collected by `NSGAMeta.__init__`, nsga2.py l.19). -/
def twoMetrics (i : Nat) : GP (List Score) := do
  let v ← fitnessValues i
  match v with
  | a :: b :: _ => pure [a, b]
  | _ => raise .indexError

/-- Evaluating a function on each element of a list, in order. -/
def mapGP {α β : Type} (f : α → GP β) : List α → GP (List β)
  | [] => pure []
  | x :: xs => do
    let y ← f x
    let ys ← mapGP f xs
    pure (y :: ys)

/-- One offspring of one parent pair, selection.py l.24-28. -/
def offspringOf (c : OpConfig) (cxpb : ℚ) (i j : Nat) : GP Nat := do
  let b ← randomBelow cxpb
  if b then
    let fs ← validCrossoverFunctions i j
    if fs.length > 0 then opMate c i j else opMutate c i
  else opMutate c i

/-- `create_from_population`, selection.py l.12-29.  `mutpb` is not used by the code. -/
def createFromPopulation (c : OpConfig) (pop : List Nat) (n : Int) (cxpb : ℚ) : GP (List Nat) := do
  if pop.length < 3 then raise .valueError
  let values ← mapGP twoMetrics pop
  let pairs ← nsga2Select values n
  mapGP (fun p => offspringOf c cxpb (pop.getD p.1 0) (pop.getD p.2 0)) pairs

/-- The fitness values that building the front looks at: none for fewer than two members. -/
def frontValues (pop : List Nat) : GP (List (List Score)) :=
  if pop.length < 2 then pure [] else mapGP fitnessValues pop

/-- `eliminate_from_pareto`, selection.py l.32-41.  Individuals compare equal by identity.
Simplification: the fitness of all members of a population of two or more is read before the
front is built (the code reads it while building; nothing is modified in between). -/
def eliminateFromPareto (pop : List Nat) (n : Int) : GP (List Nat) :=
  if n ≠ 1 then raise .notImplemented
  else do
    let values ← frontValues pop
    let inverse := fun i => (values.getD (pop.idxOf i) []).map fun v => -v
    match paretoOffer false inverse pop [] with
    | (.error e, _) => raise e
    | (.ok _, front) => do
      let x ← choice front
      pure [x]

end Gama
