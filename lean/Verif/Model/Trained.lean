import Verif.Model.Phase
import Verif.Model.Selection

/-!
# The pipeline that `fit` trains by default

`fitChoice` of `Phase.lean`, with the fitness that the individuals have when the search is over.
-/

namespace Gama
open PyM

/-- `ind.fitness.values`, of an individual that has a fitness. -/
def valuesIn (w : World) (x : Nat) : List Score := ((w.inds[x]?).bind IndCell.fitness).getD []

/-- `sorted(self._final_pop, key=lambda ind: ind.fitness.values)`, gama/gama.py l.602-609: the keys are
computed first, in order, and raise an `AttributeError` for an individual that has no fitness.  Then
`BestFitPostProcessing.post_process`, gama/postprocessing/best_fit.py l.23-27, takes the best. -/
def trainedOf (pop : List Nat) (w : World) : Except Exn Nat :=
  match mapGP fitnessValues pop w with
  | (.error e, _) => .error e
  | (.ok _, _) => bestFit (valuesIn w) pop

/-- `fit` from the end of the search to the pipeline that is trained, gama/gama.py l.597-618. -/
def trained (w : World) (r : SearchEnd Nat) : Except Exn Nat :=
  match searchPhase r with
  | .error e => .error e
  | .ok pop => trainedOf pop w

end Gama
