import Verif.Model.Search
import Verif.Model.Ensemble

/-!
# The search phase of `fit`: gama/gama.py l.652-663, and how it is left

The searches are the machines of `Model/Search.lean`.  Here an exception may arrive from outside at
any moment: `stopit.ThreadingTimeout` raises a `TimeoutException` in the thread when the time is up,
and the user may press Ctrl-C.  Simplification: no second exception arrives while the first is
handled, and leaving the `with AsyncEvaluator()` block (async_evaluator.py l.140-164) raises nothing.
-/

namespace Gama
open PyM

section
variable {σ ι : Type}

/-- How `search_method.search` was left and the attribute `search_method.output` at that moment. -/
structure SearchEnd (ι : Type) where
  left : Except Exn Unit
  output : List ι

/-- `AsyncEA.search`, async_ea.py l.67-72, in state `s` of `async_ea`: over, or left by exception
`outside`.  `async_ea` works on the list `self.output` itself (l.113, 120, 130, 133), so that the
attribute is up to date even if the assignment of l.70 is not reached.  `none`: it goes on. -/
def eaEnd (outside : Option Exn) (s : Ea σ ι) : Option (SearchEnd ι) :=
  match s.pc with
  | .returned => some ⟨.ok (), s.population⟩
  | .raised e => some ⟨.error e, s.population⟩
  | _ => outside.map fun e => ⟨.error e, s.population⟩

/-- `RandomSearch.search`, random_search.py l.25-28: the same, with the list that `random_search`
appends to (l.65). -/
def rsEnd (outside : Option Exn) (s : Rs σ ι) : Option (SearchEnd ι) :=
  match s.pc with
  | .returned => some ⟨.ok (), s.output⟩
  | .raised e => some ⟨.error e, s.output⟩
  | _ => outside.map fun e => ⟨.error e, s.output⟩

/-- `AsynchronousSuccessiveHalving.search`, asha.py l.76-81: `self.output` is assigned what `asha`
returns, and stays `old` if `asha` raises.  An exception from outside arrives inside the `try` of
l.168-207 and is handled there (`ashaHandle`). -/
def ashaEnd (old : List ι) (outside : Option Exn) (s : Asha σ ι) : Option (SearchEnd ι) :=
  let over : AshaPc ι → Option (SearchEnd ι)
    | .returned l => some ⟨.ok (), l⟩
    | .raised e => some ⟨.error e, old⟩
    | _ => none
  match s.pc with
  | .returned l => over (.returned l)
  | .raised e => over (.raised e)
  | _ => match outside with
    | none => none
    | some e => over (ashaHandle s.rungs e)

/-- An entry of the list given as `warm_start`. -/
inductive WarmItem (ι : Type)
  | individual (x : ι)
  /-- anything that is no `Individual` -/
  | other

/-- `isinstance(i, Individual)` -/
def WarmItem.isIndividual : WarmItem ι → Bool
  | .individual _ => true
  | .other => false

def WarmItem.get? : WarmItem ι → Option ι
  | .individual x => some x
  | .other => none

/-- The start of `_search_phase`, gama.py l.626-633: the entries of a non-empty `warm_start` are checked
and then taken as they are.  `fresh` are the random individuals of l.633. -/
def searchStart (warm : Option (List (WarmItem ι))) (finalPop fresh : List ι) :
    Except Exn (Candidates ι) :=
  match warm with
  | none => .ok (startCandidates none finalPop fresh)
  | some l =>
    if l.all WarmItem.isIndividual then
      .ok (startCandidates (some (l.filterMap WarmItem.get?)) finalPop fresh)
    else .error .typeError

/-- A list object given as `warm_start`: one of the caller's, or the very list that is the population
found by the last fit (`gama._final_pop`, which is `self._search_method.output`, l.659). -/
inductive WarmList (ι : Type)
  | own (l : List (WarmItem ι))
  | finalPop

/-- What the list holds. -/
def WarmList.items (finalPop : List ι) : WarmList ι → List (WarmItem ι)
  | .own l => l
  | .finalPop => finalPop.map .individual

/-- `searchStart` with the identity of the list, gama.py l.626-633: `pop = warm_start` is no copy. -/
def searchStartList (warm : WarmList ι) (finalPop fresh : List ι) : Except Exn (Candidates ι) :=
  match warm with
  | .own l => searchStart (some l) finalPop fresh
  | .finalPop => if finalPop.length = 0 then .ok (.list fresh) else .ok .sameAsOutput

/-- gama.py l.652-659: `with stopit.ThreadingTimeout(timeout)` swallows the `TimeoutException`, the
`except` clause a `KeyboardInterrupt`; any other exception leaves `fit`.  Then
`self._final_pop = self._search_method.output`. -/
def searchPhase (r : SearchEnd ι) : Except Exn (List ι) :=
  match r.left with
  | .ok _ => .ok r.output
  | .error .timeout => .ok r.output
  | .error .keyboardInterrupt => .ok r.output
  | .error e => .error e

/-- The rest of `fit` with `BestFitPostProcessing` as far as choosing the pipeline: gama.py l.602-616,
best_fit.py l.23-27.  `values` are the fitness values of the individuals. -/
def fitChoice (values : ι → List Score) (r : SearchEnd ι) : Except Exn ι :=
  match searchPhase r with
  | .error e => .error e
  | .ok pop => bestFit values pop

end
end Gama
