import Verif.Model.Search
import Verif.Model.Front
import Verif.Model.Time

/-!
# A search whose time has run out

`_safe_outside_call` (gama.py l.716-739) looks at the clock after every callback, since the exception with
which `stopit` ends a search may have been swallowed in one ("This can result in GAMA running
indefinitely", l.733-739).  The definitions here put that check together with what makes callbacks be
called at all: `OperatorSet.wait_next` (operator_set.py l.43-50), and the refusal of evaluations that begin
after the deadline (scikitlearn.py l.78-79, 198-200).
-/

namespace Gama

/-- The activity of the search, gama.py l.583-588, whose stopwatch was started at `started`. -/
def searchActivity (started : ℚ) (limit : Int) : Activity :=
  ⟨"search".toList, Stopwatch.enter started, some limit⟩

/-- A passage through `OperatorSet.wait_next`, operator_set.py l.43-50. -/
structure Passage (σ C : Type) where
  /-- when the worker process began the evaluation: `time.time()`, scikitlearn.py l.199 -/
  begun : ℚ
  /-- when the main process has the future, operator_set.py l.45 -/
  back : ℚ
  /-- which of the pending jobs it is -/
  index : Nat
  /-- what the evaluation gives if it is not refused for its timeout -/
  outcome : Completion
  /-- how the callbacks end, if they are called -/
  call : C → CallEnd
  /-- when the callbacks have ended -/
  clock : C → ℚ
  /-- the state of the program after the callbacks -/
  world : σ

/-- What the worker sends: `evaluate_individual`, scikitlearn.py l.193-202, with the check of l.78-79,
whose `ValueError` becomes the exception of the future (async_evaluator.py l.52-58). -/
def Passage.sent {σ C : Type} (maxEval deadline : ℚ) (p : Passage σ C) : Completion :=
  match pipelineTimeout maxEval (some deadline) p.begun with
  | .error _ => .failed
  | .ok _ => p.outcome

/-- `OperatorSet.wait_next`, operator_set.py l.43-50, with `_on_evaluation_completed` and
`_safe_outside_call`, gama.py l.716-743, in the activity `act`. -/
def passageWait {σ C : Type} (act : Activity) (maxEval deadline : ℚ) (cbs : List C) (p : Passage σ C) :
    Wait σ :=
  match p.sent maxEval deadline with
  | .failed => .completes p.index .failed p.world
  | .result b score =>
    match (onWait p.call (fun cb => act.exceeded (p.clock cb) 3) cbs true).2 with
    | .error e => .raises e
    | .ok _ => .completes p.index (.result b score) p.world

end Gama
