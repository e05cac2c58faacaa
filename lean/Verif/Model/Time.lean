import Verif.Model.Py
import Mathlib.Data.Rat.Floor
import Mathlib.Algebra.Order.Floor.Ring

/-! # Timekeeping

Models gama/utilities/generic/stopwatch.py, gama/utilities/generic/timekeeper.py and the
computations with time limits in gama/gama.py and
gama/genetic_programming/compilers/scikitlearn.py.  Times are rational numbers of seconds, exact;
Python has floats. -/

namespace Gama

/-- `Stopwatch`, stopwatch.py l.4-18. -/
structure Stopwatch where
  running : Bool
  start : ℚ
  stop : ℚ

/-- `Stopwatch.__enter__`, l.20-23. -/
def Stopwatch.enter (now : ℚ) : Stopwatch := ⟨true, now, 0⟩

/-- `Stopwatch.__exit__`, l.25-28. -/
def Stopwatch.exit (now : ℚ) (s : Stopwatch) : Stopwatch := { s with running := false, stop := now }

/-- `elapsed_time`, l.30-36, read when the clock shows `now`. -/
def Stopwatch.elapsed (now : ℚ) (s : Stopwatch) : ℚ :=
  if s.running then now - s.start else s.stop - s.start

/-- `Activity`, timekeeper.py l.10-13. -/
structure Activity where
  name : Str
  stopwatch : Stopwatch
  limit : Option ℚ

/-- `Activity.exceeded_limit`, l.23-27. -/
def Activity.exceeded (now margin : ℚ) (a : Activity) : Bool :=
  match a.limit with
  | some l => decide (l - a.stopwatch.elapsed now < -margin)
  | none => false

/-- `TimeKeeper`, l.30-44, with the clock.  The current activity is a position in `activities`:
`start_activity` stores the object it appends.  `opened` are the activities whose `with` block is
being executed, innermost first; it belongs to the interpreter. -/
structure Keeper where
  total : Option ℚ
  current : Option Nat
  activities : List Activity
  now : ℚ
  opened : List Nat

/-- `TimeKeeper.__init__`, l.33-44. -/
def newKeeper (total : Option ℚ) (now : ℚ) : Keeper := ⟨total, none, [], now, []⟩

/-- What can happen: time passes, an activity is started, or the innermost one ends. -/
inductive TimeEvent where
  | tick (d : ℚ)
  | begin (name : Str) (limit : Option ℚ)
  | finish (raised : Bool)

/-- Stop the watch of the activity at position `i`. -/
def stopWatch (now : ℚ) (l : List Activity) (i : Nat) : List Activity :=
  l.modify i fun a => { a with stopwatch := a.stopwatch.exit now }

/-- `start_activity`, l.87-122: the part up to `yield` is `begin`, the rest `finish`.  The statement
after the inner `with` block, l.121, is not executed if the body raises. -/
def timeStep (k : Keeper) : TimeEvent → Keeper
  | .tick d => { k with now := k.now + d }
  | .begin name limit =>
    { k with
      activities := k.activities ++ [⟨name, Stopwatch.enter k.now, limit⟩]
      current := some k.activities.length
      opened := k.activities.length :: k.opened }
  | .finish raised =>
    match k.opened with
    | [] => k
    | i :: rest =>
      { k with
        activities := stopWatch k.now k.activities i
        current := if raised then k.current else none
        opened := rest }

def timeRun (k : Keeper) (es : List TimeEvent) : Keeper := es.foldl timeStep k

/-- `total_time_remaining`, l.46-55. -/
def totalRemaining (k : Keeper) : Except Exn ℚ :=
  match k.total with
  | some t => .ok (t - (k.activities.map fun a => a.stopwatch.elapsed k.now).sum)
  | none => .error .runtimeError

/-- `self.current_activity`. -/
def currentActivity (k : Keeper) : Option Activity := k.current.bind fun i => k.activities[i]?

/-- `current_activity_time_elapsed`, l.57-66. -/
def currentElapsed (k : Keeper) : Except Exn ℚ :=
  match currentActivity k with
  | some a => .ok (a.stopwatch.elapsed k.now)
  | none => .error .runtimeError

/-- `current_activity_time_left`, l.68-85. -/
def currentLeft (k : Keeper) : Except Exn ℚ :=
  match currentActivity k with
  | some a =>
    match a.limit with
    | some l => .ok (l - a.stopwatch.elapsed k.now)
    | none => .error .runtimeError
  | none => .error .runtimeError

/-- The check after a callback, gama.py l.729-739: whether a `TimeoutException` is raised. -/
def callbackTimesOut (k : Keeper) : Bool :=
  match currentActivity k with
  | some a => a.exceeded k.now 3
  | none => false

/-! ### Budgets -/

/-- Python's `int()` of a float: towards zero. -/
def pyInt (q : ℚ) : Int := if 0 ≤ q then ⌊q⌋ else ⌈q⌉

/-- Python's `round()` of a float: to the nearest, ties to even. -/
def pyRound (q : ℚ) : Int :=
  if q - ⌊q⌋ < 1 / 2 then ⌊q⌋
  else if 1 / 2 < q - ⌊q⌋ then ⌊q⌋ + 1
  else if ⌊q⌋ % 2 = 0 then ⌊q⌋ else ⌊q⌋ + 1

/-- The limit of the search phase, gama.py l.578-588. -/
def searchLimit (fraction : ℚ) (k : Keeper) : Except Exn Int :=
  match totalRemaining k with
  | .error e => .error e
  | .ok r => if r < 0 then .error .runtimeError else .ok (pyInt ((1 - fraction) * r))

/-- The limit of post-processing, gama.py l.599. -/
def postprocessLimit (k : Keeper) : Except Exn Int :=
  match totalRemaining k with
  | .error e => .error e
  | .ok r => .ok (pyInt r)

/-- Validation of the time arguments, gama.py l.238-247, then `_max_eval_time`, l.260-269 (of `n_jobs`
see `Model/Front.lean`).  The arguments are integers. -/
def maxEvalTime (maxTotal maxEval : Option Int) : Except Exn Int :=
  match maxTotal with
  | none => .error .valueError
  | some t =>
    if t ≤ 0 then .error .valueError
    else
      match maxEval with
      | some e =>
        if e ≤ 0 then .error .valueError
        else .ok (if t < e then t else e)
      | none =>
        let e := pyRound ((1 / 10 : ℚ) * t)
        .ok (if t < e then t else e)

/-- The timeout of an evaluation, scikitlearn.py l.198-200. -/
def evalTimeout (timeout : ℚ) (deadline : Option ℚ) (now : ℚ) : ℚ :=
  match deadline with
  | some d => min timeout (d - now)
  | none => timeout

/-- The timeout check of `evaluate_pipeline`, scikitlearn.py l.78-79: the time the evaluation gets. -/
def pipelineTimeout (timeout : ℚ) (deadline : Option ℚ) (now : ℚ) : Except Exn ℚ :=
  if evalTimeout timeout deadline now ≤ 0 then .error .valueError
  else .ok (evalTimeout timeout deadline now)

/-- `deadline = time.time() + timeout` of `_search_phase`, gama.py l.635. -/
def searchDeadline (now : ℚ) (limit : Int) : ℚ := now + limit

end Gama
