import Verif.Model.Front

/-!
# What instances share with the rest of the process

`Gama.__init__` seeds the generators of the modules `random` and `numpy` (gama.py l.277-279), which all
instances and the program that uses them draw from, and puts a `partialmethod` around
`AsyncEvaluator.__init__` (l.249-258), which all evaluators are made with.
-/

namespace Gama

/-! ### Random numbers -/

/-- Something that happens in a process: an instance is constructed, or random numbers are drawn (by a
fit, or by any other code). -/
inductive RandomEvent where
  | construct (seed : Option Nat)
  | draws (n : Nat)

/-- The numbers that are drawn next, after the events; gama.py l.277-279.  `seeded s` are the numbers after
`random.seed(s)`.  The two generators of `random` and `numpy` are taken as one. -/
def nextNumbers (seeded : Nat → Stream) : Stream → List RandomEvent → Stream
  | r, [] => r
  | r, .construct none :: es => nextNumbers seeded r es
  | _, .construct (some s) :: es => nextNumbers seeded (seeded s) es
  | r, .draws n :: es => nextNumbers seeded (fun k => r (n + k)) es

/-! ### The constructor of evaluators -/

/-- A call of `AsyncEvaluator()` when `AsyncEvaluator.__init__` is a `partialmethod` around a
`partialmethod` … around the function; the list has the keyword arguments bound, those bound last first.
`partialmethod` calls what it is put around with `{**bound, **given}`; all three arguments are bound in
each.  Each call takes one of the frames the interpreter has left (`sys.getrecursionlimit()`); without
one there is a `RecursionError`, which is a `RuntimeError`. -/
def callInit : Nat → List EvaluatorArgs → Option EvaluatorArgs → Except Exn (Option EvaluatorArgs)
  | 0, _, _ => .error .runtimeError
  | _ + 1, [], given => .ok given
  | frames + 1, bound :: inner, given => callInit frames inner (some (given.getD bound))

/-- What `AsyncEvaluator.__init__` is after instances were constructed, gama.py l.249-258, and how the
evaluators of fits (`AsyncEvaluator()`, async_ea.py l.116) are made with `frames` frames left. -/
def evaluatorCalls (frames : Nat) : List EvaluatorArgs → List GamaEvent → List (Nat × Except Exn (Option EvaluatorArgs))
  | _, [] => []
  | chain, .construct i n m :: es => evaluatorCalls frames (⟨n, m, i⟩ :: chain) es
  | chain, .fit i :: es => (i, callInit frames chain none) :: evaluatorCalls frames chain es

end Gama
