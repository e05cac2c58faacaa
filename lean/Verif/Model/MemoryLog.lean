import Verif.Model.Async
import Verif.Model.Logs

/-!
# The memory log

What `AsyncEvaluator._log_memory_usage` (`gama/utilities/generic/async_evaluator.py` l.305-313) writes to `memory.log`
(`gama/gama.py` l.256).  Files are texts.  The text of a time (`isoformat`) and of a number of megabytes (`str` of a
float) are parameters; process numbers are written in decimal.
-/

namespace Gama
open PyM

section
variable {Fn V E : Type}

/-- The line that is written, l.309-313. -/
def memoryLine (time : Str) (usage : List (Str × Str)) : Str :=
  time ++ ',' :: joinWith [','] (usage.map fun u => u.1 ++ ',' :: u.2) ++ ['\n']

/-- `_log_memory_usage`, l.305-313; `none` if nothing is written, otherwise what is appended to the file.  `osPid`
gives the numbers of the processes (workers are counted in `Model/Async`, `none` is the main process). -/
def logMemory (osPid : Option Nat → Nat) (mbText : ℚ → Str) (time : Str) (r : Readings) :
    PyM (Evaluator Fn V E) (Option Str) := do
  let s ← get
  if s.logfile then do
    let usage ← memoryUsage r
    pure (some (memoryLine time ((Nat.toDigits 10 (osPid none), mbText r.main) ::
      usage.map fun u => (Nat.toDigits 10 (osPid (some u.1)), mbText u.2))))
  else pure none

end
end Gama
