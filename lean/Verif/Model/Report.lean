import Verif.Model.Logs

/-!
# Making a report

`GamaReport.__init__`, GamaReport.py l.19-68: the lines of `gama.log` are searched for the arguments
of the run and its finished phases, then `evaluations.log` is read.  Directories and missing files are
not modelled; `print(activity)` (l.54) is left out.
-/

namespace Gama

/-- `fh.readlines()`: the lines of a text, each with its line end. -/
def readlines : Str → List Str
  | [] => []
  | c :: s =>
    if c = '\n' then ['\n'] :: readlines s
    else match readlines s with
      | [] => [[c]]
      | l :: ls => (c :: l) :: ls

/-- `tok in s` -/
def occursIn (tok : Str) : Str → Bool
  | [] => (afterPrefix tok []).isSome
  | c :: s => (afterPrefix tok (c :: s)).isSome || occursIn tok s

/-- `"INIT:"` -/
def initMark : Str := ['I', 'N', 'I', 'T', ':']

/-- `"STOP:"` -/
def stopMark : Str := ['S', 'T', 'O', 'P', ':']

/-- An entry of `phases`, GamaReport.py l.37 and l.58. -/
structure PhaseRow where
  phase : Str
  algorithm : Str
  start : ℚ
  duration : ℚ
  deriving DecidableEq

/-- What was found in the lines of `gama.log` so far. -/
structure LogFacts where
  hyperparameters : Option (List (Str × Str))
  phases : List PhaseRow

/-- The loop body, GamaReport.py l.47-58.  `stamp` is `datetime.strptime` in the format of l.53 and
`seconds` is `float`; points in time are numbers of seconds. -/
def scanLine (stamp seconds : Str → Except Exn ℚ) (f : LogFacts) (line : Str) :
    Except Exn LogFacts := do
  let hps ← if occursIn initMark line then (initToHps line).map some else .ok f.hyperparameters
  if occursIn stopMark line then
    let (phase, algorithm, time, duration) ← readStop line
    let stop ← stamp time
    let d ← seconds duration
    .ok ⟨hps, f.phases ++ [⟨phase, algorithm, stop - d, d⟩]⟩
  else .ok ⟨hps, f.phases⟩

/-- The loop, l.47-58. -/
def scanLines (stamp seconds : Str → Except Exn ℚ) : LogFacts → List Str → Except Exn LogFacts
  | f, [] => .ok f
  | f, l :: ls => do scanLines stamp seconds (← scanLine stamp seconds f l) ls

/-- `self.hyperparameters[name]` -/
def hpGet (hps : List (Str × Str)) (name : Str) : Except Exn Str :=
  match dget hps name with
  | some v => .ok v
  | none => .error .keyError

/-- `self.metrics`, l.60-62.  The condition of l.61 is a text: it holds unless the text is empty. -/
def reportMetrics (scoring regularize : Str) : List Str :=
  splitOnChar ',' scoring ++
    if regularize ≠ [] then [['l', 'e', 'n', 'g', 't', 'h']] else []

/-- A `GamaReport`; `evaluations` is the state that `update` works on, with `incomplete`. -/
structure RunReport (M I : Type) where
  hyperparameters : List (Str × Str)
  phases : List PhaseRow
  metrics : List Str
  evaluations : Report M I
  search : Str

/-- `GamaReport.__init__`, l.35-68, on the texts of `gama.log` and `evaluations.log`.  Without a line
`INIT:` the attribute `hyperparameters` does not exist (l.60). -/
def makeReport {M I : Type} [LinearOrder M] (C : Conversions M I) (stamp seconds : Str → Except Exn ℚ)
    (gamaLog evaluationsLog : Str) : Except Exn (RunReport M I) := do
  let facts ← scanLines stamp seconds ⟨none, []⟩ (readlines (universal gamaLog))
  match facts.hyperparameters with
  | none => .error .attributeError
  | some hps =>
    let scoring ← hpGet hps ['s', 'c', 'o', 'r', 'i', 'n', 'g']
    let regularize ← hpGet hps
      ['r', 'e', 'g', 'u', 'l', 'a', 'r', 'i', 'z', 'e', '_', 'l', 'e', 'n', 'g', 't', 'h']
    let metrics := reportMetrics scoring regularize
    let (res, r) := update C evaluationsLog true
      (newReport (decide (facts.phases.length < 3)) metrics.length)
    let _ ← res
    let search ← hpGet hps ['s', 'e', 'a', 'r', 'c', 'h']
    .ok ⟨hps, facts.phases, metrics, r, search⟩

end Gama
