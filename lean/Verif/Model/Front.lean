import Verif.Model.Py
import Verif.Model.Dict
import Verif.Model.Time
import Mathlib.Data.Rat.Floor

/-!
# The front end: construction, output directory, callbacks

Models parts of `gama/gama.py`.  The file system is seen only as far as the output directory: whether
it is there, and which files and folders it holds.  Of the arguments only what the modelled code looks
at is kept.
-/

namespace Gama

/-! ### The output directory -/

/-- Something in the output directory: a file, or a folder with the names of what is in it. -/
inductive Item where
  | file
  | folder (names : List Str)
  deriving DecidableEq

/-- What is at the path of the output directory. -/
inductive Place where
  /-- nothing; `parent` tells whether the folder it would be created in exists -/
  | missing (parent : Bool)
  /-- a file -/
  | regular
  | dir (entries : List (Str × Item))
  deriving DecidableEq

/-- `".log"` -/
def logSuffix : Str := ['.', 'l', 'o', 'g']
/-- `"cache"` -/
def cacheName : Str := ['c', 'a', 'c', 'h', 'e']
/-- `"gama.log"` -/
def gamaLog : Str := ['g', 'a', 'm', 'a', '.', 'l', 'o', 'g']
/-- `"evaluations.log"` -/
def evaluationsLog : Str :=
  ['e', 'v', 'a', 'l', 'u', 'a', 't', 'i', 'o', 'n', 's', '.', 'l', 'o', 'g']
/-- `"memory.log"` -/
def memoryLog : Str := ['m', 'e', 'm', 'o', 'r', 'y', '.', 'l', 'o', 'g']

/-- `file.endswith(".log")` -/
def isLog (name : Str) : Bool := logSuffix.isSuffixOf name

/-- The parameter `which` of `cleanup`. -/
inductive Which where
  | evaluations | logs | all
  deriving DecidableEq

/-- The loop gama.py l.344-346 over a listing of the directory: `os.remove` fails for a folder. -/
def removeLogs : List (Str × Item) → List (Str × Item) → Except Exn Unit × List (Str × Item)
  | [], es => (.ok (), es)
  | (n, i) :: rest, es =>
    if isLog n then
      match i with
      | .file => removeLogs rest (ddel es n)
      | .folder _ => (.error .osError, es)
    else removeLogs rest es

/-- `cleanup`, gama.py l.338-350.  `shutil.rmtree` fails for a file, `os.rmdir` for a directory that
is not empty.  The parent of a directory that exists is taken to exist. -/
def cleanup (which : Which) (p : Place) : Except Exn Unit × Place :=
  match p with
  | .missing parent => (.ok (), .missing parent)
  | .regular =>
    match which with
    | .evaluations => (.ok (), .regular)
    | _ => (.error .osError, .regular)
  | .dir es =>
    match (if which = .evaluations then (.ok (), es) else removeLogs es es) with
    | (.error e, es') => (.error e, .dir es')
    | (.ok _, es') =>
      match (if which = .logs then none else dget es' cacheName) with
      | some .file => (.error .osError, .dir es')
      | c =>
        let es'' := if c.isSome then ddel es' cacheName else es'
        if which = .all then
          if es'' = [] then (.ok (), .missing true) else (.error .osError, .dir es'')
        else (.ok (), .dir es'')

/-- Opening a file of the output directory for writing or appending. -/
def touch (name : Str) (p : Place) : Except Exn Unit × Place :=
  match p with
  | .missing parent => (.error .fileNotFound, .missing parent)
  | .regular => (.error .osError, .regular)
  | .dir es =>
    match dget es name with
    | some (.folder _) => (.error .osError, .dir es)
    | _ => (.ok (), .dir (dset es name .file))

/-! ### Construction -/

/-- The arguments of `Gama.__init__` that the modelled code looks at. -/
structure InitArgs where
  /-- a post-processing method is given, or the preset is a known one -/
  presetKnown : Bool
  nJobs : Option Int
  maxTotalTime : Option Int
  maxEvalTime : Option Int
  /-- `store in {"logs", "all"}` -/
  logs : Bool
  /-- the exception of `scoring_to_metric(scoring)`, if any -/
  scoringError : Option Exn
  /-- the exception of `pset_from_config(search_space)`, if any -/
  spaceError : Option Exn
  /-- the search space has preprocessing steps -/
  preprocessing : Bool
  maxLength : Option Int
  /-- `multiprocessing.cpu_count()` -/
  cpus : Nat

/-- What an instance is constructed with. -/
structure Instance where
  nJobs : Int
  maxTotalTime : Int
  maxEvalTime : Int
  maxLength : Option Int
  maxStartLength : Int
  deriving DecidableEq

/-- `n_jobs`, l.231-236. -/
def resolveJobs (a : InitArgs) : Int :=
  match a.nJobs with
  | none => (a.cpus : Int) / 2
  | some n => if n = -1 then a.cpus else n

/-- The conditions of l.238-245: whether `err` is set. -/
def refused (a : InitArgs) : Bool :=
  (match a.maxTotalTime with | none => true | some t => decide (t ≤ 0)) ||
  (match a.maxEvalTime with | none => false | some t => decide (t ≤ 0)) ||
  decide (resolveJobs a < -1) || decide (resolveJobs a = 0)

/-- `max_pipeline_length` after l.306-317. -/
def resolveLength (a : InitArgs) : Except Exn (Option Int) :=
  if a.preprocessing then .ok a.maxLength
  else
    match a.maxLength with
    | none => .ok (some 1)
    | some n => if 1 < n then .error .valueError else .ok (some n)

/-- l.200-210: the output directory is made, or found to be empty. -/
def openDirectory (p : Place) : Except Exn Place :=
  match p with
  | .missing true => .ok (.dir [])
  | .missing false => .error .fileNotFound
  | .regular => .error .osError
  | .dir [] => .ok (.dir [])
  | .dir (_ :: _) => .error .valueError

/-- l.260-336 of `__init__`, after the arguments were checked. -/
def initRest (a : InitArgs) (total eval : Int) (es : List (Str × Item)) :
    Except Exn Instance × Place :=
  match a.scoringError with
  | some e => (.error e, .dir es)
  | none =>
    -- l.290-302: the cache, and the header of the log of evaluations
    let es' := dset (if (dget es cacheName).isSome then es else dset es cacheName (.folder []))
      evaluationsLog .file
    match a.spaceError with
    | some e => (.error e, .dir es')
    | none =>
      match resolveLength a with
      | .error e => (.error e, .dir es')
      | .ok len => (.ok ⟨resolveJobs a, total, eval, len, len.getD 3⟩, .dir es')

/-- `Gama.__init__`, l.182-336.  Arguments of other types than documented are not modelled. -/
def gamaInit (a : InitArgs) (p : Place) : Except Exn Instance × Place :=
  if a.presetKnown then
    match openDirectory p with
    | .error e => (.error e, p)
    | .ok d =>
      -- l.212-219
      match (if a.logs then touch gamaLog d else (.ok (), d)) with
      | (.error e, d') => (.error e, d')
      | (.ok _, d') =>
        if refused a then
          -- l.245-247
          match cleanup .all d' with
          | (.error e, d'') => (.error e, d'')
          | (.ok _, d'') => (.error .valueError, d'')
        else
          match a.maxTotalTime, d' with
          | some total, .dir es =>
            match maxEvalTime (some total) a.maxEvalTime with
            | .error e => (.error e, d')
            | .ok eval => initRest a total eval es
          | _, _ => (.error .dangling, d')
  else (.error .valueError, p)

/-! ### After fit -/

/-- The parameter `store`. -/
inductive Store where
  | nothing | models | logs | all
  /-- any other text -/
  | other
  deriving DecidableEq

/-- gama.py l.617-619. -/
def fitCleanup (store : Store) (p : Place) : Except Exn Unit × Place :=
  match store with
  | .all => (.ok (), p)
  | .nothing => cleanup .all p
  | .logs => cleanup .evaluations p
  | .models => cleanup .logs p
  | .other => (.error .keyError, p)

/-- Pickling an evaluation into the cache, evaluation_library.py l.45-50: the folder has to exist. -/
def cacheEvaluation (name : Str) (p : Place) : Except Exn Unit × Place :=
  match p with
  | .dir es =>
    match dget es cacheName with
    | some (.folder names) => (.ok (), .dir (dset es cacheName (.folder (names ++ [name]))))
    | _ => (.error .fileNotFound, p)
  | _ => (.error .fileNotFound, p)

/-- What `fit` writes to the output directory: the memory log when the evaluator is entered,
async_evaluator.py l.137 and l.312, then for each evaluation a model if it is to be kept
(evaluation_library.py l.235 and l.244) and a line in the log of evaluations.  These two happen in
callbacks, whose exceptions are swallowed (gama.py l.722-727): `stored` lists the models that were
stored. -/
def fitWrites : List Str → Place → List Str × Place
  | [], p => ([], p)
  | name :: rest, p =>
    match cacheEvaluation name p with
    | (.ok _, p') =>
      let r := fitWrites rest (touch evaluationsLog p').2
      (name :: r.1, r.2)
    | (.error _, p') => fitWrites rest (touch evaluationsLog p').2

/-- `fit`, as far as the output directory is concerned: the models stored. -/
def fitFiles (store : Store) (models : List Str) (p : Place) : Except Exn (List Str) × Place :=
  match touch memoryLog p with
  | (.error e, p') => (.error e, p')
  | (.ok _, p') =>
    match fitCleanup store (fitWrites models p').2 with
    | (.error e, p'') => (.error e, p'')
    | (.ok _, p'') => (.ok (fitWrites models p').1, p'')

/-! ### Callbacks -/

/-- How a call of a callback ends: it returns, raises an `Exception`, raises the timeout of `stopit`,
or raises something that is not an `Exception` such as `KeyboardInterrupt`. -/
inductive CallEnd where
  | returns | raises | timeout | interrupt
  deriving DecidableEq

/-- `_safe_outside_call`, gama.py l.716-739, of a call that ends as given; `late` is the condition of
l.729-732 afterwards (`callbackTimesOut`). -/
def safeOutsideCall (call : CallEnd) (late : Bool) : Except Exn Unit :=
  match call with
  | .timeout => .error .timeout
  | .interrupt => .error .keyboardInterrupt
  | _ => if late then .error .timeout else .ok ()

/-- `_on_evaluation_completed`, gama.py l.741-743: the callbacks called, and how it ends.  `call cb`
and `late cb` tell how the call of `cb` ends and whether it is late afterwards.  Callbacks that
register callbacks are in `Model/Callbacks`. -/
def onEvaluation {C : Type} (call : C → CallEnd) (late : C → Bool) :
    List C → List C × Except Exn Unit
  | [] => ([], .ok ())
  | cb :: cbs =>
    match safeOutsideCall (call cb) (late cb) with
    | .error e => ([cb], .error e)
    | .ok _ =>
      let r := onEvaluation call late cbs
      (cb :: r.1, r.2)

/-- `OperatorSet.wait_next`, operator_set.py l.43-50, after the evaluator returned a future: the
callbacks called. -/
def onWait {C : Type} (call : C → CallEnd) (late : C → Bool) (cbs : List C) (result : Bool) :
    List C × Except Exn Unit :=
  if result then onEvaluation call late cbs else ([], .ok ())

/-! ### The defaults of the evaluator -/

/-- The keyword arguments `Gama.__init__` binds to `AsyncEvaluator.__init__`, l.249-258. -/
structure EvaluatorArgs where
  workers : Int
  memory : Option Nat
  /-- the instance in whose directory the memory log is -/
  logOf : Nat
  deriving DecidableEq

/-- Construction of an instance, or a call of `fit` (which makes an `AsyncEvaluator()`). -/
inductive GamaEvent where
  | construct (inst : Nat) (workers : Int) (memory : Option Nat)
  | fit (inst : Nat)
  deriving DecidableEq

/-- The arguments with which the evaluators are made.  A `partialmethod` of a `partialmethod` has the
keyword arguments bound last. -/
def evaluatorRun : Option EvaluatorArgs → List GamaEvent → List (Nat × Option EvaluatorArgs)
  | _, [] => []
  | _, .construct i n m :: es => evaluatorRun (some ⟨n, m, i⟩) es
  | d, .fit i :: es => (i, d) :: evaluatorRun d es

/-! ### Metrics -/

/-- An iterable: one that can be gone through again (list, tuple, set) or only once (an iterator). -/
inductive Iterable' (α : Type) where
  | many (l : List α)
  | once (l : List α)

/-- Going through an iterable: the elements, and the iterable afterwards. -/
def Iterable'.drain {α : Type} : Iterable' α → List α × Iterable' α
  | .many l => (l, .many l)
  | .once l => (l, .once [])

/-- `scoring_to_metric` of an iterable, metrics.py l.74-83; `valid` is the type check, `conv` the
conversion.  The check goes through all elements if they are valid. -/
def scoringToMetric {α M : Type} (valid : α → Bool) (conv : α → Except Exn M) (s : Iterable' α) :
    Except Exn (List M) × Iterable' α :=
  if s.drain.1.all valid then ((s.drain.2.drain.1.mapM conv), s.drain.2.drain.2)
  else (.error .typeError, s.drain.2)

end Gama
