import Verif.Model.Dict
import Mathlib.Data.Rat.Defs
import Mathlib.Algebra.Order.Ring.Rat

/-!
# The asynchronous evaluator

Models `gama/utilities/generic/async_evaluator.py`: the main process, its worker processes and
the three queues between them, as a transition system.  One event is one atomic action of the
main process or of one worker; a schedule is a list of events, so all interleavings are covered.

`Fn` are function objects, `V` Python values, `E` exceptions, `Ω` whatever else the outcome of a
call may depend on (time, other processes).

Assumptions about the runtime (see DESIGN.md): queues are reliable FIFO queues whose `put` takes
effect at once, pickling is faithful, `uuid4` gives fresh ids, process ids are not reused.
-/

namespace Gama
open PyM

/-- What calling a job's function does: return, raise an `Exception`, or raise another
`BaseException` such as `SystemExit`. -/
inductive Outcome (V E : Type)
  | returns (v : V) | raises (e : E) | escapes

/-- What the daemon finds when it looks at a result, async_evaluator.py l.357-365: falsy; an
object (or first tuple item) with an `error` that is no MemoryError; one with a MemoryError; one
whose inspection raises, e.g. for want of an `error` attribute; one whose inspection raises a
MemoryError. -/
inductive Probe
  | falsy | fine | memoryError | raises | raisesMemory
  deriving DecidableEq

/-- The functions that are evaluated, and the values they return. -/
structure Jobs (Fn V E Ω : Type) where
  call : Fn → List V → (Str → Option V) → Ω → Outcome V E
  probe : V → Probe
  /-- `result.error = "MemoryError"`, l.364 -/
  withoutMemoryError : V → V

/-- The values of `AsyncFuture.exception`: what the function raised, or
`str(type(e))` (l.369). -/
inductive Failure (E : Type)
  | raised (e : E) | memory

/-- `AsyncFuture`, l.38-48.  The traceback is left out. -/
structure Future (Fn V E : Type) where
  id : Nat
  fn : Fn
  args : List V
  kwargs : List (Str × V)
  result : Option V
  exception : Option (Failure E)

/-- A worker process: the local variable `future` of `evaluator_daemon`, whether it is between
`input_queue.get` and `output_queue.put`, and whether the process runs. -/
structure Worker (Fn V E : Type) where
  cur : Option (Future Fn V E)
  busy : Bool
  alive : Bool

/-- The main process' `AsyncEvaluator` (l.98-120), the queues and all workers ever started (the
process id is the position in `workers`). -/
structure Evaluator (Fn V E : Type) where
  nJobs : Nat
  limit : Option ℚ
  logfile : Bool
  /-- `AsyncEvaluator.defaults`.  Simplification: not changed while workers run. -/
  defaults : List (Str × V)
  hasEntered : Bool
  futures : List (Nat × Future Fn V E)
  procs : List Nat
  violations : Nat
  behaved : Nat
  jobQueueSize : Int
  input : List (Future Fn V E)
  output : List (Future Fn V E)
  commands : Nat
  workers : List (Worker Fn V E)
  nextId : Nat
  /-- the main process is inside `wait_next` -/
  waiting : Bool

section
variable {Fn V E Ω : Type}

/-- `AsyncEvaluator.__init__`, l.98-120. -/
def newEvaluator (n : Nat) (limit : Option ℚ) (logfile : Bool) (defaults : List (Str × V)) :
    Evaluator Fn V E where
  nJobs := n
  limit := limit
  logfile := logfile
  defaults := defaults
  hasEntered := false
  futures := []
  procs := []
  violations := 0
  behaved := 0
  jobQueueSize := -(n : Int)
  input := []
  output := []
  commands := 0
  workers := []
  nextId := 0
  waiting := false

/-- `_start_worker_process`, l.237-247. -/
def startWorker : PyM (Evaluator Fn V E) Unit := modify fun s =>
  { s with workers := s.workers ++ [⟨none, false, true⟩], procs := s.procs ++ [s.workers.length] }

def startWorkers : Nat → PyM (Evaluator Fn V E) Unit
  | 0 => pure ()
  | n + 1 => do
    startWorker
    startWorkers n

/-- A worker process that no longer runs. -/
def kill (s : Evaluator Fn V E) (pid : Nat) : List (Worker Fn V E) :=
  match s.workers[pid]? with
  | none => s.workers
  | some w => s.workers.set pid { w with alive := false }

/-- What psutil says when asked to terminate and wait for a process. -/
inductive StopOutcome
  | ok | gone | timeout
  deriving DecidableEq

/-- `self._processes.remove(process)`, l.254 -/
def removeProc (pid : Nat) : PyM (Evaluator Fn V E) Unit := do
  let s ← get
  if pid ∈ s.procs then modify fun s => { s with procs := s.procs.erase pid }
  else raise .valueError

/-- `_stop_worker_process`, l.249-254: `terminate` or `wait` may raise `NoSuchProcess`, `wait` may
raise `TimeoutExpired`. -/
def stopWorker (pid : Nat) (o : StopOutcome) : PyM (Evaluator Fn V E) Unit :=
  match o with
  | .ok => do
      modify fun s => { s with workers := kill s pid, jobQueueSize := s.jobQueueSize - 1 }
      removeProc pid
  | .gone => do
      modify fun s => { s with workers := kill s pid }
      raise .noSuchProcess
  | .timeout => raise .timeout

/-- The memory use of the main process and of each worker in MB; `none` stands for
`NoSuchProcess`. -/
structure Readings where
  main : ℚ
  worker : Nat → Option ℚ

/-- `_get_memory_usage`, l.315-323, over a snapshot of the worker list. -/
def usageLoop (r : Readings) : List Nat → PyM (Evaluator Fn V E) (List (Nat × ℚ))
  | [] => pure []
  | p :: ps =>
    match r.worker p with
    | some mb => do
      let rest ← usageLoop r ps
      pure ((p, mb) :: rest)
    | none => do
      modify fun s => { s with workers := kill s p, procs := s.procs.filter fun q => q != p }
      startWorker
      usageLoop r ps

def memoryUsage (r : Readings) : PyM (Evaluator Fn V E) (List (Nat × ℚ)) := do
  let s ← get
  usageLoop r s.procs

/-- `_log_memory_usage`, l.305-313 (what is written is left out). -/
def logUsage (r : Readings) : PyM (Evaluator Fn V E) Unit := do
  let s ← get
  if s.logfile then do
    let _ ← memoryUsage r
    pure ()
  else pure ()

/-- `max(..., key=lambda t: t[1])`: the first of the largest. -/
def maxUsage : List (Nat × ℚ) → Option (Nat × ℚ)
  | [] => none
  | x :: xs => some (xs.foldl (fun a b => if a.2 < b.2 then b else a) x)

/-- l.288-302: restart the process or do without it. -/
def restartOrKill (pid : Nat) (o : StopOutcome) : PyM (Evaluator Fn V E) Unit := do
  let s ← get
  if (s.violations : ℚ) / ((s.violations : ℚ) + s.behaved) < 1 / 20 ∨ s.procs.length = 1 then do
    stopWorker pid o
    startWorker
  else do
    modify fun s => { s with behaved := 0, violations := 0 }
    stopWorker pid o

/-- `_control_memory_usage`, l.256-303.  `r` are the readings taken for the decision, `r'` those
taken for the log (l.284).  Floats are exact. -/
def controlMemory (r r' : Readings) (o : StopOutcome) : PyM (Evaluator Fn V E) Unit := do
  let s ← get
  match s.limit with
  | none => pure ()
  | some limit => do
    let usage ← memoryUsage r
    if limit < r.main + (usage.map Prod.snd).sum then do
      logUsage r'
      modify fun s => { s with violations := s.violations + 1 }
      match maxUsage usage with
      | none => raise .valueError
      | some (pid, _) => restartOrKill pid o
    else pure ()

/-- `submit`, l.172-194. -/
def submit (fn : Fn) (args : List V) (kwargs : List (Str × V)) :
    PyM (Evaluator Fn V E) (Future Fn V E) := do
  let s ← get
  let f : Future Fn V E := ⟨s.nextId, fn, args, kwargs, none, none⟩
  modify fun s => { s with
    nextId := s.nextId + 1
    futures := dset s.futures f.id f
    input := s.input ++ [f]
    jobQueueSize := s.jobQueueSize + 1 }
  pure f

/-- l.221-235: look for a completed future once.  `none`: `queue.Empty`. -/
def pollOutput : PyM (Evaluator Fn V E) (Option (Future Fn V E)) := do
  let s ← get
  match s.output with
  | [] => pure none
  | f :: rest => do
    modify fun s => { s with output := rest, jobQueueSize := s.jobQueueSize - 1 }
    match dget s.futures f.id with
    | none => raise .keyError
    | some m => do
      modify fun s => { s with futures := ddel s.futures f.id, behaved := s.behaved + 1 }
      pure (some { m with result := f.result, exception := f.exception })

/-- One iteration of the loop of `wait_next`, l.217-235. -/
def waitIteration (r₁ r₂ r₃ : Readings) (o : StopOutcome) :
    PyM (Evaluator Fn V E) (Option (Future Fn V E)) := do
  controlMemory r₁ r₂ o
  logUsage r₃
  pollOutput

/-- The test at the start of `wait_next`, l.215-216. -/
def waitBegin : PyM (Evaluator Fn V E) Unit := do
  let s ← get
  if s.futures.length = 0 then raise .runtimeError
  else modify fun s => { s with waiting := true }

/-- `AsyncFuture.execute`, l.50-58: `none` if a `BaseException` escapes. -/
def execute (J : Jobs Fn V E Ω) (f : Future Fn V E) (extra : List (Str × V)) (ω : Ω) :
    Option (Future Fn V E) :=
  match J.call f.fn f.args (dget (dmerge f.kwargs extra)) ω with
  | .returns v => some { f with result := some v }
  | .raises e => some { f with exception := some (.raised e) }
  | .escapes => none

/-- What the daemon puts in the output queue for an executed future, l.357-371; `none` if an
exception ends the daemon (l.374). -/
def inspectResult (J : Jobs Fn V E Ω) (f : Future Fn V E) : Option (Future Fn V E) :=
  match f.result with
  | none => some f
  | some v =>
    match J.probe v with
    | .falsy => some f
    | .fine => some f
    | .memoryError => some { f with result := some (J.withoutMemoryError v) }
    | .raises => none
    | .raisesMemory => some { f with result := none, exception := some .memory }

/-- Actions of a worker, l.350-377. -/
inductive WorkerAct (Ω : Type)
  /-- sees a "stop" command, l.351-353 -/
  | stop
  /-- takes a job, l.355 -/
  | take
  /-- takes a job, but runs out of memory while receiving it: the handler at l.367-371 reports
  the previous job instead -/
  | takeFails
  /-- executes the job and reports it, l.356-366 -/
  | finish (ω : Ω)
  /-- is ended by the operating system -/
  | die

/-- One action of worker `pid`; nothing happens if the action is not possible. -/
def workerStep (J : Jobs Fn V E Ω) (pid : Nat) (a : WorkerAct Ω) (s : Evaluator Fn V E) :
    Evaluator Fn V E :=
  match s.workers[pid]? with
  | none => s
  | some w =>
    if w.alive then
      match a with
      | .die => { s with workers := s.workers.set pid { w with alive := false } }
      | .stop =>
        if w.busy = false ∧ 0 < s.commands then
          { s with commands := s.commands - 1, workers := s.workers.set pid { w with alive := false } }
        else s
      | .take =>
        if w.busy then s else
        match s.input with
        | [] => s
        | f :: rest => { s with input := rest, workers := s.workers.set pid ⟨some f, true, true⟩ }
      | .takeFails =>
        if w.busy then s else
        match s.input with
        | [] => s
        | _ :: rest =>
          match w.cur with
          | none => { s with input := rest, workers := s.workers.set pid { w with alive := false } }
          | some f =>
            let f' := { f with result := none, exception := some .memory }
            { s with
              input := rest
              output := s.output ++ [f']
              workers := s.workers.set pid ⟨some f', false, true⟩ }
      | .finish ω =>
        if w.busy then
          match w.cur with
          | none => s
          | some f =>
            match (execute J f s.defaults ω).bind (inspectResult J) with
            | none => { s with workers := s.workers.set pid { w with alive := false } }
            | some f' => { s with
                output := s.output ++ [f']
                workers := s.workers.set pid ⟨some f', false, true⟩ }
        else s
    else s

/-- Events of a schedule. -/
inductive AsyncEvent (Fn V Ω : Type)
  | submit (fn : Fn) (args : List V) (kwargs : List (Str × V))
  | wait
  | iterate (r₁ r₂ r₃ : Readings) (o : StopOutcome)
  | worker (pid : Nat) (a : WorkerAct Ω)

/-- What the caller of the evaluator sees of an event. -/
inductive AsyncObs (Fn V E : Type)
  | nothing
  | submitted (f : Future Fn V E)
  | returned (f : Future Fn V E)
  | raised (e : Exn)

/-- One event.  The main process submits only outside `wait_next` and polls only inside. -/
def asyncStep (J : Jobs Fn V E Ω) (s : Evaluator Fn V E) :
    AsyncEvent Fn V Ω → AsyncObs Fn V E × Evaluator Fn V E
  | .submit fn args kwargs =>
    if s.waiting then (.nothing, s) else
    match submit fn args kwargs s with
    | (.ok f, s') => (.submitted f, s')
    | (.error e, s') => (.raised e, s')
  | .wait =>
    if s.waiting then (.nothing, s) else
    match waitBegin s with
    | (.ok _, s') => (.nothing, s')
    | (.error e, s') => (.raised e, s')
  | .iterate r₁ r₂ r₃ o =>
    if s.waiting then
      match waitIteration r₁ r₂ r₃ o s with
      | (.ok none, s') => (.nothing, s')
      | (.ok (some f), s') => (.returned f, { s' with waiting := false })
      | (.error e, s') => (.raised e, { s' with waiting := false })
    else (.nothing, s)
  | .worker pid a => (.nothing, workerStep J pid a s)

/-- A schedule: what the caller sees, and the state reached. -/
def asyncRun (J : Jobs Fn V E Ω) :
    List (AsyncEvent Fn V Ω) → Evaluator Fn V E → List (AsyncObs Fn V E) × Evaluator Fn V E
  | [], s => ([], s)
  | e :: es, s => ((asyncStep J s e).1 :: (asyncRun J es (asyncStep J s e).2).1,
      (asyncRun J es (asyncStep J s e).2).2)

/-- `__enter__`, l.122-138 (without the log). -/
def enter : PyM (Evaluator Fn V E) Unit := do
  let s ← get
  if s.hasEntered then raise .runtimeError
  else do
    modify fun s => { s with hasEntered := true, input := [], output := [] }
    startWorkers s.nJobs

/-- l.158-163: one iteration per process left. -/
def exitLoop (o : Nat → StopOutcome) : Nat → PyM (Evaluator Fn V E) Unit
  | 0 => fun s => if s.procs.length = 0 then (.ok (), s) else (.error .diverge, s)
  | n + 1 => fun s =>
    match s.procs with
    | [] => (.ok (), s)
    | p :: _ =>
      match stopWorker p (o p) s with
      | (.ok _, s') => exitLoop o n s'
      | (.error .noSuchProcess, s') =>
        exitLoop o n { s' with jobQueueSize := s'.jobQueueSize - 1, procs := s'.procs.erase p }
      | (.error e, s') => (.error e, s')

/-- `__exit__`, l.140-164.  Which "stop" commands are seen before the queues are cleared makes no
difference: the processes are terminated anyway. -/
def exit (o : Nat → StopOutcome) : PyM (Evaluator Fn V E) Unit := do
  modify fun s => { s with input := [], output := [], commands := 0, jobQueueSize := -(s.nJobs : Int) }
  let s ← get
  exitLoop o s.procs.length

/-- A new evaluator whose context has been entered. -/
def entered (n : Nat) (limit : Option ℚ) (logfile : Bool) (defaults : List (Str × V)) :
    Evaluator Fn V E := (enter (newEvaluator n limit logfile defaults)).2

end
end Gama
