import Verif.Model.Async
import Verif.Model.Search

/-!
# A search on the evaluator

`Search.lean` sees the evaluator as a set of pending jobs of which any may come back.  Here a search
and the evaluator of `Async.lean` run together: what the search submits is put in the evaluator's
queue, what `wait_next` returns is what a worker process put in the output queue, and
`job_queue_size` is the evaluator's counter.  The code of a search is not repeated: a step of the
search is a step of `Search.lean` with the inputs that the evaluator provides.
-/

namespace Gama
open PyM

/-- A search procedure: `S` its states, `I` the inputs of its steps, `A` what else its environment
decides (a restart, the order of a set), `J` its jobs, `σ` the rest of the program state. -/
structure Client (S I A J σ : Type) where
  step : I → S → S
  /-- the input of a step that does not wait, with the value of `job_queue_size` -/
  go : A → Int → I
  /-- the input of a step that waits -/
  waited : Wait σ → I
  /-- the next step calls `wait_next` -/
  waits : S → Bool
  setPending : List J → S → S
  submitted : S → List J
  history : S → List (J × Completion)

/-- The program point of `async_ea` (async_ea.py l.125-128) at which it calls `wait_next`. -/
def eaWaits {σ ι : Type} (maxN : Option Int) (s : Ea σ ι) : Bool :=
  match s.pc with
  | .loop => eaMore maxN s.evaluated
  | _ => false

/-- `async_ea`, async_ea.py l.106-152. -/
def eaClient {σ ι : Type} [DecidableEq ι] (o : SearchOps σ ι) (maxN : Option Int) (size : Nat) :
    Client (Ea σ ι) (EaInput σ) Bool ι σ where
  step := eaStep o maxN size
  go a q := ⟨.raises .runtimeError, q, a⟩
  waited w := ⟨w, 0, false⟩
  waits := eaWaits maxN
  setPending p s := { s with pending := p }
  submitted := Ea.submitted
  history := Ea.history

/-- The program point of `random_search` (random_search.py l.62-63) at which it calls `wait_next`. -/
def rsWaits {σ ι : Type} (maxN : Option Int) (s : Rs σ ι) : Bool :=
  match s.pc with
  | .loop => rsMore maxN s.output.length
  | _ => false

/-- `random_search`, random_search.py l.58-68. -/
def rsClient {σ ι : Type} (o : SearchOps σ ι) (maxN : Option Int) :
    Client (Rs σ ι) (Wait σ) Unit ι σ where
  step := rsStep o maxN
  go _ _ := .raises .runtimeError
  waited w := w
  waits := rsWaits maxN
  setPending p s := { s with pending := p }
  submitted := Rs.submitted
  history := Rs.history

/-- The program point of `asha` (asha.py l.186-189) at which it calls `wait_next`. -/
def ashaWaits {σ ι : Type} (c : AshaConfig) (s : Asha σ ι) : Bool :=
  match s.pc with
  | .loop =>
    match ashaMore c s with
    | .ok b => b
    | .error _ => false
  | _ => false

/-- `asha`, asha.py l.168-207; a job is an individual and its rung. -/
def ashaClient {σ ι : Type} [DecidableEq ι] (o : SearchOps σ ι) (c : AshaConfig) :
    Client (Asha σ ι) (AshaInput σ) Nat (ι × Nat) σ where
  step := ashaStep o c
  go a _ := ⟨.raises .runtimeError, a⟩
  waited w := ⟨w, 0⟩
  waits := ashaWaits c
  setPending p s := { s with pending := p }
  submitted := Asha.submitted
  history s := s.history.map fun x => ((x.1, x.2.1), x.2.2)

/-- How jobs are submitted and results read: the call `async_.submit(ops.evaluate, individual)`
(async_ea.py l.123, random_search.py l.60, asha.py l.172-181) for a job, and of a result the
individual (with its rung, asha.py l.191-193), its score and whether it has an error. -/
structure Coding (Fn V J : Type) where
  fn : J → Fn
  args : J → List V
  kwargs : J → List (Str × V)
  /-- the job of a call -/
  job : Fn → List V → List (Str × V) → J
  read : V → J × Completion

section
variable {S I A J σ Fn V E Ω : Type}

/-- The outcome a search finds in a future: `future.exception is None and future.result.error is
None` (async_ea.py l.129), `future.result is not None` (random_search.py l.64, asha.py l.190). -/
def completionOf (K : Coding Fn V J) (f : Future Fn V E) : Completion :=
  match f.exception, f.result with
  | none, some v => (K.read v).2
  | _, _ => .failed

/-- The job a search takes a future for: that of `future.result.individual`.  A future without a
result is not looked at further; it counts as its job in the history. -/
def jobOf (K : Coding Fn V J) (f : Future Fn V E) : J :=
  match f.result with
  | some v => (K.read v).1
  | none => K.job f.fn f.args f.kwargs

/-- A search and its evaluator. -/
structure Joint (S Fn V E : Type) where
  search : S
  ev : Evaluator Fn V E

/-- Events: a step of the search that does not wait, `wait_next` is called, one iteration of its
loop (with what the evaluation callback does in operator_set.py l.46-47), an action of a worker. -/
inductive JointEvent (A σ Ω : Type)
  | go (a : A)
  | wait
  | iterate (r₁ r₂ r₃ : Readings) (o : StopOutcome) (callback : Except Exn σ)
  | worker (pid : Nat) (act : WorkerAct Ω)

/-- Submit jobs, async_evaluator.py l.172-194. -/
def submitAll (Jb : Jobs Fn V E Ω) (K : Coding Fn V J) : List J → Evaluator Fn V E → Evaluator Fn V E
  | [], ev => ev
  | j :: js, ev =>
    submitAll Jb K js (asyncStep Jb ev (.submit (K.fn j) (K.args j) (K.kwargs j))).2

/-- What `OperatorSet.wait_next` (operator_set.py l.43-50) does with the future that
`AsyncEvaluator.wait_next` returned: the callback may raise, otherwise the search goes on. -/
def deliver (C : Client S I A J σ) (K : Coding Fn V J) (callback : Except Exn σ) (f : Future Fn V E)
    (s : S) : S :=
  match callback with
  | .error e => C.step (C.waited (.raises e)) s
  | .ok w => C.step (C.waited (.completes 0 (completionOf K f) w)) (C.setPending [jobOf K f] s)

/-- One event; nothing happens if it is not possible.  Simplification: the callback is also called
for results that are falsy or missing, where it is the identity in the code. -/
def jointStep (C : Client S I A J σ) (K : Coding Fn V J) (Jb : Jobs Fn V E Ω) :
    JointEvent A σ Ω → Joint S Fn V E → Joint S Fn V E
  | .go a, s =>
    if C.waits s.search then s else
    let t := C.step (C.go a s.ev.jobQueueSize) s.search
    ⟨t, submitAll Jb K ((C.submitted t).drop (C.submitted s.search).length) s.ev⟩
  | .wait, s =>
    if C.waits s.search then
      match asyncStep Jb s.ev .wait with
      | (.raised e, ev) => ⟨C.step (C.waited (.raises e)) s.search, ev⟩
      | (_, ev) => ⟨s.search, ev⟩
    else s
  | .iterate r₁ r₂ r₃ o callback, s =>
    match asyncStep Jb s.ev (.iterate r₁ r₂ r₃ o) with
    | (.raised e, ev) => ⟨C.step (C.waited (.raises e)) s.search, ev⟩
    | (.returned f, ev) => ⟨deliver C K callback f s.search, ev⟩
    | (_, ev) => ⟨s.search, ev⟩
  | .worker pid act, s => ⟨s.search, (asyncStep Jb s.ev (.worker pid act)).2⟩

def jointRun (C : Client S I A J σ) (K : Coding Fn V J) (Jb : Jobs Fn V E Ω) :
    List (JointEvent A σ Ω) → Joint S Fn V E → Joint S Fn V E
  | [], s => s
  | e :: es, s => jointRun C K Jb es (jointStep C K Jb e s)

/-- A search about to start, in the context of a new evaluator with `n` workers
(`with AsyncEvaluator() as async_`, async_ea.py l.116). -/
def jointStart (start : S) (n : Nat) (limit : Option ℚ) (logfile : Bool) (defaults : List (Str × V)) :
    Joint S Fn V E := ⟨start, entered n limit logfile defaults⟩

end
end Gama
