import Verif.Model.Selection
import Verif.Model.Dict

/-!
# Search procedures

Models `gama/search_methods/async_ea.py`, `random_search.py`, `asha.py` and the choice of the
start population in `gama.py`.  Each search is a step function on program points, one step per
statement that has an effect, so that a search interrupted at any point is one that took any
number of steps.

The evaluator (modelled in `Async.lean`) is seen through what the search sees of it: the jobs that
were submitted and not yet returned, and for each `wait_next` which of them is returned with which
outcome, or which exception is raised.  `σ` is the rest of the program state, which evaluations may
change; `ι` are individuals, which compare by `_id` (individual.py l.32-33), so that an
individual that comes back from a worker process is equal to the one that was sent.
-/

namespace Gama
open PyM

/-- The outcome of a job: an exception, or an `Evaluation` with its first score and without or with
an `error`. -/
inductive Completion
  | failed
  | result (errorFree : Bool) (score : Score)
  deriving DecidableEq

/-- What `OperatorSet.wait_next` (operator_set.py l.43-50) does: it raises, or the `k`-th pending
job (modulo their number) is returned; `w` is the state after the callbacks. -/
inductive Wait (σ : Type)
  | raises (e : Exn)
  | completes (k : Nat) (c : Completion) (w : σ)

/-- The pending job that is returned, and those left; `none` if nothing is pending. -/
def takePending {α : Type} (pending : List α) (k : Nat) : Option (α × List α) :=
  match pending[k % pending.length]? with
  | none => none
  | some x => some (x, pending.eraseIdx (k % pending.length))

/-- A list given to a search as start candidates: a list of its own, or the very list object that
is also the search's output. -/
inductive Candidates (ι : Type)
  | list (l : List ι)
  | sameAsOutput

/-- The start population, gama.py l.626-633, when `_final_pop` is the search's output list
(l.659; before the first search both are empty).  `fresh` are the random individuals of l.633. -/
def startCandidates {ι : Type} (warm : Option (List ι)) (finalPop fresh : List ι) : Candidates ι :=
  match warm with
  | some [] => .list fresh
  | some (x :: xs) => .list (x :: xs)
  | none => if 0 < finalPop.length then .sameAsOutput else .list fresh

section
variable {σ ι : Type} [DecidableEq ι]

/-! ## Asynchronous evolution -/

/-- The operators used by the search. -/
structure SearchOps (σ ι : Type) where
  /-- `ops.create(population, 1)[0]` -/
  create : List ι → PyM σ ι
  /-- `ops.eliminate(population, 1)[0]` -/
  eliminate : List ι → PyM σ ι
  /-- `ops.individual()` -/
  individual : PyM σ ι

/-- The first element of a list, `IndexError` if there is none. -/
def firstOf {σ ι : Type} (m : PyM σ (List ι)) : PyM σ ι := do
  let l ← m
  match l with
  | [] => raise .indexError
  | x :: _ => pure x

/-- The operators GAMA configures, gama.py l.319-336. -/
def gamaOps (c : OpConfig) (cxpb : ℚ) : SearchOps World Nat where
  create pop := firstOf (createFromPopulation c pop 1 cxpb)
  eliminate pop := firstOf (eliminateFromPareto pop 1)
  individual := opIndividual c

/-- Points of `async_ea`, async_ea.py l.106-152. -/
inductive EaPc (ι : Type)
  /-- l.106 -/
  | start (c : Candidates ι)
  /-- l.120 -/
  | clear (c : Candidates ι)
  /-- l.122-123, with the candidates still to be submitted -/
  | submit (rest : List ι)
  /-- l.125-128 -/
  | loop
  /-- l.129-130: a future was returned -/
  | got (x : ι) (c : Completion)
  /-- l.131-132 -/
  | full
  /-- l.133 -/
  | remove (x : ι)
  /-- l.135-143 -/
  | fill
  /-- l.145-147 -/
  | restart
  /-- l.149: new candidates still to be made, those made so far -/
  | renew (k : Nat) (made : List ι)
  /-- l.152 -/
  | returned
  | raised (e : Exn)

/-- The state of the search; `history` are the futures returned so far, `submitted` all jobs
submitted, in order. -/
structure Ea (σ ι : Type) where
  pc : EaPc ι
  world : σ
  population : List ι
  pending : List ι
  evaluated : Nat
  history : List (ι × Completion)
  submitted : List ι

/-- What the environment does in a step: what `wait_next` does, the value of `job_queue_size`, what
the restart callback returns (`false` if there is none). -/
structure EaInput (σ : Type) where
  wait : Wait σ
  queue : Int
  restart : Bool

/-- The condition of l.125. -/
def eaMore (maxN : Option Int) (evaluated : Nat) : Bool :=
  match maxN with
  | none => true
  | some n => decide ((evaluated : Int) < n)

/-- The test of l.106. -/
def eaRefused : Option Int → Bool
  | none => false
  | some n => decide (n ≤ 0)

/-- One step of `async_ea`.  `size` is `population_size`. -/
def eaStep (o : SearchOps σ ι) (maxN : Option Int) (size : Nat) (i : EaInput σ) (s : Ea σ ι) :
    Ea σ ι :=
  match s.pc with
  | .start c => if eaRefused maxN then { s with pc := .raised .valueError } else { s with pc := .clear c }
  | .clear (.list l) => { s with population := [], pc := .submit l }
  | .clear .sameAsOutput => { s with population := [], pc := .submit [] }
  | .submit [] => { s with pc := .loop }
  | .submit (x :: xs) =>
    { s with pending := s.pending ++ [x], submitted := s.submitted ++ [x], pc := .submit xs }
  | .loop =>
    if eaMore maxN s.evaluated then
      match i.wait with
      | .raises e => { s with pc := .raised e }
      | .completes k c w =>
        match takePending s.pending k with
        | none => { s with pc := .raised .runtimeError }
        | some (x, rest) =>
          { s with pending := rest, world := w, history := s.history ++ [(x, c)], pc := .got x c }
    else { s with pc := .returned }
  | .got x (.result true _) => { s with population := s.population ++ [x], pc := .full }
  | .got _ (.result false _) => { s with pc := .fill }
  | .got _ .failed => { s with pc := .fill }
  | .full =>
    if size < s.population.length then
      match o.eliminate s.population s.world with
      | (.error e, w) => { s with world := w, pc := .raised e }
      | (.ok x, w) => { s with world := w, pc := .remove x }
    else { s with pc := .fill }
  | .remove x =>
    if x ∈ s.population then { s with population := s.population.erase x, pc := .fill }
    else { s with pc := .raised .valueError }
  | .fill =>
    if i.queue ≤ 1 then
      match o.create s.population s.world with
      | (.error e, w) => { s with world := w, pc := .raised e }
      | (.ok x, w) => { s with
          world := w
          pending := s.pending ++ [x]
          submitted := s.submitted ++ [x]
          pc := .restart }
    else { s with pc := .restart }
  | .restart =>
    if i.restart then { s with evaluated := s.evaluated + 1, pc := .renew size [] }
    else { s with evaluated := s.evaluated + 1, pc := .loop }
  | .renew 0 made => { s with pc := .clear (.list made) }
  | .renew (k + 1) made =>
    match o.individual s.world with
    | (.error e, w) => { s with world := w, pc := .raised e }
    | (.ok x, w) => { s with world := w, pc := .renew k (made ++ [x]) }
  | .returned => s
  | .raised _ => s

/-- Any number of steps. -/
def eaRun (o : SearchOps σ ι) (maxN : Option Int) (size : Nat) : List (EaInput σ) → Ea σ ι → Ea σ ι
  | [], s => s
  | i :: is, s => eaRun o maxN size is (eaStep o maxN size i s)

/-- `async_ea` about to start, with what its output list holds. -/
def eaStart (c : Candidates ι) (output : List ι) (w : σ) : Ea σ ι :=
  ⟨.start c, w, output, [], 0, [], []⟩

/-- `async_ea` with the operators GAMA configures.  At each step these see the pipelines evaluated
by then (`completed_evaluations=self._evaluation_library.lookup`, gama.py l.335), the first part of an
input. -/
def evolve (c : OpConfig) (cxpb : ℚ) (maxN : Option Int) (size : Nat) :
    List ((Str → Bool) × EaInput World) → Ea World Nat → Ea World Nat
  | [], s => s
  | (d, i) :: is, s =>
    evolve c cxpb maxN size is (eaStep (gamaOps { c with completed := d } cxpb) maxN size i s)

/-- `[self._operator_set.individual() for _ in range(n)]`, gama.py l.633 (there `n = 50`). -/
def freshPopulation (c : OpConfig) : Nat → GP (List Nat)
  | 0 => pure []
  | n + 1 => do
    let x ← opIndividual c
    let rest ← freshPopulation c n
    return x :: rest

/-! ## Random search -/

/-- Points of `random_search`, random_search.py l.58-68 (the type checks of l.56 are left out). -/
inductive RsPc (ι : Type)
  /-- l.59-60 -/
  | submit (rest : List ι)
  /-- l.62-63 -/
  | loop
  /-- l.64-65 -/
  | got (x : ι) (c : Completion)
  /-- l.66 -/
  | next
  /-- l.68 -/
  | returned
  | raised (e : Exn)

structure Rs (σ ι : Type) where
  pc : RsPc ι
  world : σ
  output : List ι
  pending : List ι
  history : List (ι × Completion)
  submitted : List ι

/-- The condition of l.62. -/
def rsMore (maxN : Option Int) (reported : Nat) : Bool :=
  match maxN with
  | none => true
  | some n => decide ((reported : Int) < n)

/-- One step of `random_search`. -/
def rsStep (o : SearchOps σ ι) (maxN : Option Int) (i : Wait σ) (s : Rs σ ι) : Rs σ ι :=
  match s.pc with
  | .submit [] => { s with pc := .loop }
  | .submit (x :: xs) =>
    { s with pending := s.pending ++ [x], submitted := s.submitted ++ [x], pc := .submit xs }
  | .loop =>
    if rsMore maxN s.output.length then
      match i with
      | .raises e => { s with pc := .raised e }
      | .completes k c w =>
        match takePending s.pending k with
        | none => { s with pc := .raised .runtimeError }
        | some (x, rest) =>
          { s with pending := rest, world := w, history := s.history ++ [(x, c)], pc := .got x c }
    else { s with pc := .returned }
  | .got x (.result _ _) => { s with output := s.output ++ [x], pc := .next }
  | .got _ .failed => { s with pc := .next }
  | .next =>
    match o.individual s.world with
    | (.error e, w) => { s with world := w, pc := .raised e }
    | (.ok x, w) => { s with
        world := w
        pending := s.pending ++ [x]
        submitted := s.submitted ++ [x]
        pc := .loop }
  | .returned => s
  | .raised _ => s

def rsRun (o : SearchOps σ ι) (maxN : Option Int) : List (Wait σ) → Rs σ ι → Rs σ ι
  | [], s => s
  | i :: is, s => rsRun o maxN is (rsStep o maxN i s)

/-- `random_search` about to start.  The candidates are read before the output is appended to, so
it makes no difference whether they are the same list. -/
def rsStart (c : Candidates ι) (output : List ι) (w : σ) : Rs σ ι :=
  ⟨.submit (match c with | .list l => l | .sameAsOutput => output), w, output, [], [], []⟩

/-! ## Asynchronous successive halving -/

/-- The result of one job as stored in a rung, asha.py l.192-194. -/
abbrev RungEntry (ι : Type) := Score × ι

/-- Points of `asha`, asha.py l.168-207. -/
inductive AshaPc (ι : Type)
  /-- l.183-184 with the number of jobs still to be started -/
  | starting (k : Nat)
  /-- l.186-189 -/
  | loop
  /-- l.190-194 -/
  | got (x : ι) (rung : Nat) (c : Completion)
  /-- l.195 -/
  | next
  /-- l.197, 207 -/
  | returned (l : List ι)
  | raised (e : Exn)

/-- The state; `levels` is `reversed(rungs)`, highest rung first. -/
structure Asha (σ ι : Type) where
  pc : AshaPc ι
  world : σ
  rungs : List (Nat × List (RungEntry ι))
  promoted : List (Nat × List (RungEntry ι))
  candidates : List ι
  pending : List (ι × Nat)
  history : List (ι × Nat × Completion)
  submitted : List (ι × Nat)

/-- Settings: `reduction_factor`, `minimum_early_stopping_rate`, `max_rung`,
`max_full_evaluations`. -/
structure AshaConfig where
  rf : Nat
  rate : Nat
  maxRung : Nat
  maxFull : Option Int

/-- `reversed(range(rate, maxRung + 1))`, l.134, 145-150. -/
def AshaConfig.levels (c : AshaConfig) : List Nat :=
  ((List.range (c.maxRung + 1)).filter fun k => c.rate ≤ k).reverse

/-- `set(individuals) - set(promoted)`, l.158, in some order. -/
def notPromoted (individuals promoted : List (RungEntry ι)) : List (RungEntry ι) :=
  individuals.filter fun x => x ∉ promoted

/-- `max(..., key=lambda i: i[0])` over a set: some element with the largest score.  `k` says which
one of them (the iteration order of a set is not specified). -/
def someMax (l : List (RungEntry ι)) (k : Nat) : Option (RungEntry ι) :=
  let best := l.filter fun x => l.all fun y => y.1 ≤ x.1
  best[k % best.length]?

/-- The loop of `get_job`, l.153-162, over rungs that are not the top one: the entry to promote
and its rung. -/
def findPromotion (rf : Nat) (k : Nat) (promoted : List (Nat × List (RungEntry ι))) :
    List (Nat × List (RungEntry ι)) → Option (Nat × RungEntry ι)
  | [] => none
  | (rung, inds) :: rest =>
    let done := (dget promoted rung).getD []
    if 0 < ((inds.length / rf : Nat) : Int) - (done.length : Int) then
      match someMax (notPromoted inds done) k with
      | some x => some (rung, x)
      | none => findPromotion rf k promoted rest
    else findPromotion rf k promoted rest

/-- `get_job`, l.152-166. -/
def getJob (o : SearchOps σ ι) (c : AshaConfig) (k : Nat) : PyM (Asha σ ι) (ι × Nat) := fun s =>
  match findPromotion c.rf k s.promoted s.rungs.tail with
  | some (rung, x) =>
    (.ok (x.2, rung + 1),
      { s with promoted := dset s.promoted rung ((dget s.promoted rung).getD [] ++ [x]) })
  | none =>
    match s.candidates.getLast? with
    | some x => (.ok (x, c.rate), { s with candidates := s.candidates.dropLast })
    | none =>
      match o.individual s.world with
      | (.error e, w) => (.error e, { s with world := w })
      | (.ok x, w) => (.ok (x, c.rate), { s with world := w })

/-- `start_new_job`, l.172-181; `rung_resources` has a key for each level. -/
def startJob (o : SearchOps σ ι) (c : AshaConfig) (k : Nat) : PyM (Asha σ ι) Unit := do
  let (x, rung) ← getJob o c k
  if rung ∈ c.levels then
    modify fun s => { s with pending := s.pending ++ [(x, rung)], submitted := s.submitted ++ [(x, rung)] }
  else raise .keyError

/-- The condition of l.186-188; `KeyError` if there is no top rung. -/
def ashaMore (c : AshaConfig) (s : Asha σ ι) : Except Exn Bool :=
  match c.maxFull with
  | none => .ok true
  | some n =>
    match dget s.rungs c.maxRung with
    | none => .error .keyError
    | some l => .ok (decide ((l.length : Int) < n))

/-- `list(map(lambda p: p[1], rung_individuals[rung]))` in the `finally` clause, l.207. -/
def ashaReport (rungs : List (Nat × List (RungEntry ι))) (rung : Nat) : AshaPc ι :=
  match dget rungs rung with
  | none => .raised .keyError
  | some l => .returned (l.map Prod.snd)

/-- What leaves `asha` when exception `e` was raised inside the `try`, l.198-207: a timeout reports
the highest rung that has evaluations, if there is one (`raise RuntimeWarning` is undone by the
`return` in `finally`).  Otherwise `highest_rung_reached` was never assigned and the `finally`
clause raises `UnboundLocalError` in place of the exception. -/
def ashaHandle (rungs : List (Nat × List (RungEntry ι))) (e : Exn) : AshaPc ι :=
  match e with
  | .timeout =>
    match rungs.find? fun x => 0 < x.2.length with
    | some x => ashaReport rungs x.1
    | none => .raised .unboundLocal
  | _ => .raised .unboundLocal

/-- What the environment does in a step. -/
structure AshaInput (σ : Type) where
  wait : Wait σ
  pick : Nat

/-- One step of `asha`. -/
def ashaStep (o : SearchOps σ ι) (c : AshaConfig) (i : AshaInput σ) (s : Asha σ ι) : Asha σ ι :=
  match s.pc with
  | .starting 0 => { s with pc := .loop }
  | .starting (k + 1) =>
    match startJob o c i.pick s with
    | (.error e, s') => { s' with pc := ashaHandle s'.rungs e }
    | (.ok _, s') => { s' with pc := .starting k }
  | .loop =>
    match ashaMore c s with
    | .error e => { s with pc := ashaHandle s.rungs e }
    | .ok false =>
      match c.levels.head? with
      | none => { s with pc := .raised .unboundLocal }
      | some top => { s with pc := ashaReport s.rungs top }
    | .ok true =>
      match i.wait with
      | .raises e => { s with pc := ashaHandle s.rungs e }
      | .completes k r w =>
        match takePending s.pending k with
        | none => { s with pc := ashaHandle s.rungs .runtimeError }
        | some ((x, rung), rest) => { s with
            pending := rest
            world := w
            history := s.history ++ [(x, rung, r)]
            pc := .got x rung r }
  | .got x rung (.result _ score) =>
    match dget s.rungs rung with
    | none => { s with pc := ashaHandle s.rungs .keyError }
    | some l => { s with rungs := dset s.rungs rung (l ++ [(score, x)]), pc := .next }
  | .got _ _ .failed => { s with pc := .next }
  | .next =>
    match startJob o c i.pick s with
    | (.error e, s') => { s' with pc := ashaHandle s'.rungs e }
    | (.ok _, s') => { s' with pc := .loop }
  | .returned _ => s
  | .raised _ => s

def ashaRun (o : SearchOps σ ι) (c : AshaConfig) : List (AshaInput σ) → Asha σ ι → Asha σ ι
  | [], s => s
  | i :: is, s => ashaRun o c is (ashaStep o c i s)

/-- `asha` about to start its first job. -/
def ashaStart (c : AshaConfig) (candidates : List ι) (w : σ) : Asha σ ι where
  pc := .starting 8
  world := w
  rungs := c.levels.map fun k => (k, [])
  promoted := c.levels.map fun k => (k, [])
  candidates := candidates
  pending := []
  history := []
  submitted := []

/-- What is reported when the search is interrupted: a `TimeoutException` is raised in state `s`. -/
def ashaInterrupt (s : Asha σ ι) : AshaPc ι := ashaHandle s.rungs .timeout

end

/-! ### Resources -/

/-- A resource: a number of rows or a fraction. -/
inductive Resource
  | rows (n : Int) | fraction (q : ℚ)
  deriving DecidableEq

def Resource.val : Resource → ℚ
  | .rows n => n
  | .fraction q => q

/-- `isinstance(minimum_resource, type(maximum_resource))`, l.125. -/
def Resource.sameType : Resource → Resource → Bool
  | .rows _, .rows _ => true
  | .fraction _, .fraction _ => true
  | _, _ => false

/-- The least `k' ≥ k` with `R ≤ r * b ^ k'`, if there is one among the next `fuel`. -/
def rungUp (b r R : ℚ) : Nat → Nat → Nat
  | 0, k => k
  | fuel + 1, k => if R ≤ r * b ^ k then k else rungUp b r R fuel (k + 1)

/-- The largest `k' ≥ k` with `R * b ^ k' ≤ r`, given that `k` is one, looking at the next `fuel`. -/
def rungDown (b r R : ℚ) : Nat → Nat → Nat
  | 0, k => k
  | fuel + 1, k => if R * b ^ (k + 1) ≤ r then rungDown b r R fuel (k + 1) else k

/-- `math.ceil(math.log(maximum_resource / minimum_resource, reduction_factor))`, l.131-133.
Simplification: real numbers; for `r ≤ R` this is the least `k` with `R ≤ r * b ^ k`, below that
minus the largest `k` with `R * b ^ k ≤ r`; the code computes a quotient of rounded logarithms.
(`⌈R / r⌉` or `⌈r / R⌉` many values suffice.)  A division by zero or a logarithm of something not
positive are errors. -/
def maxRung (rf : Nat) (r R : ℚ) : Except Exn Int :=
  if r = 0 then .error .zeroDivision
  else if R / r ≤ 0 then .error .valueError
  else if rf = 0 then .error .valueError
  else if rf = 1 then .error .zeroDivision
  else if r ≤ R then .ok (rungUp rf r R (R / r).ceil.toNat 0)
  else .ok (-(rungDown rf r R (r / R).ceil.toNat 0 : Nat))

/-- `range(rate, m + 1)`, l.134, for a natural number `rate`. -/
def rungRange (rate : Nat) (m : Int) : List Nat :=
  (List.range (m + 1).toNat).filter fun k => rate ≤ k

/-- `rung_resources`, l.135-138. -/
def rungResources (rf : Nat) (r R : ℚ) (levels : List Nat) : List (Nat × ℚ) :=
  levels.map fun k => (k, min (r * (rf : ℚ) ^ k) R)

/-- The beginning of `asha`, l.125-138: an exception, or `max_rung` and the resources (rungs in
increasing order). -/
def ashaSetup (rf rate : Nat) (r R : Resource) : Except Exn (Int × List (Nat × ℚ)) :=
  if r.sameType R then
    match maxRung rf r.val R.val with
    | .error e => .error e
    | .ok m => .ok (m, rungResources rf r.val R.val (rungRange rate m))
  else .error .valueError

/-- `evaluate_on_rung`, l.210-219: the evaluation's `error`. -/
def rungError (rung maxRung : Nat) (error : Option Str) : Option Str :=
  match error with
  | some e => some e
  | none => if rung ≠ maxRung then some "Not a full evaluation.".toList else none

end Gama
