import Verif.Model.Heapq
import Verif.Model.Nsga2

/-!
# The evaluation library

Models `gama/utilities/evaluation_library.py` and how `Gama` feeds it (gama.py l.716-743).
`E` is the type of fitted models, `P` of one row of predictions, `K` of scores.  Scores are
compared as Python tuples of floats: any linear order (no NaN).
-/

namespace Gama
open PyM

section
variable {E P K : Type} [LinearOrder K]

/-- The arguments of `Evaluation(...)`, evaluation_library.py l.21-31, with the id and the
pipeline string of the individual.  Start time, duration and pid are left out. -/
structure EvalRec (E P K : Type) where
  ident : Nat
  pipeline : Str
  score : K
  error : Option Str
  estimators : List E
  predictions : Option (List P)

/-- A reference to an `Evaluation` object: the `idx`-th one saved.  Score, error and individual
are never assigned after construction, so they travel with the reference. -/
structure Ref (E P K : Type) where
  idx : Nat
  given : EvalRec E P K

/-- The attributes of an `Evaluation` that change: `_estimators`, `_predictions` and
`_cache_file` (`""` is `none`, the file of an individual is identified with its id). -/
structure EvalCell (E P : Type) where
  estimators : List E
  predictions : Option (List P)
  cacheFile : Option Nat

/-- `EvaluationLibrary._sample`, l.157-162. -/
inductive Sample
  | notSet | all | rows (idx : List Nat)

/-- `EvaluationLibrary` together with the files of its cache directory. -/
structure Lib (E P K : Type) where
  top : List (Ref E P K)
  other : List (Ref E P K)
  lookup : Str → Option (Ref E P K)
  sample : Sample
  cells : Nat → EvalCell E P
  disk : Nat → Option (List E × Option (List P))
  /-- number of evaluations handed to the library so far -/
  next : Nat
  rnd : Stream

instance : HasRand (Lib E P K) where
  rnd s := s.rnd
  setRnd s r := { s with rnd := r }

/-- The constructor arguments `m` and `n`. -/
structure LibConfig where
  m : Option Nat
  n : Option Nat

/-- `EvaluationLibrary.__init__`, l.143-162. -/
def libInit (c : LibConfig) (sample : Option (List Nat)) (rnd : Stream) : Lib E P K where
  top := []
  other := []
  lookup := fun _ => none
  sample := match sample, c.n with
    | some s, _ => .rows s
    | none, none => .all
    | none, some _ => .notSet
  cells := fun _ => ⟨[], none, none⟩
  disk := fun _ => none
  next := 0
  rnd := rnd

def setSample (x : Sample) : PyM (Lib E P K) Unit := modify fun s => { s with sample := x }

/-- `StratifiedShuffleSplit(train_size=n)`, l.208-209: raises a ValueError for labels it cannot
stratify, otherwise `n` distinct rows.  Which rows and when it raises is left open (any
choice is allowed), so everything proved holds for every stratification. -/
def stratified (n size : Nat) : PyM (Lib E P K) (List Nat) := do
  let d ← draw
  if d % 2 = 0 then raise .valueError else sample n (List.range size)

/-- `determine_sample_indices`, l.168-212; `stratify` is given by its length. -/
def determineSample (c : LibConfig) (n size stratify : Option Nat) : PyM (Lib E P K) Unit :=
  match size, stratify with
  | none, none => raise .valueError
  | some _, some _ => raise .valueError
  | some k, none =>
    match n.orElse fun _ => c.n with
    | none => setSample .all
    | some n =>
      if n < k then do
        let rows ← sample n (List.range k)
        setSample (.rows rows)
      else setSample .all
  | none, some k =>
    match n.orElse fun _ => c.n with
    | none => setSample .all
    | some n =>
      if n < k then do
        let rows ← stratified n k
        setSample (.rows rows)
      else setSample .all

/-- `predictions[rows]`; an index that is out of range is an IndexError. -/
def takeRows {α : Type} (ps : List α) : List Nat → Except Exn (List α)
  | [] => .ok []
  | r :: rs =>
    match ps[r]?, takeRows ps rs with
    | some p, .ok l => .ok (p :: l)
    | none, _ => .error .indexError
    | _, .error e => .error e

/-- l.225-226 -/
def subsample (ps : List P) : PyM (Lib E P K) (Option (List P)) := do
  let s ← get
  match s.sample with
  | .rows rows =>
    match takeRows ps rows with
    | .ok l => pure (some l)
    | .error e => raise e
  | _ => pure (some ps)

/-- l.221-223: the rows are chosen when the first predictions arrive. -/
def ensureSample (c : LibConfig) (size : Nat) : PyM (Lib E P K) Unit := do
  let s ← get
  match s.sample with
  | .notSet => determineSample c c.n (some size) none
  | _ => pure ()

/-- `_process_predictions`, l.214-226, of a new `Evaluation` (which has no cache file yet):
what its `_predictions` become. -/
def processPredictions (c : LibConfig) (ps : Option (List P)) :
    PyM (Lib E P K) (Option (List P)) :=
  if c.n = some 0 then pure none
  else match ps with
    | none => pure none
    | some ps => do
      ensureSample c ps.length
      subsample ps

def setCell (i : Nat) (c : EvalCell E P) : PyM (Lib E P K) Unit :=
  modify fun s => { s with cells := upd s.cells i c }

/-- Attribute access on an `Evaluation` object. -/
def getCell (i : Nat) : PyM (Lib E P K) (EvalCell E P) := do
  let s ← get
  pure (s.cells i)

/-- `Evaluation.to_disk`, l.45-50. -/
def toDisk (r : Ref E P K) : PyM (Lib E P K) Unit := do
  let c ← getCell r.idx
  modify fun s => { s with disk := upd s.disk r.given.ident (some (c.estimators, c.predictions)) }
  setCell r.idx ⟨[], none, some r.given.ident⟩

/-- `Evaluation.remove_from_disk`, l.52-55: `os.remove` of a file that does not exist (or of
the empty path) raises. -/
def removeFromDisk (r : Ref E P K) : PyM (Lib E P K) Unit := do
  let c ← getCell r.idx
  match c.cacheFile with
  | none => raise .fileNotFound
  | some f => do
    let s ← get
    match s.disk f with
    | none => raise .fileNotFound
    | some _ => do
      modify fun s => { s with disk := upd s.disk f none }
      setCell r.idx { c with cacheFile := none }

/-- `Evaluation.estimators`, l.57-63. -/
def readEstimators (s : Lib E P K) (r : Ref E P K) : Except Exn (List E) :=
  let c := s.cells r.idx
  match c.estimators, c.cacheFile with
  | e :: es, _ => .ok (e :: es)
  | [], none => .ok []
  | [], some f =>
    match s.disk f with
    | none => .error .fileNotFound
    | some d => .ok d.1

/-- `Evaluation.predictions`, l.65-71. -/
def readPredictions (s : Lib E P K) (r : Ref E P K) : Except Exn (Option (List P)) :=
  let c := s.cells r.idx
  match c.predictions, c.cacheFile with
  | some ps, _ => .ok (some ps)
  | none, none => .ok none
  | none, some f =>
    match s.disk f with
    | none => .error .fileNotFound
    | some d => .ok d.2

def addOther (r : Ref E P K) : PyM (Lib E P K) Unit :=
  modify fun s => { s with other := s.other ++ [r] }

/-- `evaluation._estimators, evaluation._predictions = [], None` -/
def discard (r : Ref E P K) : PyM (Lib E P K) Unit := do
  let c ← getCell r.idx
  setCell r.idx { c with estimators := [], predictions := none }

/-- `self._m is None or self._m > len(self.top_evaluations)`, l.234 -/
def hasRoom (m : Option Nat) (n : Nat) : Bool :=
  match m with
  | none => true
  | some m => decide (m > n)

/-- l.242-245 or l.239-241; `removed == evaluation` compares scores. -/
def afterPop (removed new : Ref E P K) : PyM (Lib E P K) Unit :=
  if removed.given.score = new.given.score then discard removed
  else do
    toDisk new
    removeFromDisk removed

/-- The three branches of `save_evaluation`, l.231-247. -/
def store (c : LibConfig) (r : Ref E P K) : PyM (Lib E P K) Unit := do
  let s ← get
  if r.given.error.isSome then do
    discard r
    addOther r
  else if hasRoom c.m s.top.length then do
    toDisk r
    modify fun s => { s with top := heappush (fun r => r.given.score) s.top r }
  else do
    let pop := heappushpop (fun r => r.given.score) s.top r
    modify fun s => { s with top := pop.2 }
    afterPop pop.1 r
    addOther pop.1

/-- `EvaluationLibrary.save_evaluation`, l.228-249, of a new `Evaluation`: every evaluation is
a new object that is handed over once (scikitlearn.py l.207-218, gama.py l.741-743). -/
def saveEvaluation (c : LibConfig) (given : EvalRec E P K) : PyM (Lib E P K) Unit := do
  let s ← get
  let r : Ref E P K := ⟨s.next, given⟩
  modify fun s => { s with next := s.next + 1 }
  let ps ← processPredictions c given.predictions
  setCell r.idx ⟨given.estimators, ps, none⟩
  store c r
  modify fun s => { s with lookup := fun k => if k = given.pipeline then some r else s.lookup k }

/-- The library gets every completed evaluation through `_on_evaluation_completed`, which
swallows exceptions (`_safe_outside_call`, gama.py l.716-743): whatever was changed before an
exception stays changed. -/
def saveAll (c : LibConfig) : List (EvalRec E P K) → Lib E P K → Lib E P K
  | [], s => s
  | r :: rs, s => saveAll c rs (saveEvaluation c r s).2

/-- `heapq.nlargest(n, xs)`, documented as `sorted(xs, reverse=True)[:n]` (a stable sort: equal
items keep their order). -/
def nlargest {α : Type} (key : α → K) (n : Nat) (xs : List α) : List α :=
  (pySorted (fun a b => decide (key b ≤ key a)) xs).take n

/-- `self._m is None or n <= self._m`, l.261 -/
def withinLimit (m : Option Nat) (n : Nat) : Bool :=
  match m with
  | none => true
  | some m => decide (n ≤ m)

/-- `EvaluationLibrary.n_best`, l.256-264, for `n ≥ 0`. -/
def nBest (c : LibConfig) (n : Nat) (withPipelines : Bool) (s : Lib E P K) : List (Ref E P K) :=
  if withinLimit c.m n || withPipelines then
    nlargest (fun r => r.given.score) n s.top
  else
    ((pySorted (fun a b => decide (a.given.score ≤ b.given.score)) (s.top ++ s.other)).reverse).take n

end
end Gama
