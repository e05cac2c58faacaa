import Verif.Model.Py
import Verif.Model.Score
import Verif.Model.Time

/-! # Evaluating pipelines

Models `evaluate_pipeline` and `evaluate_individual` of
gama/genetic_programming/compilers/scikitlearn.py and the metric wrapper of gama/utilities/metrics.py.

scikit-learn appears as parameters: the splitter, the sampler, cross validation and the predictions of
fitted estimators.  Each of them may also raise.  A time limit may end the evaluation wherever it is;
the model lets it do so in each of these calls and at the places in between that can be told apart
afterwards. -/

namespace Gama

/-- What may be raised inside the `with` block of `evaluate_pipeline`: the timeout of its own context
manager, the timeout of an outer one, something that is no `Exception` (such as
`KeyboardInterrupt`), an `Exception`. -/
inductive Raised where
  | own
  | outer
  | base (e : Exn)
  | exn (e : Exn)
  deriving DecidableEq

/-- The error reported. -/
inductive EvalError where
  | timeout
  | exn (e : Exn)
  deriving DecidableEq

/-- Train and test rows of a fold. -/
abbrev Fold := List Nat × List Nat

/-- `subsample`: none, a number of rows, or a fraction. -/
inductive Subsample where
  | none
  | rows (n : Nat)
  | frac (q : ℚ)

/-- What an estimator predicts for some rows: labels, or a row of probabilities each. -/
inductive FoldPred (V : Type) where
  | vec (v : List V)
  | mat (cols : Nat) (rows : List (List V))

/-- The `prediction` array: its number of columns if it has two dimensions, and its rows;
those of `np.empty` that were not assigned are `none`. -/
structure PredArray (V : Type) where
  cols : Option Nat
  rows : List (Option (List V))
  deriving DecidableEq

/-- scikit-learn and the clock, as seen by an evaluation.  `E` are fitted estimators, `M` metrics. -/
structure EvalEnv (E V M : Type) where
  /-- `object_is_valid_pipeline`, l.47-54 -/
  valid : Bool
  /-- `splitter.split(x, y_train)`; deterministic, l.88 -/
  split : Except Raised (List Fold)
  /-- the row index labels of `y_train` -/
  index : List Nat
  /-- `next(sampler.split(...))` for a training set of the given size -/
  sample : List Nat → Except Raised (List Nat)
  /-- `cross_validate`: the test scores by metric and the fitted estimators -/
  cv : List Fold → Except Raised ((M → List Score) × List E)
  /-- a timeout between l.122 and l.123 -/
  afterScores : Option Raised
  /-- `predict` or `predict_proba` for the rows -/
  predict : E → List Nat → Except Raised (FoldPred V)
  /-- a timeout after the last prediction -/
  atEnd : Option Raised

/-- `np.mean`: of a list of finite scores their mean; an infinite score decides (their sum is not
defined when infinities of both signs occur, here it is the first one). -/
def meanScores (l : List Score) : Score :=
  let rec go : List Score → ℚ → Score
    | [], acc => .fin (acc / l.length)
    | .fin q :: rest, acc => go rest (acc + q)
    | s :: _, _ => s
  go l 0

/-- `require_subsample`, l.91-93. -/
def requireSubsample (s : Subsample) (n : Nat) : Bool :=
  match s with
  | .none => false
  | .rows k => decide (k < n)
  | .frac q => decide (q < 1)

/-- `_validate_shuffle_split` of scikit-learn for `train_size=subsample`: no row may be left without
use. -/
def sampleSizeOk (s : Subsample) (train : Nat) : Bool :=
  match s with
  | .none => true
  | .rows k => decide (0 < k ∧ k < train)
  | .frac q => decide (0 < q ∧ q < 1)

/-- `y_train[train]`, l.108: a Series with an integer index is indexed by label; unknown labels are a
`KeyError`. -/
def labelLookup (index : List Nat) (train : List Nat) : Except Raised Unit :=
  if train.all fun i => index.contains i then .ok () else .error (.exn .keyError)

variable {E V M : Type}

/-- One round of the loop l.99-110: the rows of `subsample_idx` are positions in the training set. -/
def subsampleFold (env : EvalEnv E V M) (s : Subsample) (f : Fold) : Except Raised Fold :=
  match labelLookup env.index f.1 with
  | .error r => .error r
  | .ok _ =>
    if sampleSizeOk s f.1.length then
      match env.sample f.1 with
      | .error r => .error r
      | .ok idx => .ok (idx, f.2)
    else .error (.exn .valueError)

def subsampleFolds (env : EvalEnv E V M) (s : Subsample) : List Fold → Except Raised (List Fold)
  | [] => .ok []
  | f :: fs =>
    match subsampleFold env s f with
    | .error r => .error r
    | .ok g =>
      match subsampleFolds env s fs with
      | .error r => .error r
      | .ok gs => .ok (g :: gs)

/-- The folds used, l.89-111. -/
def prepareFolds (env : EvalEnv E V M) (s : Subsample) : Except Raised (List Fold) :=
  match env.split with
  | .error r => .error r
  | .ok fs => if requireSubsample s env.index.length then subsampleFolds env s fs else .ok fs

/-- Set the row at a position. -/
def setRow {α : Type} : List α → Nat → α → List α
  | [], _, _ => []
  | _ :: l, 0, y => y :: l
  | x :: l, i + 1, y => x :: setRow l i y

def setRows {α : Type} (l : List α) : List Nat → List α → List α
  | i :: is, y :: ys => setRows (setRow l i y) is ys
  | _, _ => l

/-- A new `prediction`, l.134-138. -/
def emptyPred (n : Nat) : FoldPred V → PredArray V
  | .vec _ => ⟨none, List.replicate n none⟩
  | .mat cols _ => ⟨some cols, List.replicate n none⟩

/-- `prediction[test] = fold_pred`, l.139: shapes must match, a single column is repeated.
Simplified: labels and probabilities never mix. -/
def assignPred (p : PredArray V) (test : List Nat) : FoldPred V → Except Raised (PredArray V)
  | .vec v =>
    if p.cols = none ∧ v.length = test.length then
      .ok ⟨p.cols, setRows p.rows test (v.map fun a => some [a])⟩
    else .error (.exn .valueError)
  | .mat cols rows =>
    match p.cols with
    | none => .error (.exn .valueError)
    | some k =>
      if rows.length = test.length then
        if cols = k then .ok ⟨p.cols, setRows p.rows test (rows.map some)⟩
        else if cols = 1 then
          .ok ⟨p.cols, setRows p.rows test (rows.map fun r =>
            match r with
            | a :: _ => some (List.replicate k a)
            | [] => some [])⟩
        else .error (.exn .valueError)
      else .error (.exn .valueError)

/-- The loop l.128-139: the array so far, and what was raised. -/
def predictLoop (env : EvalEnv E V M) : List E → List Fold → Option (PredArray V) →
    Option (PredArray V) × Option Raised
  | e :: es, f :: fs, p =>
    match env.predict e f.2 with
    | .error r => (p, some r)
    | .ok fp =>
      let p' := p.getD (emptyPred env.index.length fp)
      match assignPred p' f.2 fp with
      | .error r => (some p', some r)
      | .ok q => predictLoop env es fs (some q)
  | _, _, p => (p, none)

/-- What `evaluate_pipeline` returns. -/
structure PipeResult (E V : Type) where
  prediction : Option (PredArray V)
  scores : List Score
  estimators : Option (List E)
  error : Option EvalError
  deriving DecidableEq

/-- The body of the `try`, l.87-139: the variables afterwards, and what was raised. -/
def pipelineBody (env : EvalEnv E V M) (s : Subsample) (metrics : List M) :
    (Option (PredArray V) × List Score × Option (List E)) × Option Raised :=
  let failed := metrics.map fun _ => Score.ninf
  match prepareFolds env s with
  | .error r => ((none, failed, none), some r)
  | .ok folds =>
    match env.cv folds with
    | .error r => ((none, failed, none), some r)
    | .ok (result, estimators) =>
      let scores := metrics.map fun m => meanScores (result m)
      match env.afterScores with
      | some r => ((none, scores, none), some r)
      | none =>
        match predictLoop env estimators folds none with
        | (p, some r) => ((p, scores, some estimators), some r)
        | (p, none) => ((p, scores, some estimators), env.atEnd)

/-- `evaluate_pipeline`, l.57-158. -/
def evaluatePipeline (env : EvalEnv E V M) (timeout : ℚ) (s : Subsample) (metrics : List M) :
    Except Exn (PipeResult E V) :=
  if env.valid = false then .error .typeError
  else if timeout ≤ 0 then .error .valueError
  else
    match pipelineBody env s metrics with
    | ((p, sc, es), none) => .ok ⟨p, sc, es, none⟩
    | ((p, sc, es), some (.exn e)) => .ok ⟨p, sc, es, some (.exn e)⟩
    | ((p, sc, es), some .own) => .ok ⟨p, sc, es, some .timeout⟩
    | (_, some .outer) => .error .timeout
    | (_, some (.base e)) => .error e

/-- The `Evaluation` returned and the fitness of the individual (its values). -/
structure IndResult (E V : Type) where
  prediction : Option (PredArray V)
  score : List Score
  estimators : Option (List E)
  error : Option Str
  fitness : List Score

/-- `evaluate_individual`, l.161-218: `describe` renders the error, `length` is
`len(individual.primitives)`; times are left out. -/
def evaluateIndividual (env : EvalEnv E V M) (describe : EvalError → Str) (length : Nat)
    (timeout : ℚ) (deadline : Option ℚ) (now : ℚ) (addLength : Bool) (s : Subsample)
    (metrics : List M) : Except Exn (IndResult E V) :=
  match evaluatePipeline env (evalTimeout timeout deadline now) s metrics with
  | .error e => .error e
  | .ok r =>
    let score := if addLength then r.scores ++ [.fin (-(length : ℚ))] else r.scores
    .ok ⟨r.prediction, score, r.estimators, r.error.map describe, score⟩

/-! ### Metrics -/

/-- A scikit-learn scorer: its sign, the keyword arguments it is built with, and its score function,
which takes keyword arguments, true labels and predictions. -/
structure Scorer (K Y : Type) where
  sign : Int
  kwargs : List (Str × K)
  func : List (Str × K) → Y → Y → Except Exn ℚ

/-- The scorer called on a fitted estimator which makes the predictions (scikit-learn,
`_PredictScorer._score`). -/
def Scorer.call {K Y : Type} (c : Scorer K Y) (y pred : Y) : Except Exn ℚ :=
  match c.func c.kwargs y pred with
  | .error e => .error e
  | .ok q => .ok (c.sign * q)

/-- `Metric.score`, metrics.py l.57, called with labels and predictions. -/
def metricScore {K Y : Type} (c : Scorer K Y) (y pred : Y) : Except Exn ℚ := c.func [] y pred

/-- `Metric.maximizable_score`, l.62-63. -/
def maximizableScore {K Y : Type} (c : Scorer K Y) (y pred : Y) : Except Exn ℚ :=
  match metricScore c y pred with
  | .error e => .error e
  | .ok q => .ok (c.sign * q)

/-- `Gama.score`, gama.py l.441-445, given the predictions of the final model. -/
def gamaScore {K Y : Type} (metrics : List (Scorer K Y)) (y pred : Y) : Except Exn ℚ :=
  match metrics with
  | [] => .error .indexError
  | m :: _ => metricScore m y pred

end Gama
