import Verif.Model.Data
import Verif.Model.Evaluate
import Verif.Model.Logs

/-!
# Scores: what the metrics take, averages over classes, successful evaluations

`Gama.score` (gama/gama.py l.440-445) and `Metric` (gama/utilities/metrics.py l.44-57) down to the
checks the metrics of scikit-learn (1.1 and 1.2, pyproject.toml l.22) make on their arguments; the
labels that `GamaClassifier.fit` gives to the scorers (gama/GamaClassifier.py l.138-140) and how
scikit-learn averages over them; `evaluate_on_rung` (gama/search_methods/asha.py l.210-219) and
`GamaReport.successful_evaluations` (gama/logging/GamaReport.py l.122-126).

The parts of scikit-learn are written out from its source for labels in a vector.
-/

namespace Gama

/-! ### Which arguments a score takes -/

/-- The metrics for classification, metrics.py l.7-10, by their score function: `accuracy_score`;
`precision_score`, `recall_score`, `f1_score`; `average_precision_score`; `log_loss`;
`roc_auc_score`. -/
inductive ScoreKind where
  | accuracy | setwise | averagePrecision | logLoss | rocAuc
  deriving DecidableEq

/-- `requires_probabilities`, metrics.py l.44-46. -/
def ScoreKind.needsProba : ScoreKind → Bool
  | .accuracy => false
  | .setwise => false
  | .averagePrecision => false
  | .logLoss => true
  | .rocAuc => true

section
variable {L : Type} [DecidableEq L]

/-- What a score function gets as predictions: labels, or probabilities with a number of columns. -/
inductive Predicted (L : Type) where
  | labels (pred : List L)
  | probabilities (cols : Nat)

/-- Whether `self._metrics[0].score(y, predictions)`, gama.py l.445, passes the checks of the score
function, which is called without keyword arguments (metrics.py l.57).  `pred` are the
predictions and `one` is the label 1.  Arguments of the other sort are not passed by `classifierScore`;
they count as refused.

* `accuracy_score`: as many predictions as labels;
* `precision_score` and others: `average='binary'`, so at most two different labels occur
  (`_check_targets`) and `pos_label=1` is one of them, unless there is only one
  (`_check_set_wise_labels`);
* `average_precision_score`: at most two different true labels, one of which is `pos_label=1` if
  there are two;
* `log_loss`: the classes are the true labels that occur, there must be two or more, as many as
  columns, where a single column counts as two;
* `roc_auc_score`: more than two classes or columns need the argument `multi_class`; for two classes
  the scores have to be one column. -/
def scoreTakes (k : ScoreKind) (one : L) (y : List L) (predictions : Predicted L) : Except Exn Unit :=
  if y = [] then .error .valueError
  else match k, predictions with
  | .accuracy, .labels pred => if y.length = pred.length then .ok () else .error .valueError
  | .setwise, .labels pred =>
    if y.length ≠ pred.length then .error .valueError
    else if 2 < (distinct (y ++ pred)).length then .error .valueError
    else if one ∉ y ++ pred ∧ 2 ≤ (distinct (y ++ pred)).length then .error .valueError
    else .ok ()
  | .averagePrecision, .labels pred =>
    if 2 < (distinct y).length then .error .valueError
    else if (distinct y).length = 2 ∧ one ∉ y then .error .valueError
    else if y.length ≠ pred.length then .error .valueError
    else .ok ()
  | .logLoss, .probabilities cols =>
    if (distinct y).length ≤ 1 then .error .valueError
    else if (distinct y).length ≠ (if cols = 1 then 2 else cols) then .error .valueError
    else .ok ()
  | .rocAuc, .probabilities cols =>
    if 2 < (distinct y).length ∨ 2 < cols then .error .valueError
    else if (distinct y).length ≠ 2 then .error .valueError
    else if cols ≠ 1 then .error .valueError
    else .ok ()
  | _, _ => .error .valueError

/-- `score` of a classifier that knows `classes`, gama.py l.440-445: its probabilities, used if the metric
requires them, have a column for each class. -/
def classifierScore (k : ScoreKind) (one : L) (classes y pred : List L) : Except Exn Unit :=
  scoreTakes k one y (if k.needsProba then .probabilities classes.length else .labels pred)

/-- Whether a scorer that requires probabilities passes the checks of scikit-learn for one fold of the
search: `test` are the labels of its test rows, `cols` is the number of labels its estimator was
fitted on, and `labels` are the labels handed on by `GamaClassifier.fit`, l.138-140, which has added
them to the arguments of the scorer.  The other scorers do not look at probabilities.

* `log_loss` by `_ProbaScorer._score`: if at most two labels occur in the test rows, the probabilities
  must not have one column only; then `log_loss` refuses `labels` in which one is missing
  (`LabelBinarizer.fit` asks `type_of_target`, which checks that numbers are finite; strings with
  missing ones among them cannot be sorted), and wants two or more of them, as many as columns, where
  a single column counts as two;
* `roc_auc_score` by `_ThresholdScorer._score`: at most two labels occur in the test rows
  (`type_of_target`), there are two columns (`_select_proba_binary`), and two labels occur; `labels` is
  not used.  Simplified: a classifier with a `decision_function` is taken to be fitted on two or more
  labels; for more than two it is refused as well (`multi_class`). -/
def foldTakes (k : ScoreKind) (labels test : List Label) (cols : Nat) : Except Exn Unit :=
  match k with
  | .logLoss =>
    if (distinct test).length ≤ 2 ∧ cols < 2 then .error .valueError
    else if labels.any Label.isNull then .error .valueError
    else if (distinct labels).length ≤ 1 then .error .valueError
    else if (distinct labels).length ≠ (if cols = 1 then 2 else cols) then .error .valueError
    else .ok ()
  | .rocAuc =>
    if 2 < (distinct test).length then .error .valueError
    else if cols ≠ 2 then .error .valueError
    else if (distinct test).length ≠ 2 then .error .valueError
    else .ok ()
  | _ => .ok ()

/-! ### Averages over classes -/

/-- The three measures that are averaged over labels. -/
inductive Measure where
  | precision | recall | f1

/-- The averages of metrics.py l.9. -/
inductive Average where
  | macroAvg | micro | samples | weighted
  deriving DecidableEq

/-- How often `c` is predicted rightly. -/
def truePos : List L → List L → L → Nat
  | t :: ts, p :: ps, c => (if t = c ∧ p = c then 1 else 0) + truePos ts ps c
  | _, _, _ => 0

/-- `_prf_divide` of scikit-learn: 0 where the denominator is. -/
def prfDivide (a b : ℚ) : ℚ := if b = 0 then 0 else a / b

/-- A measure from the numbers of right predictions, of predictions and of labels. -/
def Measure.of (m : Measure) (tp pred true : ℚ) : ℚ :=
  match m with
  | .precision => prfDivide tp pred
  | .recall => prfDivide tp true
  | .f1 => prfDivide (2 * prfDivide tp pred * prfDivide tp true) (prfDivide tp pred + prfDivide tp true)

def sumOver (labels : List L) (f : L → ℚ) : ℚ := (labels.map f).sum

/-- `precision_recall_fscore_support` of scikit-learn with the argument `labels`, for true labels `y`
and predictions `p`: the counts are selected by `searchsorted(sorted_labels, labels)`, that is once
for each entry of `labels`. -/
def prfScore (m : Measure) (a : Average) (labels y p : List L) : Except Exn ℚ :=
  let tp := fun c => (truePos y p c : ℚ)
  let pc := fun c => (p.count c : ℚ)
  let tc := fun c => (y.count c : ℚ)
  match a with
  | .samples => .error .valueError
  | .macroAvg => .ok (sumOver labels (fun c => m.of (tp c) (pc c) (tc c)) / labels.length)
  | .micro => .ok (m.of (sumOver labels tp) (sumOver labels pc) (sumOver labels tc))
  | .weighted =>
    if sumOver labels tc = 0 then .ok 0
    else .ok (sumOver labels (fun c => tc c * m.of (tp c) (pc c) (tc c)) / sumOver labels tc)

/-- The score of one fold in the search: `GamaClassifier.fit`, l.138-140, has set the argument `labels`
of the scorer to the vector of all training labels. -/
def searchScore (m : Measure) (a : Average) (trainLabels y p : List L) : Except Exn ℚ :=
  prfScore m a trainLabels y p

end

/-! ### Successful evaluations -/

/-- `evaluate_on_rung`, asha.py l.210-219, without the entries in `meta`. -/
def evaluateOnRung {E V : Type} (rung maxRung : Nat) (r : IndResult E V) : IndResult E V :=
  if r.error = none ∧ rung ≠ maxRung then { r with error := some "Not a full evaluation.".toList }
  else r

/-- `successful_evaluations`, GamaReport.py l.122-126: the rows with a finite number in each metric;
`finite` is false for infinite and missing values (`use_inf_as_na`). -/
def successfulEvaluations {M : Type} (finite : M → Bool) (rows : List (ReportRow M)) :
    List (ReportRow M) :=
  rows.filter fun r => r.metrics.all finite

/-- A finite score. -/
def Score.isFinite : Score → Bool
  | .fin _ => true
  | _ => false

end Gama
