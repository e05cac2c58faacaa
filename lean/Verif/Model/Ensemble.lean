import Verif.Model.Py
import Verif.Model.Score
import Verif.Model.Dict

/-!
# Ensembles

Models `gama/postprocessing/ensemble.py` and `gama/postprocessing/best_fit.py`.

Arrays of predictions are functions from positions (row, or row and class) to rational numbers:
arrays that meet in a sum have the same shape, and arithmetic is exact.  The metric is a parameter
`score` that gives the score of a prediction on the labels kept by the ensemble, or raises.
-/

namespace Gama
open PyM

section
variable {κ ε : Type}

/-- What an ensemble uses of an `Evaluation`: `individual._id`, `predictions` (on the hill climbing
set, transformed) and `estimators` (one per fold). -/
structure Mdl (κ ε : Type) where
  id : Nat
  preds : κ → ℚ
  estimators : List ε

/-- `_models`, ensemble.py l.203: from id to model and weight.  The id is the model's own. -/
abbrev Models (κ ε : Type) := List (Nat × Mdl κ ε × Int)

/-- An `Ensemble`, ensemble.py l.135-203: `_models` (`None` once pickled), `_internal_score`,
`_fit_models`.  `library` is the value of the property `model_library`, l.205-220 (the evaluation
library does not change while an ensemble is built). -/
structure Ens (κ ε : Type) where
  library : List (Mdl κ ε)
  models : Option (Models κ ε)
  internal : Score
  fit : Option (List (ε × Int))
  shrinkOnPickle : Bool

/-- A new ensemble, l.178-203. -/
def newEnsemble (library : List (Mdl κ ε)) : Ens κ ε := ⟨library, some [], .ninf, none, true⟩

/-- `_models.values()`; `AttributeError` on `None`. -/
def modelValues : PyM (Ens κ ε) (Models κ ε) := fun s =>
  match s.models with
  | none => (.error .attributeError, s)
  | some l => (.ok l, s)

/-- `_total_model_weights`, l.228-229. -/
def totalWeight (l : Models κ ε) : Int := (l.map fun e => e.2.2).sum

/-- The sum in `_averaged_validation_predictions`, l.233-235. -/
def weightedSum (l : Models κ ε) : κ → ℚ := fun k => (l.map fun e => e.2.1.preds k * (e.2.2 : ℚ)).sum

/-- `_averaged_validation_predictions`, l.231-236.  Without models this is `0 / 0`; otherwise the
sum is an array, division of which by zero is not an error (and does not happen). -/
def averaged : PyM (Ens κ ε) (κ → ℚ) := do
  let l ← modelValues
  if l.length = 0 then raise .zeroDivision
  else pure fun k => weightedSum l k / (totalWeight l : ℚ)

/-- `_add_model`, l.263-268: a model that is present keeps its (first) evaluation and moves to the
end. -/
def addModel (m : Mdl κ ε) : PyM (Ens κ ε) Unit := do
  let l ← modelValues
  let old := (dget l m.id).getD (m, 0)
  modify fun s => { s with models := some (dset (ddel l m.id) old.1.id (old.1, old.2 + 1)) }

def addModels : List (Mdl κ ε) → PyM (Ens κ ε) Unit
  | [] => pure ()
  | m :: ms => do addModel m; addModels ms

/-- `_ensemble_validation_score`, l.435-445, 478-481: the metric applied to a prediction. -/
def validationScore (score : (κ → ℚ) → Except Exn Score) (p : κ → ℚ) : PyM (Ens κ ε) Score :=
  fun s => (score p, s)

/-- `build_initial_ensemble`, l.238-261.  The score is computed for a log message. -/
def buildInitial (score : (κ → ℚ) → Except Exn Score) (n : Int) : PyM (Ens κ ε) Unit := do
  if n ≤ 0 then raise .valueError
  modify fun s => { s with models := some [] }
  let s ← PyM.get
  addModels (s.library.take n.toNat)
  let p ← averaged
  let _ ← validationScore score p
  pure ()

/-- The prediction with a model added, l.288-290. -/
def candidatePred (avg : κ → ℚ) (w : Int) (m : Mdl κ ε) : κ → ℚ :=
  fun k => avg k + (m.preds k - avg k) / ((w : ℚ) + 1)

/-- The inner loop, l.285-295.  (`model.score` is a tuple, so the test `model.score == 0` of l.286
never holds.) -/
def bestAddition (score : (κ → ℚ) → Except Exn Score) (avg : κ → ℚ) (w : Int) :
    List (Mdl κ ε) → Option (Mdl κ ε) → Score → PyM (Ens κ ε) (Option (Mdl κ ε) × Score)
  | [], best, bestScore => pure (best, bestScore)
  | m :: ms, best, bestScore => do
    let c ← validationScore score (candidatePred avg w m)
    if bestScore < c then bestAddition score avg w ms (some m) c
    else bestAddition score avg w ms best bestScore

/-- One round of `expand_ensemble`, l.282-302.  `prev` is what the variable `best_addition` holds
from the rounds before. -/
def expandOne (score : (κ → ℚ) → Except Exn Score) (prev : Option (Mdl κ ε)) :
    PyM (Ens κ ε) (Option (Mdl κ ε)) := do
  let avg ← averaged
  let l ← modelValues
  let s ← PyM.get
  let best ← bestAddition score avg (totalWeight l) s.library prev .ninf
  match best.1 with
  | none => raise .unboundLocal
  | some m => do
    addModel m
    modify fun s => { s with internal := best.2 }
    pure (some m)

def expandLoop (score : (κ → ℚ) → Except Exn Score) : Nat → Option (Mdl κ ε) → PyM (Ens κ ε) Unit
  | 0, _ => pure ()
  | n + 1, prev => do
    let m ← expandOne score prev
    expandLoop score n m

/-- `expand_ensemble`, l.270-302. -/
def expandEnsemble (score : (κ → ℚ) → Except Exn Score) (n : Int) : PyM (Ens κ ε) Unit := do
  if n ≤ 0 then raise .valueError
  expandLoop score n.toNat none

/-- `fit`, l.304-330. -/
def fitEnsemble (timeout : ℚ) : PyM (Ens κ ε) Unit := do
  let s ← PyM.get
  match s.models with
  | none => raise .runtimeError
  | some [] => raise .runtimeError
  | some l =>
    if timeout ≤ 0 then raise .valueError
    else modify fun s => { s with fit := some (l.flatMap fun e => e.2.1.estimators.map fun x => (x, e.2.2)) }

/-- The `try` block of `build_fit_ensemble`, l.509-524.  `timeout` is what is left of it after the
ensemble was built. -/
def buildFit (score : (κ → ℚ) → Except Exn Score) (size : Int) (timeout : ℚ) : PyM (Ens κ ε) Unit := do
  buildInitial score (if size ≤ 10 then 1 else 10)
  let l ← modelValues
  if 0 < size - totalWeight l then expandEnsemble score (size - totalWeight l)
  fitEnsemble timeout

/-- `build_fit_ensemble`, l.487-528: exceptions are logged, and the ensemble is returned as it
is. -/
def buildFitEnsemble (score : (κ → ℚ) → Except Exn Score) (size : Int) (timeout : ℚ)
    (library : List (Mdl κ ε)) : Ens κ ε := (buildFit score size timeout (newEnsemble library)).2

/-- `_get_weighted_mean_predictions`, l.350-358, for data that is fixed: `predict` gives the
(transformed) prediction of an estimator. Iterating over `None` is a `TypeError`. -/
def weightedMeanPredictions {κ' : Type} (predict : ε → κ' → ℚ) (s : Ens κ ε) : Except Exn (κ' → ℚ) :=
  match s.fit with
  | none => .error .typeError
  | some [] => .error .zeroDivision
  | some l => .ok fun k => (l.map fun e => predict e.1 k * (e.2 : ℚ)).sum / ((l.map Prod.snd).sum : ℚ)

/-- `__getstate__`, l.369-382: what is pickled is a copy of the attributes. -/
def getstate : PyM (Ens κ ε) (Ens κ ε) := do
  let s ← PyM.get
  if s.shrinkOnPickle then modify fun s => { s with models := none }
  PyM.get

/-- The part of `to_code`, l.84-132, that reads the ensemble: models and weights. -/
def toCode : PyM (Ens κ ε) (Models κ ε) := modelValues

end

/-! ### One-hot encoding and class predictions -/

/-- `OneHotEncoder.transform` of class labels, l.430-431; labels that are not among the
`classes` are refused. -/
def oneHot {ρ γ : Type} [DecidableEq γ] (pred : ρ → γ) : ρ × γ → ℚ :=
  fun k => if pred k.1 = k.2 then 1 else 0

/-- `np.argmax` over the classes: the first with the largest value.  Used by
`OneHotEncoder.inverse_transform`, l.461. -/
def argmax {γ : Type} (f : γ → ℚ) : List γ → Option γ
  | [] => none
  | c :: cs =>
    match argmax f cs with
    | none => some c
    | some d => if f d ≤ f c then some c else some d

/-- `EnsembleClassifier.predict_proba`, l.467-474, for data that is fixed: `label` and `proba` are what
`predict` and `predict_proba` of an estimator give, `probabilities` is `metric.requires_probabilities`. -/
def ensembleProba {κ ε ρ γ : Type} [DecidableEq γ] (probabilities : Bool) (label : ε → ρ → γ)
    (proba : ε → ρ × γ → ℚ) (s : Ens κ ε) : Except Exn (ρ × γ → ℚ) :=
  if probabilities then weightedMeanPredictions proba s
  else weightedMeanPredictions (fun e => oneHot (label e)) s

/-- `EnsembleClassifier.predict`, l.447-465: `classes` are the categories of the one-hot encoder.  There is
no label encoder (`build_fit_ensemble` is called without one, l.73-80). -/
def ensembleLabels {κ ε ρ γ : Type} [DecidableEq γ] (probabilities : Bool) (label : ε → ρ → γ)
    (proba : ε → ρ × γ → ℚ) (classes : List γ) (s : Ens κ ε) : Except Exn (ρ → Option γ) :=
  match if probabilities then weightedMeanPredictions proba s
    else weightedMeanPredictions (fun e => oneHot (label e)) s with
  | .error e => .error e
  | .ok p => .ok fun r => argmax (fun c => p (r, c)) classes

/-- `EnsembleRegressor.predict`, l.483-484. -/
def ensembleValues {κ ε ρ : Type} (predict : ε → ρ → ℚ) (s : Ens κ ε) : Except Exn (ρ → ℚ) :=
  weightedMeanPredictions predict s

/-! ### Rows used for hill climbing -/

/-- `a.iloc[idx]`, `a[idx]` for an array of indices: `IndexError` if one is out of bounds. -/
def ilocRows {α : Type} (l : List α) : List Nat → Except Exn (List α)
  | [] => .ok []
  | i :: is =>
    match l[i]? with
    | none => .error .indexError
    | some x =>
      match ilocRows l is with
      | .error e => .error e
      | .ok xs => .ok (x :: xs)

/-- The labels `y` matched to the library's sample, l.185-187. -/
def libraryRows {α : Type} (sample : Option (List Nat)) (y : List α) : Except Exn (List α) :=
  match sample with
  | none => .ok y
  | some s => ilocRows y s

/-- `_prediction_sample`, l.190-198; `drawn` is what `random.sample(range(len(y)), downsample_to)`
returns. -/
def predictionSample (down : Option Nat) (drawn : List Nat) (len : Nat) : Option (List Nat) :=
  match down with
  | none => none
  | some d => if len ≤ d then none else some drawn

/-- `Ensemble.__init__`, l.185-198: the labels kept for scoring. -/
def labelsBase {α : Type} (sample : Option (List Nat)) (down : Option Nat) (drawn : List Nat) (y : List α) :
    Except Exn (List α) :=
  match libraryRows sample y with
  | .error e => .error e
  | .ok y1 =>
    match predictionSample down drawn y1.length with
    | none => .ok y1
    | some p => ilocRows y1 p

/-- `EnsembleClassifier.__init__`, l.422-427 (`probabilities` is
`metric.requires_probabilities`): the labels are sampled a second time. -/
def labelsClassifier {α : Type} (probabilities : Bool) (sample : Option (List Nat)) (down : Option Nat)
    (drawn : List Nat) (y : List α) : Except Exn (List α) :=
  match libraryRows sample y with
  | .error e => .error e
  | .ok y1 =>
    match labelsBase sample down drawn y with
    | .error e => .error e
    | .ok y2 =>
      if probabilities then
        match predictionSample down drawn y1.length with
        | none => .ok y2
        | some p => ilocRows y2 p
      else .ok y2

/-- The predictions of a model used for scoring, given its stored predictions, l.210-214. -/
def predictionRows {α : Type} (down : Option Nat) (drawn : List Nat) (stored : List α) :
    Except Exn (List α) :=
  match predictionSample down drawn stored.length with
  | none => .ok stored
  | some [] => .ok stored
  | some p => ilocRows stored p

/-! ### The settings of `EnsemblePostProcessing` -/

/-- The value of a hyperparameter given as the pair (value set by the user, default),
base_post_processing.py l.44-55. -/
def hpValue {α : Type} (p : Option α × α) : α := p.1.getD p.2

/-- The `m` and `n` the evaluation library is made with, gama.py l.291-296, with the defaults of
`EnsemblePostProcessing.__init__`, ensemble.py l.54-60. -/
def libraryLimits (hillclimbSize maxModels : Option Nat) : Nat × Nat :=
  (hpValue (maxModels, 200), hpValue (hillclimbSize, 10000))

/-! ### Best fit -/

/-- `a < b` for tuples of floats. -/
def tupleLt : List Score → List Score → Bool
  | [], [] => false
  | [], _ :: _ => true
  | _ :: _, [] => false
  | a :: as, b :: bs => if a = b then tupleLt as bs else decide (a < b)

/-- `list(reversed(sorted(final_pop, key=lambda ind: ind.fitness.values)))`, gama.py l.602-609, then
`selection[0]`, best_fit.py l.26. -/
def bestFit {ι : Type} (values : ι → List Score) (pop : List ι) : Except Exn ι :=
  match (pySorted (fun a b => !tupleLt (values b) (values a)) pop).reverse with
  | [] => .error .indexError
  | x :: _ => .ok x

end Gama
