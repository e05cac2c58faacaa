import Verif.Model.Library
import Verif.Model.Ensemble

/-!
# From the evaluation library to the ensemble

Models how `gama/postprocessing/ensemble.py` reads the library of
`gama/utilities/evaluation_library.py`, and how `gama/gama.py` and `gama/GamaClassifier.py` set that
library up.  A row of predictions is of type `P` in the library (a number, a class label, or the
probabilities of the classes); an ensemble works on rows `γ → ℚ` (for regression `γ` has one element).
-/

namespace Gama
open PyM

section
variable {α E P K γ : Type}

/-- The evaluation library made for `EnsemblePostProcessing`, gama.py l.291-299. -/
def gamaLibrary (hillclimbSize maxModels : Option Nat) : LibConfig :=
  ⟨some (libraryLimits hillclimbSize maxModels).1, some (libraryLimits hillclimbSize maxModels).2⟩

/-- The library when the search starts.  For classification (`stratify` is the number of labels) rows
are chosen first, GamaClassifier.py l.133; the exception of labels that cannot be stratified ends
`fit`. -/
def startLibrary (c : LibConfig) (stratify : Option Nat) (rnd : Stream) : Except Exn (Lib E P K) :=
  match stratify with
  | none => .ok (libInit c none rnd)
  | some k =>
    match determineSample c none none (some k) (libInit c none rnd) with
    | (.ok _, s) => .ok s
    | (.error e, _) => .error e

/-- `self.evaluation_library._sample` as used by `y.iloc[…]`, ensemble.py l.185-187: `None` is all
rows; the string `"not set"`, which it is until a prediction is saved, is refused by `iloc` with a
`TypeError`. -/
def sampleFor : Sample → Except Exn (Option (List Nat))
  | .notSet => .error .typeError
  | .all => .ok none
  | .rows idx => .ok (some idx)

/-- `Ensemble.__init__`, l.185-198, and `EnsembleClassifier.__init__`, l.422-427: `_y` and
`_prediction_sample`.  With `probabilities = false` this is also `EnsembleRegressor`. -/
def ensembleInit (probabilities : Bool) (down : Option Nat) (drawn : List Nat) (x : Sample) (y : List α) :
    Except Exn (List α × Option (List Nat)) :=
  match sampleFor x with
  | .error e => .error e
  | .ok sample =>
    match libraryRows sample y with
    | .error e => .error e
    | .ok y1 =>
      match labelsClassifier probabilities sample down drawn y with
      | .error e => .error e
      | .ok labels => .ok (labels, predictionSample down drawn y1.length)

/-- `predictions[self._prediction_sample]` if that is not `None` (or empty), l.213-214. -/
def sampledRows {β : Type} (sample : Option (List Nat)) (rows : List β) : Except Exn (List β) :=
  match sample with
  | none => .ok rows
  | some [] => .ok rows
  | some p => ilocRows rows p

/-- The entry of an array at a row and a class. -/
def entry (rows : List (γ → ℚ)) (k : Nat × γ) : ℚ :=
  match rows[k.1]? with
  | none => 0
  | some r => r k.2

/-- One entry of `model_library`, l.209-218: the predictions stored, transformed row by row, then
sampled.  Simplified: predictions that are `None` raise here (an `AttributeError` of the transformation,
or a `TypeError` of `None * weight` a little later, in the same `try`), and the estimators are read
here and not in `fit` l.327 (they are in the same file as the predictions). -/
def modelOf (trans : P → γ → ℚ) (sample : Option (List Nat)) (s : Lib E P K) (r : Ref E P K) :
    Except Exn (Mdl (Nat × γ) E) :=
  match readPredictions s r with
  | .error e => .error e
  | .ok none => .error .typeError
  | .ok (some ps) =>
    match sampledRows sample (ps.map trans) with
    | .error e => .error e
    | .ok rows =>
      match readEstimators s r with
      | .error e => .error e
      | .ok es => .ok ⟨r.given.ident, entry rows, es⟩

/-- The loop of `model_library`, l.208-218. -/
def modelsOf (trans : P → γ → ℚ) (sample : Option (List Nat)) (s : Lib E P K) :
    List (Ref E P K) → Except Exn (List (Mdl (Nat × γ) E))
  | [] => .ok []
  | r :: rs =>
    match modelOf trans sample s r with
    | .error e => .error e
    | .ok m =>
      match modelsOf trans sample s rs with
      | .error e => .error e
      | .ok ms => .ok (m :: ms)

variable [LinearOrder K]

/-- `build_fit_ensemble`, l.487-528, called by `EnsemblePostProcessing.post_process`, l.67-82, on
the evaluation library: the ensemble is made outside of the `try`, with `downsample_to=10_000` and
`use_top_n_only=200`, the defaults of l.144-145, as l.501-503 pass neither; the models are read inside of
it.  `metric` gives the score of predictions for the labels kept, `drawn` is what
`random.sample` gives. -/
def buildFromLibrary (metric : List α → (Nat × γ → ℚ) → Except Exn Score) (trans : P → γ → ℚ)
    (probabilities : Bool) (drawn : List Nat) (size : Int) (timeout : ℚ) (c : LibConfig) (y : List α)
    (s : Lib E P K) : Except Exn (Ens (Nat × γ) E) :=
  match ensembleInit probabilities (some 10000) drawn s.sample y with
  | .error e => .error e
  | .ok (labels, sample) =>
    match modelsOf trans sample s (nBest c 200 true s) with
    | .error _ => .ok (newEnsemble [])
    | .ok library => .ok (buildFitEnsemble (metric labels) size timeout library)

end
end Gama
