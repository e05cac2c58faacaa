import Verif.Model.Data

/-!
# The model saved by the command line

`gama/utilities/cli.py` l.176-184: after `fit` the attribute `model` of the instance is pickled.  The
encoding of features and of labels are other attributes of the instance (gama.py l.541, GamaClassifier.py
l.128), which `predict` applies before and after the model.
-/

namespace Gama

/-- What a fitted instance predicts with: the columns it was fitted on, the label encoder's classes
(`none` for a regressor, which has no label encoder), `transform` of the encoding pipeline as a function
of the columns encoded ordinally and one-hot, and the prediction of `model`.  `X` are data frames. -/
structure Predictor (X : Type) where
  columns : List Column
  classes : Option (List Label)
  encode : List Str → List Str → X → Except Exn X
  model : X → Except Exn (List Label)

variable {X : Type}

/-- `predict` of a data frame, gama.py l.362-388 with GamaClassifier.py l.40-57 and GamaRegressor.py
l.20-34. -/
def Predictor.predict (g : Predictor X) (x : X) : Except Exn (List Label) :=
  match g.encode (ordinalColumns g.columns g.classes.isSome) (oneHotColumns g.columns) x with
  | .error e => .error e
  | .ok x' =>
    match g.model x' with
    | .error e => .error e
    | .ok p =>
      match g.classes with
      | none => .ok p
      | some cs => classifierPredict cs p

/-- `predict` of what `pickle.load` gives for the file the command line wrote, cli.py l.182-183.
Unpickling is taken to give an equal model. -/
def Predictor.savedPredict (g : Predictor X) (x : X) : Except Exn (List Label) := g.model x

end Gama
