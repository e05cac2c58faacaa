import Verif.Model.Ensemble

/-!
# Printing an ensemble

Models `Ensemble.__str__`, `gama/postprocessing/ensemble.py` l.360-367, and which attributes an
`Evaluation` has, `gama/utilities/evaluation_library.py` l.18-93.
-/

namespace Gama

section
variable {κ ε : Type}

/-- The attributes of an `Evaluation`: those assigned in `__init__` and the two properties,
evaluation_library.py l.32-43, 56-71.  (Special methods are left out: `__str__` reads none.) -/
def evaluationAttributes : List String :=
  ["individual", "score", "_estimators", "start_time", "duration", "error", "pid", "_cache_file",
   "_predictions", "estimators", "predictions"]

/-- `evaluation.name`: an `AttributeError` if there is no such attribute.  The value is not
modelled, it is only used to sort and to print. -/
def readAttribute (name : String) (_m : Mdl κ ε) : Except Exn Unit :=
  if name ∈ evaluationAttributes then .ok () else .error .attributeError

/-- An attribute read of each model in turn. -/
def readEach (name : String) : Models κ ε → Except Exn Unit
  | [] => .ok ()
  | e :: es =>
    match readAttribute name e.2.1 with
    | .error x => .error x
    | .ok _ => readEach name es

/-- The loop over the sorted models, l.365-366: two attributes are read for each row.  The rows are
counted; their order and text are not modelled. -/
def printRows : Models κ ε → Except Exn Nat
  | [] => .ok 0
  | e :: es =>
    match readAttribute "validation_score" e.2.1 with
    | .error x => .error x
    | .ok _ =>
      match readAttribute "name" e.2.1 with
      | .error x => .error x
      | .ok _ =>
        match printRows es with
        | .error x => .error x
        | .ok n => .ok (n + 1)

/-- What is printed: the text "Ensemble with no models.", or a table of so many models. -/
inductive Printed where
  | noModels
  | table (rows : Nat)
  deriving DecidableEq, Repr

/-- `Ensemble.__str__`, ensemble.py l.360-367.  `sorted` (l.364) reads the key of every model before
the first row is made. -/
def ensembleStr (s : Ens κ ε) : Except Exn Printed :=
  match s.models with
  | none => .ok .noModels
  | some [] => .ok .noModels
  | some l =>
    match readEach "validation_score" l with
    | .error x => .error x
    | .ok _ =>
      match printRows l with
      | .error x => .error x
      | .ok n => .ok (.table n)

end
end Gama
