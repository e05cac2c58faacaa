import Verif.Model.Data

/-!
# Choosing rows by class

`GamaClassifier.fit` (GamaClassifier.py l.126-133) before it calls `Gama.fit`: labels are encoded, then
`determine_sample_indices(stratify=y)` (evaluation_library.py l.168-212) lets scikit-learn's
`StratifiedShuffleSplit` choose rows.  Which rows is `Model/Library.lean`; here is when that is refused.
-/

namespace Gama

/-- The labels the splitter sees in `y` (`check_array(y, ensure_2d=False)`): of two-dimensional ones,
which have one column here, each row counts as a label. -/
def stratifyLabels : Target → List Label
  | .list v => v
  | .array1 v => v
  | .series v => v
  | .array2 rows _ => firstColumn rows
  | .frame rows _ => firstColumn rows
  | .other => []

/-- `StratifiedShuffleSplit(n_splits=1, train_size=n).split(…, y)` of scikit-learn, as far as errors go:
`train_size` has to be positive and less than the number of rows, labels must not be missing, each class
needs two rows, and both parts at least as many rows as there are classes. -/
def splitStratified (n : Nat) (v : List Label) : Except Exn Unit :=
  if n = 0 ∨ v.length ≤ n then .error .valueError
  else if v.any Label.isNull then .error .valueError
  else if (distinct v).any (fun c => decide (v.count c < 2)) then .error .valueError
  else if n < (distinct v).length then .error .valueError
  else if v.length - n < (distinct v).length then .error .valueError
  else .ok ()

/-- `determine_sample_indices(stratify=y)`, evaluation_library.py l.195-212, as far as errors go; `n` is
`_sample_n`. -/
def chooseStratified (n : Option Nat) (v : List Label) : Except Exn Unit :=
  match n with
  | none => .ok ()
  | some n => if n < v.length then splitStratified n v else .ok ()

/-- `GamaClassifier.fit`, l.128-133: the classes and the `y` handed on. -/
def classifierStart (n : Option Nat) (y : Target) : Except Exn (List Label × Target) :=
  match classifierFit y with
  | .error e => .error e
  | .ok (classes, y') =>
    match chooseStratified n (stratifyLabels y') with
    | .error e => .error e
    | .ok () => .ok (classes, y')

/-- `_sample_n` of the library made for `BestFitPostProcessing`, gama.py l.299: the default of
evaluation_library.py l.116. -/
def bestFitSample : Option Nat := some 10000

end Gama
