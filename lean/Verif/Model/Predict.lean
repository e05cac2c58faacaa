import Verif.Model.Data

/-!
# Fit and predict of the front end

`gama/GamaClassifier.py` l.18-38 and l.126-142, type inference of `gama/data_formatting.py` l.10-33,
prediction on arrays `gama/gama.py` l.352-388, the state kept by `fit` l.507-620, and `export_script`
l.663-714.
-/

namespace Gama

/-! ### The search space of a classifier -/

/-- A key of a search space: a class -- a classifier or not, whose instances can predict
probabilities or not -- or the name of a shared hyperparameter. -/
inductive SpaceKey
  | cls (name : Str) (classifier proba : Bool)
  | shared (name : Str)
  deriving DecidableEq, Repr

/-- The entries kept, GamaClassifier.py l.27-35.  Making an instance `alg()` is assumed to succeed. -/
def keepsEntry : SpaceKey → Bool
  | .cls _ classifier proba => !(classifier && !proba)
  | .shared _ => true

/-- The search space handed on by `GamaClassifier.__init__`, l.18-35.  `metrics` are the
`requires_probabilities` of the metrics. -/
def classifierSpace {V : Type} (given : Option (List (SpaceKey × V))) (default : List (SpaceKey × V))
    (metrics : List Bool) : List (SpaceKey × V) :=
  let space := match given with
    | some (e :: es) => e :: es
    | _ => default
  if metrics.any id then space.filter fun e => keepsEntry e.1 else space

/-! ### Labels of averaged metrics -/

/-- The labels set on a scorer by `GamaClassifier.fit`, l.138-140: all targets, one per row, if the
score function has a parameter `labels`. -/
def scorerLabels {L : Type} (hasParameter : Bool) (y : List L) : Option (List L) :=
  if hasParameter then some y else none

/-- scikit-learn's macro average (`precision_recall_fscore_support` with `average="macro"`) of a score
per class: the mean over the labels given, one term for each entry of the list, else over the classes
present. -/
def macroAverage {L : Type} (labels : Option (List L)) (present : List L) (score : L → ℚ) : ℚ :=
  let ls := labels.getD present
  (ls.map score).sum / ls.length

/-- With `average="weighted"`: each term has the support of its class as weight. -/
def weightedAverage {L : Type} (labels : Option (List L)) (present : List L) (support score : L → ℚ) : ℚ :=
  let ls := labels.getD present
  (ls.map fun l => support l * score l).sum / (ls.map support).sum

/-! ### Inferring categorical columns -/

/-- The type of a column. -/
inductive DType
  | object | int | uint | float | bool | complex | category | other
  deriving DecidableEq, Repr

/-- `is_numeric_dtype` -/
def DType.numeric : DType → Bool
  | .int | .uint | .float | .bool | .complex => true
  | _ => false

/-- A column: its type and its values, `none` for missing. -/
structure DColumn where
  dtype : DType
  values : List (Option ℚ)
  deriving DecidableEq

/-- `x.is_integer()` for an element of a column of the type: `float` has the method; `int` and `bool`,
as which unsigned and boolean elements are read, have it from Python 3.12 on; `complex` has not. -/
def elementIsInteger (python312 : Bool) (t : DType) (q : ℚ) : Except Exn Bool :=
  match t with
  | .float => .ok (q.den == 1)
  | .complex => .error .attributeError
  | _ => if python312 then .ok (q.den == 1) else .error .attributeError

/-- `all(x.is_integer() for x in series.dropna())`, data_formatting.py l.16: stops at the first
element that is none. -/
def allIntegers (python312 : Bool) (t : DType) : List (Option ℚ) → Except Exn Bool
  | [] => .ok true
  | none :: vs => allIntegers python312 t vs
  | some q :: vs => match elementIsInteger python312 t q with
    | .error e => .error e
    | .ok false => .ok false
    | .ok true => allIntegers python312 t vs

/-- `len(series.value_counts())`: the number of different values, missing ones left out. -/
def valueCount (vs : List (Option ℚ)) : Nat := (distinct (vs.filterMap id)).length

/-- `series_looks_categorical`, l.10-19. -/
def looksCategorical (python312 : Bool) (c : DColumn) : Except Exn Bool :=
  if c.dtype = .object then .ok true
  else if c.dtype.numeric then
    let integerLike := if c.dtype = .int then .ok true else allIntegers python312 c.dtype c.values
    match integerLike with
    | .error e => .error e
    | .ok b => .ok (decide (valueCount c.values ≤ 10) && b)
  else .ok false

/-- `infer_categoricals_inplace`, l.22-26. -/
def inferCategoricals (python312 : Bool) : List DColumn → Except Exn (List DColumn)
  | [] => .ok []
  | c :: cs => match looksCategorical python312 c with
    | .error e => .error e
    | .ok b => match inferCategoricals python312 cs with
      | .error e => .error e
      | .ok cs' => .ok ((if b then { c with dtype := .category } else c) :: cs')

/-! ### Arrays -/

/-- The label of a column: a number for a table made from an array, else a name. -/
inductive ColName
  | num (i : Nat)
  | name (s : Str)
  deriving DecidableEq, Repr

/-- A table as columns with labels and types `D`. -/
abbrev TypedTable (D V : Type) := List (ColName × D × List V)

/-- `pd.DataFrame(array)`: columns numbered from `i`. -/
def numberedColumns {D V : Type} (plain : D) : Nat → List (List V) → TypedTable D V
  | _, [] => []
  | i, c :: cs => (.num i, plain, c) :: numberedColumns plain (i + 1) cs

/-- `x[i] = x[i].astype(dtype)`, gama.py l.359; KeyError without such a column. -/
def castColumn {D V : Type} (cast : D → List V → Except Exn (List V)) (k : ColName) (d : D) :
    TypedTable D V → Except Exn (TypedTable D V)
  | [] => .error .keyError
  | (k', d', vs) :: t =>
    if k' = k then match cast d vs with
      | .error e => .error e
      | .ok vs' => .ok ((k', d, vs') :: t)
    else match castColumn cast k d t with
      | .error e => .error e
      | .ok t' => .ok ((k', d', vs) :: t')

/-- The loop, l.358-359, from column `i` on. -/
def castColumns {D V : Type} (cast : D → List V → Except Exn (List V)) :
    Nat → List D → TypedTable D V → Except Exn (TypedTable D V)
  | _, [], t => .ok t
  | i, d :: ds, t => match castColumn cast (.num i) d t with
    | .error e => .error e
    | .ok t' => castColumns cast (i + 1) ds t'

/-- `_np_to_matching_dataframe`, l.352-360, for an array given by its columns. -/
def npToMatching {D V : Type} (cast : D → List V → Except Exn (List V)) (plain : D)
    (inferred : List D) (array : List (List V)) : Except Exn (TypedTable D V) :=
  castColumns cast 0 inferred (numberedColumns plain 0 array)

/-! ### The state kept by `fit` -/

/-- What `predict` uses: the encoding pipeline, the encoder of the labels and the model. -/
structure FitState (E L M : Type) where
  encoding : Option E
  labels : Option L
  model : Option M
  deriving DecidableEq

/-- How the parts of a fit end: encoding the labels (`none` for a regressor), preprocessing, whether
time remains, the search, making the model from the encoded data, cleaning up. -/
structure FitRun (E L M : Type) where
  labels : Option (Except Exn L)
  preprocess : Except Exn E
  timeLeft : Bool
  search : Except Exn Unit
  model : Except Exn M
  clean : Except Exn Unit

/-- `Gama.fit`, gama.py l.533-620: the encoding is stored first (l.541), the model last (l.611). -/
def gamaFit {E L M : Type} (r : FitRun E L M) (s : FitState E L M) : Except Exn Unit × FitState E L M :=
  match r.preprocess with
  | .error e => (.error e, s)
  | .ok enc =>
    let s := { s with encoding := some enc }
    if !r.timeLeft then (.error .runtimeError, s)
    else match r.search with
      | .error e => (.error e, s)
      | .ok () => match r.model with
        | .error e => (.error e, s)
        | .ok m => (r.clean, { s with model := some m })

/-- `fit` of a regressor or a classifier; the latter stores the label encoder before anything else
(GamaClassifier.py l.126-142). -/
def frontFit {E L M : Type} (r : FitRun E L M) (s : FitState E L M) : Except Exn Unit × FitState E L M :=
  match r.labels with
  | none => gamaFit r s
  | some (.error e) => (.error e, s)
  | some (.ok l) => gamaFit r { s with labels := some l }

/-- `predict`, gama.py l.362-388: what is applied to the data -- the encoding, if any, the model, and
the labels; without a model an AttributeError. -/
def frontPredict {E L M : Type} (s : FitState E L M) : Except Exn (Option E × M × Option L) :=
  match s.model with
  | none => .error .attributeError
  | some m => .ok (s.encoding, m, s.labels)

/-- Several fits in a row, each ending well or not. -/
def frontFits {E L M : Type} : List (FitRun E L M) → FitState E L M → FitState E L M
  | [], s => s
  | r :: rs, s => frontFits rs (frontFit r s).2

/-! ### Exporting a script -/

/-- Files by name with their contents. -/
abbrev Files := Str → Option Str

/-- `file is not None and os.path.isfile(file)`, l.700. -/
def fileTaken (file : Option Str) (fs : Files) : Bool := match file with
  | none => false
  | some f => (fs f).isSome

/-- `export_script`, l.663-714, for the code of a fitted model.  `black` tells what formatting makes of
a text; `none` if the program cannot be started. -/
def exportScript (code : Option Str) (black : Option (Str → Str)) (file : Option Str)
    (raiseIfExists : Bool) (fs : Files) : Except Exn Str × Files :=
  match code with
  | none => (.error .runtimeError, fs)
  | some text =>
    if raiseIfExists && fileTaken file fs then (.error .fileExists, fs)
    else match file with
      | none => (.ok text, fs)
      | some [] => (.ok text, fs)
      | some f =>
        match black with
        | none => (.error .fileNotFound, fun g => if g = f then some text else fs g)
        | some b => (.ok text, fun g => if g = f then some (b text) else fs g)

end Gama
