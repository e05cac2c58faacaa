import Verif.Model.Py
import Mathlib.Data.Rat.Defs
import Mathlib.Algebra.Order.Ring.Unbundled.Rat

/-! # Data: formatting, preprocessing, loading, labels

Models gama/data_formatting.py, gama/utilities/preprocessing.py, `X_y_from_file` of
gama/data_loading.py, and the label handling of gama/GamaClassifier.py.

Tables are lists of rows (or of columns, where rows do not matter).  What pandas and scikit-learn do
is written out where it matters here and belongs to the trusted base: selection with a boolean
Series, `squeeze`, `LabelEncoder`. -/

namespace Gama

/-- A value in a target column. -/
inductive Label where
  | num (q : ℚ)
  | str (s : Str)
  | nan
  deriving DecidableEq

def Label.isNull : Label → Bool
  | .nan => true
  | _ => false

def Label.isStr : Label → Bool
  | .str _ => true
  | _ => false

/-! ### Removing rows without label -/

/-- Rows with their index labels. -/
abbrev Indexed (α : Type) := List (Nat × α)

/-- The value of a Series at an index label. -/
def seriesAt (mask : Indexed Bool) (i : Nat) : Option Bool :=
  match mask with
  | [] => none
  | (j, b) :: rest => if j = i then some b else seriesAt rest i

/-- Reindex a boolean Series to other labels: an unknown label is an `IndexingError`. -/
def reindex (mask : Indexed Bool) : List Nat → Except Exn (List Bool)
  | [] => .ok []
  | i :: is =>
    match seriesAt mask i with
    | none => .error .indexError
    | some b =>
      match reindex mask is with
      | .error e => .error e
      | .ok bs => .ok (b :: bs)

/-- The rows where the mask is true. -/
def keepRows {α : Type} : List α → List Bool → List α
  | x :: xs, true :: bs => x :: keepRows xs bs
  | _ :: xs, false :: bs => keepRows xs bs
  | _, _ => []

/-- `x.loc[mask]` for a boolean Series (pandas, `check_bool_indexer`): if the index differs from
that of `x` the mask is reindexed, which fails for a mask whose index has duplicates. -/
def locMask {α : Type} (x : Indexed α) (mask : Indexed Bool) : Except Exn (Indexed α) :=
  if x.map Prod.fst = mask.map Prod.fst then .ok (keepRows x (mask.map Prod.snd))
  else if (mask.map Prod.fst).Nodup then
    match reindex mask (x.map Prod.fst) with
    | .error e => .error e
    | .ok bs => .ok (keepRows x bs)
  else .error .valueError

/-- `remove_unlabeled_rows`, data_formatting.py l.59-74, for a Series `y`. -/
def removeUnlabeled {α : Type} (x : Indexed α) (y : Indexed Label) :
    Except Exn (Indexed α × Indexed Label) :=
  if y.any fun e => e.2.isNull then
    let mask : Indexed Bool := y.map fun e => (e.1, !e.2.isNull)
    match locMask x mask with
    | .error e => .error e
    | .ok x' =>
      match locMask y mask with
      | .error e => .error e
      | .ok y' => .ok (x', y')
  else .ok (x, y)

/-! ### Target formats -/

/-- What the user may pass as `y`; a two-dimensional one has its rows and the number of columns.
`list` is a Python list of labels. -/
inductive Target where
  | list (v : List Label)
  | array1 (v : List Label)
  | array2 (rows : List (List Label)) (cols : Nat)
  | series (v : List Label)
  | frame (rows : List (List Label)) (cols : Nat)
  | other

/-- What `format_y` returns when a Series is asked for. -/
inductive YOut where
  | series (v : List Label)
  | frame (rows : List (List Label)) (cols : Nat)
  | scalar (c : Label)
  deriving DecidableEq

/-- The numbers of a row, if they all are. -/
def rowNums : List Label → Option (List ℚ)
  | [] => some []
  | .num q :: l => (rowNums l).map fun r => q :: r
  | _ :: _ => none

/-- The position of the first largest of `b :: l`, where `b` is at `best` and `l` starts at `i`. -/
def argmaxFrom (i best : Nat) (b : ℚ) : List ℚ → Nat
  | [] => best
  | q :: l => if b < q then argmaxFrom (i + 1) i q l else argmaxFrom (i + 1) best b l

/-- `np.argmax` of a row; simplified: an error for rows that are not numeric. -/
def argmaxRow (row : List Label) : Except Exn Nat :=
  match rowNums row with
  | none => .error .typeError
  | some [] => .error .valueError
  | some (q :: l) => .ok (argmaxFrom 1 0 q l)

def argmaxRows : List (List Label) → Except Exn (List Label)
  | [] => .ok []
  | r :: rs =>
    match argmaxRow r with
    | .error e => .error e
    | .ok i =>
      match argmaxRows rs with
      | .error e => .error e
      | .ok l => .ok (.num i :: l)

/-- The first column. -/
def firstColumn (rows : List (List Label)) : List Label := rows.map fun r => r.headD .nan

/-- `DataFrame.squeeze()`: axes of length one are dropped. -/
def squeezeFrame (rows : List (List Label)) (cols : Nat) : YOut :=
  if cols = 1 then
    match rows with
    | [r] => .scalar (r.headD .nan)
    | _ => .series (firstColumn rows)
  else
    match rows with
    | [r] => .series r
    | _ => .frame rows cols

/-- `format_y`, l.36-56, with `y_type=pd.Series`; `format_x_y`, l.103-104, leaves a Series as it
is. -/
def formatY : Target → Except Exn YOut
  | .other => .error .typeError
  | .list _ => .error .typeError
  | .series v => .ok (.series v)
  | .array1 v => .ok (.series v)
  | .array2 rows cols =>
    if 1 < cols then
      match argmaxRows rows with
      | .error e => .error e
      | .ok l => .ok (.series l)
    else if cols = 1 then .ok (.series (firstColumn rows))
    else .error .valueError
  | .frame rows cols => .ok (squeezeFrame rows cols)

/-! ### Encoding of features -/

/-- A column: its name, whether its dtype is categorical, its number of distinct values. -/
structure Column where
  name : Str
  categorical : Bool
  factors : Nat
  deriving DecidableEq

/-- `select_categorical_columns`, preprocessing.py l.12-42. -/
def selectColumns (df : List Column) (minF maxF : Option Nat) : List Str :=
  (df.filter fun c => c.categorical && (match minF with | none => true | some n => decide (n ≤ c.factors)) &&
    (match maxF with | none => true | some n => decide (c.factors ≤ n))).map Column.name

/-- The columns `basic_encoding` encodes ordinally, l.55-57. -/
def ordinalColumns (df : List Column) (classification : Bool) : List Str :=
  selectColumns df none (some 2) ++ (if classification then selectColumns df (some 11) none else [])

/-- The columns it one-hot encodes, l.58. -/
def oneHotColumns (df : List Column) : List Str := selectColumns df (some 3) (some 10)

/-- The columns still categorical in the encoded table, l.65: those not encoded are passed on as
they are.  (That `drop_invariant` drops constant columns and that one-hot encoding adds numeric
columns does not matter here.) -/
def encodedTable (df : List Column) (classification : Bool) : List Column :=
  df.filter fun c => !(ordinalColumns df classification).contains c.name && !(oneHotColumns df).contains c.name

/-- The columns the pipelines target encode, `basic_pipeline_extension`, l.69-87, called with the
encoded table, gama.py l.544-546. -/
def targetColumns (df : List Column) (classification : Bool) : List Str :=
  if classification then [] else selectColumns (encodedTable df classification) (some 11) none

/-- The names of the steps `basic_pipeline_extension` returns. -/
def extensionSteps (classification : Bool) : List Str :=
  (if classification then [] else ["target_enc".toList]) ++ ["imputation".toList]

/-! ### Loading -/

/-- `X_y_from_file`, data_loading.py l.155-161, after the file was read: a table is a list of named
columns with different names (which pandas and arff ensure). -/
def splitTable {K V : Type} [DecidableEq K] (data : List (K × V)) (split : Option K) :
    Except Exn (List (K × V) × V) :=
  match split with
  | none =>
    match data.getLast? with
    | none => .error .indexError
    | some c => .ok (data.dropLast, c.2)
  | some s =>
    match data.find? fun c => c.1 = s with
    | none => .error .valueError
    | some c => .ok (data.filter (fun c => c.1 ≠ s), c.2)

/-- `endswith` -/
def endsWith (s suffix : Str) : Bool := suffix.isSuffixOf s

/-- What reader `file_to_pandas`, l.120-126, uses: true for arff, false for csv. -/
def fileReader (path : Str) : Except Exn Bool :=
  if endsWith path ['.', 'a', 'r', 'f', 'f'] then .ok true
  else if endsWith path ['.', 'c', 's', 'v'] then .ok false
  else .error .valueError

/-! ### Labels of a classifier -/

/-- `a <= b` for strings: lexicographic by code point. -/
def labelStrLe : Str → Str → Bool
  | [], _ => true
  | _ :: _, [] => false
  | a :: as, b :: bs => if a = b then labelStrLe as bs else decide (a.toNat < b.toNat)

def distinct {α : Type} [DecidableEq α] : List α → List α
  | [] => []
  | x :: xs => if x ∈ xs then distinct xs else x :: distinct xs

def strsOf : List Label → List Str
  | [] => []
  | .str s :: l => s :: strsOf l
  | _ :: l => strsOf l

def numsOf : List Label → List ℚ
  | [] => []
  | .num q :: l => q :: numsOf l
  | _ :: l => numsOf l

/-- `LabelEncoder().fit(y).classes_` of scikit-learn: the different labels sorted, missing ones
last; strings and numbers cannot be sorted together. -/
def labelClasses (y : List Label) : Except Exn (List Label) :=
  let nans := if y.any Label.isNull then [Label.nan] else []
  match strsOf y, numsOf y with
  | [], ns => .ok ((pySorted (fun a b => decide (a ≤ b)) (distinct ns)).map .num ++ nans)
  | ss, [] => .ok ((pySorted labelStrLe (distinct ss)).map .str ++ nans)
  | _, _ => .error .typeError

/-- The position of a value in a list. -/
def position {α : Type} [DecidableEq α] (x : α) : List α → Option Nat
  | [] => none
  | y :: ys => if x = y then some 0 else (position x ys).map (· + 1)

/-- `LabelEncoder.transform` -/
def encodeLabels (classes : List Label) : List Label → Except Exn (List Label)
  | [] => .ok []
  | c :: cs =>
    match position c classes with
    | none => .error .valueError
    | some i =>
      match encodeLabels classes cs with
      | .error e => .error e
      | .ok l => .ok (.num i :: l)

/-- `LabelEncoder.inverse_transform`: positions that are out of range (or not integers) are a
`ValueError`. -/
def decodeOne (classes : List Label) : Label → Except Exn Label
  | .num q =>
    if q.den = 1 ∧ 0 ≤ q.num then
      match classes[q.num.toNat]? with
      | some c => .ok c
      | none => .error .valueError
    else .error .valueError
  | _ => .error .valueError

def decodeLabels (classes : List Label) : List Label → Except Exn (List Label)
  | [] => .ok []
  | c :: cs =>
    match decodeOne classes c with
    | .error e => .error e
    | .ok d =>
      match decodeLabels classes cs with
      | .error e => .error e
      | .ok l => .ok (d :: l)

/-- The one-dimensional labels `LabelEncoder.fit` sees, GamaClassifier.py l.128-129: a DataFrame is
squeezed; two dimensions are refused unless there is one column; a list is made an array. -/
def encoderInput : Target → Except Exn (List Label)
  | .list v => .ok v
  | .array1 v => .ok v
  | .series v => .ok v
  | .array2 rows cols => if cols = 1 then .ok (firstColumn rows) else .error .valueError
  | .frame rows cols =>
    match squeezeFrame rows cols with
    | .series v => .ok v
    | _ => .error .valueError
  | .other => .error .typeError

/-- Whether `any(isinstance(yi, str) for yi in y_)`, l.130: the elements of a two-dimensional array
are arrays. -/
def seesStrings : Target → Bool
  | .list v => v.any Label.isStr
  | .array1 v => v.any Label.isStr
  | .series v => v.any Label.isStr
  | .array2 _ _ => false
  | .frame rows cols =>
    match squeezeFrame rows cols with
    | .series v => v.any Label.isStr
    | _ => false
  | .other => false

/-- `GamaClassifier.fit`, l.128-132: the classes of the label encoder and the `y` handed on. -/
def classifierFit (y : Target) : Except Exn (List Label × Target) :=
  match encoderInput y with
  | .error e => .error e
  | .ok v =>
    match labelClasses v with
    | .error e => .error e
    | .ok classes =>
      if seesStrings y then
        match encodeLabels classes v with
        | .error e => .error e
        | .ok l => .ok (classes, .array1 l)
      else .ok (classes, y)

/-- `GamaClassifier._predict`, l.53-57, given what the model predicts. -/
def classifierPredict (classes : List Label) (pred : List Label) : Except Exn (List Label) :=
  match pred with
  | [] => .error .indexError
  | c :: cs => if c ∈ classes then .ok (c :: cs) else decodeLabels classes (c :: cs)

end Gama
