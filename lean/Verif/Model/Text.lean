import Verif.Model.Predict

/-!
# Columns of text

From the data given to `fit` to the imputation step every pipeline starts with: `format_x_y`
(`gama/data_formatting.py` l.22-33 and l.98-101), `file_to_pandas` (`gama/data_loading.py` l.61-99),
`basic_encoding` and `basic_pipeline_extension` (`gama/utilities/preprocessing.py` l.45-87), called in
`gama/gama.py` l.538-546.
-/

namespace Gama

/-- A column as pandas has it: type and values (different texts stand as different numbers), and whether some value
is a text that is not that of a number. -/
structure RawColumn where
  name : Str
  data : DColumn
  text : Bool
  deriving DecidableEq

/-- What `fit` or `fit_from_file` is given; for an ARFF file with the names of the attributes that list their
values. -/
inductive Source where
  | array
  | csv
  | arff (nominal : List Str)
  | frame

/-- `infer_categoricals_inplace`, data_formatting.py l.22-26, on columns with names. -/
def inferRaw (python312 : Bool) : List RawColumn → Except Exn (List RawColumn)
  | [] => .ok []
  | c :: cs => match looksCategorical python312 c.data with
    | .error e => .error e
    | .ok b => match inferRaw python312 cs with
      | .error e => .error e
      | .ok cs' => .ok ((if b then { c with data := { c.data with dtype := .category } } else c) :: cs')

/-- The features of the data frame that `basic_encoding` is called with, for columns as `pd.DataFrame(x)`,
`pd.read_csv`, `pd.DataFrame(arff_dict["data"])` have made them or as the user gives them: types are inferred for
arrays (data_formatting.py l.32) and csv files (data_loading.py l.64), taken from the header for ARFF files (l.94-98),
and left alone for data frames (data_formatting.py l.98). -/
def sourceTable (python312 : Bool) : Source → List RawColumn → Except Exn (List RawColumn)
  | .array, t => inferRaw python312 t
  | .csv, t => inferRaw python312 t
  | .arff nominal, t =>
    .ok (t.map fun c => if nominal.contains c.name then { c with data := { c.data with dtype := .category } } else c)
  | .frame, t => .ok t

/-- What `select_categorical_columns` sees of a column, preprocessing.py l.36-37. -/
def RawColumn.seen (c : RawColumn) : Column :=
  ⟨c.name, decide (c.data.dtype = .category), valueCount c.data.values⟩

/-- The columns with text that are left when `imputation`, the last fixed step before the pipeline's own
(preprocessing.py l.85), is reached: those that were encoded, in `basic_encoding` or by the target encoder, hold
numbers. -/
def textAtImputation (classification : Bool) (t : List RawColumn) : List RawColumn :=
  let df := t.map RawColumn.seen
  t.filter fun c => c.text && !(ordinalColumns df classification).contains c.name &&
    !(oneHotColumns df).contains c.name && !(targetColumns df classification).contains c.name

/-- `SimpleImputer(strategy="median").fit`: text that is no number cannot be converted. -/
def imputeFit (classification : Bool) (t : List RawColumn) : Except Exn Unit :=
  if (textAtImputation classification t).isEmpty then .ok () else .error .valueError

end Gama
