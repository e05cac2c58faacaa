import Verif.Model.Data

/-!
# Columns lost by encoding

`basic_encoding` (gama/utilities/preprocessing.py l.43-66) with the contents of columns: its ordinal
encoder has `drop_invariant=True` (l.61).
-/

namespace Gama

section
variable {V : Type} [DecidableEq V]

/-- A column with its values; `none` is a missing one. -/
structure DataColumn (V : Type) where
  name : Str
  categorical : Bool
  values : List (Option V)

/-- What `select_categorical_columns` looks at, l.36-37: missing values are not counted. -/
def DataColumn.summary (c : DataColumn V) : Column :=
  ⟨c.name, c.categorical, (distinct (c.values.filterMap id)).length⟩

/-- The numbers that `category_encoders.OrdinalEncoder` puts for values: 1, 2, ... in some order
`enum` of the different values, a missing one being one of them. -/
def ordinalCodes (enum : List (Option V)) (values : List (Option V)) : List ℚ :=
  values.map fun v => (((position v enum).getD 0 + 1 : Nat) : ℚ)

end

/-- `Series.var()` of pandas; `none` is `nan`.  Exact instead of rounded. -/
def sampleVariance (l : List ℚ) : Option ℚ :=
  if l.length ≤ 1 then none
  else some ((l.map fun x => (x - l.sum / l.length) ^ 2).sum / (l.length - 1))

/-- `X_temp[x].var() <= 10e-5`: what `category_encoders` takes for an invariant column. -/
def isInvariant (l : List ℚ) : Bool :=
  match sampleVariance l with
  | none => false
  | some q => decide (q ≤ 1 / 10000)

/-- The columns of `x` that are, encoded or not, in the table `basic_encoding` returns, l.55-66: of
those encoded ordinally the ones that vary, and all others.  (A one-hot encoded column becomes several.)
`enum c` is the order in which the values of `c` are numbered. -/
def keptColumns {V : Type} [DecidableEq V] (enum : DataColumn V → List (Option V)) (classification : Bool)
    (x : List (DataColumn V)) : List (DataColumn V) :=
  x.filter fun c => !((ordinalColumns (x.map DataColumn.summary) classification).contains c.name &&
    isInvariant (ordinalCodes (enum c) c.values))

/-! ### Data frames whose column names repeat -/

/-- `isinstance(df[column].dtype, CategoricalDtype)`, preprocessing.py l.35.  If several columns have
the name, `df[column]` is a data frame, which has no attribute `dtype`, unless that is the name: then
the attribute is the data frame itself, which is no dtype. -/
def hasCategoricalDtype (df : List Column) (c : Column) : Except Exn Bool :=
  if 1 < (df.map Column.name).count c.name then
    if c.name = "dtype".toList then .ok false else .error .attributeError
  else .ok c.categorical

/-- The loop of `select_categorical_columns`, preprocessing.py l.34-40, for a data frame whose names
may repeat, over what is left of its columns. -/
def selectNamed (df : List Column) (minF maxF : Option Nat) : List Column → Except Exn (List Str)
  | [] => .ok []
  | c :: cs => do
    let categorical ← hasCategoricalDtype df c
    let rest ← selectNamed df minF maxF cs
    .ok (if categorical && (match minF with | none => true | some n => decide (n ≤ c.factors)) &&
      (match maxF with | none => true | some n => decide (c.factors ≤ n)) then c.name :: rest else rest)

/-- The first lines of `basic_encoding`, l.55-58: the columns to encode ordinally and one-hot. -/
def encodingColumns (df : List Column) (classification : Bool) : Except Exn (List Str × List Str) := do
  let few ← selectNamed df none (some 2) df
  let many ← if classification then selectNamed df (some 11) none df else .ok []
  let some' ← selectNamed df (some 3) (some 10) df
  .ok (few ++ many, some')

end Gama
