import Verif.Model.Data
import Verif.Model.Loading
import Verif.Model.Predict

/-!
# Column names of csv files

How the columns of a csv file are called in the table that `csv_to_pandas` gives (data_loading.py
l.39-66), and how `X_y_from_file` (l.129-161) looks up the one asked for.
-/

namespace Gama

/-- The labels that `pandas.read_csv` gives the columns of a file whose first line has these fields
(l.60 and l.62): with `header=0` the fields, with `header=None` the numbers 0, 1, ...  Simplification:
pandas renames fields that are empty or occur twice, and removes quotes. -/
def csvLabels (header : Bool) (fields : List Str) : List ColName :=
  if header then fields.map .name else (List.range fields.length).map .num

/-- `X_y_from_file` of a csv file with these fields on its first line, and columns with this content,
l.154-161. -/
def csvXy {V : Type} (header : Bool) (fields : List Str) (columns : List V) (target : Option Str) :
    Except Exn (List (ColName × V) × V) :=
  splitTable ((csvLabels header fields).zip columns) (target.map .name)

end Gama
