import Verif.Model.Data
import Verif.Model.Export
import Verif.Model.Operators

/-!
# Files as data, exclusions of the search space

`gama/data_loading.py` l.39-161, the `..._from_file` functions of `gama/gama.py` l.390-505 and
`gama/GamaClassifier.py` l.96-124, `Gama.score` (gama.py l.423-445), and the search space that `fit`
leaves (gama.py l.551-576).

Decoding of files, the parsers of csv and arff, and the fitted model are parameters.
-/

namespace Gama

/-! ### Reading options and tables -/

/-- A table: column names with columns. -/
abbrev Table (V : Type) := List (Str × V)

/-- The keyword arguments of a reader. -/
abbrev Kwargs (A : Type) := List (Str × A)

def sepKey : Str := ['s', 'e', 'p']
def headerKey : Str := ['h', 'e', 'a', 'd', 'e', 'r']

/-- `csv_to_pandas` up to the call of `pandas.read_csv`, data_loading.py l.57-60: what is sniffed
fills in for options that were not given.  `sniffed` is the outcome of `sniff_csv_meta`: the two
values as arguments for `sep` and `header`. -/
def csvOptions {A : Type} (sniffed : Except Exn (A × A)) (kwargs : Kwargs A) : Except Exn (Kwargs A) :=
  if (dget kwargs headerKey).isNone || (dget kwargs sepKey).isNone then
    match sniffed with
    | .error e => .error e
    | .ok (sep, header) =>
      let k1 := dset kwargs sepKey ((dget kwargs sepKey).getD sep)
      .ok (dset k1 headerKey ((dget k1 headerKey).getD header))
  else .ok kwargs

/-- The type of an attribute in an arff file: a list of values, or another type. -/
inductive AttrType where
  | nominal (values : List Str)
  | other (name : Str)

/-- `isinstance(dtype, list)` -/
def AttrType.isNominal : AttrType → Bool
  | .nominal _ => true
  | .other _ => false

/-- `astype("category")` for the columns of one name. -/
def toCategory (name : Str) (cols : List (Str × Bool)) : List (Str × Bool) :=
  cols.map fun c => if c.1 = name then (c.1, true) else c

/-- `arff_to_pandas` after parsing, data_loading.py l.92-99: the columns, with whether they have
category dtype.  Without attributes unpacking fails. -/
def arffColumns (attributes : List (Str × AttrType)) : Except Exn (List (Str × Bool)) :=
  match attributes with
  | [] => .error .valueError
  | _ :: _ =>
    .ok (attributes.foldl (fun cols a => if a.2.isNominal then toCategory a.1 cols else cols)
      (attributes.map fun a => (a.1, false)))

/-- What reading depends on: the text of a file under an encoding (`none`: the default), and the
parsers of arff and csv. -/
structure Readers (B A V : Type) where
  decode : Option Str → B → Except Exn Str
  arff : Str → Kwargs A → Except Exn (Table V)
  csv : Str → Kwargs A → Except Exn (Table V)

/-- `file_to_pandas`, data_loading.py l.102-126, on the bytes of the file.  Simplification:
`open` and `pandas.read_csv` have the same default encoding. -/
def fileToPandas {B A V : Type} (R : Readers B A V) (path : Str) (encoding : Option Str)
    (kwargs : Kwargs A) (bytes : B) : Except Exn (Table V) :=
  match fileReader path with
  | .error e => .error e
  | .ok true => match R.decode encoding bytes with
    | .error e => .error e
    | .ok text => R.arff text kwargs
  | .ok false => match R.decode none bytes with
    | .error e => .error e
    | .ok text => R.csv text kwargs

/-- `X_y_from_file`, data_loading.py l.129-161. -/
def xyFromFile {B A V : Type} (R : Readers B A V) (path : Str) (target encoding : Option Str)
    (kwargs : Kwargs A) (bytes : B) : Except Exn (Table V × V) :=
  match fileToPandas R path encoding kwargs bytes with
  | .error e => .error e
  | .ok t => splitTable t target

/-! ### The front end on files -/

/-- What the functions of a fitted instance depend on: `_prepare_for_prediction`, `_predict`,
`_predict_proba`, whether the first metric needs probabilities, and its score function. -/
structure Fitted (V X P S : Type) where
  prepare : Table V → Except Exn X
  predict : X → Except Exn P
  proba : X → Except Exn P
  needsProba : Bool
  score : V → P → Except Exn S

variable {B A V X P S : Type}

/-- `predict`, gama.py l.374-388, of a data frame. -/
def predictFrame (g : Fitted V X P S) (t : Table V) : Except Exn P :=
  match g.prepare t with
  | .error e => .error e
  | .ok x => g.predict x

/-- `predict_proba`, GamaClassifier.py l.77-94. -/
def probaFrame (g : Fitted V X P S) (t : Table V) : Except Exn P :=
  match g.prepare t with
  | .error e => .error e
  | .ok x => g.proba x

/-- `score`, gama.py l.423-445. -/
def scoreFrame (g : Fitted V X P S) (t : Table V) (y : V) : Except Exn S :=
  match (if g.needsProba then probaFrame g t else predictFrame g t) with
  | .error e => .error e
  | .ok p => g.score y p

/-- `predict_from_file`, gama.py l.390-421. -/
def predictFromFile (R : Readers B A V) (g : Fitted V X P S) (path : Str)
    (target encoding : Option Str) (kwargs : Kwargs A) (bytes : B) : Except Exn P :=
  match xyFromFile R path target encoding kwargs bytes with
  | .error e => .error e
  | .ok (t, _) => match g.prepare t with
    | .error e => .error e
    | .ok x => g.predict x

/-- `predict_proba_from_file`, GamaClassifier.py l.96-124; it takes no further options. -/
def probaFromFile (R : Readers B A V) (g : Fitted V X P S) (path : Str)
    (target encoding : Option Str) (bytes : B) : Except Exn P :=
  match xyFromFile R path target encoding [] bytes with
  | .error e => .error e
  | .ok (t, _) => match g.prepare t with
    | .error e => .error e
    | .ok x => g.proba x

/-- `score_from_file`, gama.py l.447-476. -/
def scoreFromFile (R : Readers B A V) (g : Fitted V X P S) (path : Str)
    (target encoding : Option Str) (kwargs : Kwargs A) (bytes : B) : Except Exn S :=
  match xyFromFile R path target encoding kwargs bytes with
  | .error e => .error e
  | .ok (t, y) => scoreFrame g t y

/-- `fit_from_file`, gama.py l.478-505; `fit` is what the instance's `fit` does. -/
def fitFromFile {F W : Type} (R : Readers B A V) (fit : Table V → V → W → Except Exn F) (path : Str)
    (target encoding : Option Str) (warm : W) (kwargs : Kwargs A) (bytes : B) : Except Exn F :=
  match xyFromFile R path target encoding kwargs bytes with
  | .error e => .error e
  | .ok (t, y) => fit t y warm

/-! ### The search space after exclusions -/

/-- The search space in which the lists of predictors and preprocessors are replaced, gama.py
l.562-566, 572-576. -/
def withLists (ps : PSet) (s : List Primitive × List Primitive) : PSet where
  prims k := if k = predictionKey then s.1 else if k = dataTerminal then s.2 else ps.prims k
  terms := ps.terms

/-- The search space of a fit on `rows` × `cols` values. -/
def fitSpace (h : Heavy) (m : Option Nat) (rows cols : Nat) (ps : PSet) : PSet :=
  withLists ps (excludeHeavy h m rows cols (ps.prims predictionKey, ps.prims dataTerminal))

end Gama
