import Verif.Model.Logs

/-!
# Reading metadata of files, and the command line

`gama/data_loading.py` l.14-36 and l.102-198 as far as it is done by GAMA itself, and
`gama/utilities/cli.py`.  The contents of tables are `Model/Data.lean`.
-/

namespace Gama

/-! ### Texts -/

/-- `s.lower()`, for ASCII letters. -/
def lowerStr (s : Str) : Str := s.map Char.toLower

/-- `s.startswith(p)` -/
def startsWith (p s : Str) : Bool := (afterPrefix p s).isSome

/-- `s.endswith(p)` -/
def endsIn (p s : Str) : Bool := startsWith p.reverse s.reverse

/-- The lines of a text as `readline` gives them, line ends included. -/
def linesKept : Str → List Str
  | [] => []
  | c :: s =>
    if c = '\n' then ['\n'] :: linesKept s
    else match linesKept s with
      | [] => [[c]]
      | l :: ls => (c :: l) :: ls

/-- `a, b = s.split(tok, 1)`: what is before and after the first occurrence; without one, unpacking
fails. -/
def splitOnce (tok : Str) : Str → Except Exn (Str × Str)
  | [] => .error .valueError
  | c :: s => match afterPrefix tok (c :: s) with
    | some rest => .ok ([], rest)
    | none => match splitOnce tok s with
      | .ok (a, b) => .ok (c :: a, b)
      | .error e => .error e

/-! ### ARFF metadata -/

/-- `"@data"` -/
def dataHeader : Str := ['@', 'd', 'a', 't', 'a']

/-- `"@attribute"` -/
def attributeIndicator : Str := ['@', 'a', 't', 't', 'r', 'i', 'b', 'u', 't', 'e']

/-- The body of the loop, data_loading.py l.187-196. -/
def arffLine (line : Str) (attributes : List (Str × Str)) : Except Exn (List (Str × Str)) :=
  if startsWith attributeIndicator (lowerStr line) then
    match splitOnce [' '] line with
    | .error e => .error e
    | .ok (_, nameAndType) =>
      if startsWith ['"'] nameAndType then
        match splitOnce ['"', ' '] (nameAndType.drop 1) with
        | .error e => .error e
        | .ok (name, type) => .ok (dset attributes name type)
      else match splitOnce [' '] nameAndType with
        | .error e => .error e
        | .ok (name, type) => .ok (dset attributes name type)
  else .ok attributes

/-- The loop, l.186-197, on the current line and the lines to come.  At the end of the file
`readline` gives the empty text, again and again.  `fuel` bounds the number of iterations; `none` if
it did not suffice. -/
def arffLoop : Nat → Str → List Str → List (Str × Str) → Option (Except Exn (List (Str × Str)))
  | 0, _, _, _ => none
  | fuel + 1, line, rest, attributes =>
    if startsWith dataHeader (lowerStr line) then some (.ok attributes)
    else match arffLine line attributes with
      | .error e => some (.error e)
      | .ok attributes' => match rest with
        | [] => arffLoop fuel [] [] attributes'
        | l :: ls => arffLoop fuel l.dropLast ls attributes'

/-- `load_feature_metadata_from_arff`, l.179-198.  The first line keeps its line end (l.185). -/
def arffMetadata (fuel : Nat) (file : Str) : Option (Except Exn (List (Str × Str))) :=
  match linesKept (universal file) with
  | [] => arffLoop fuel [] [] []
  | l :: ls => arffLoop fuel l ls []

/-! ### CSV header -/

/-- `".csv"` -/
def csvExtension : Str := ['.', 'c', 's', 'v']

/-- `".arff"` -/
def arffExtension : Str := ['.', 'a', 'r', 'f', 'f']

/-- `load_csv_header`, l.23-36.  What `csv.Sniffer` finds -- delimiter and whether there is a header --
is a parameter. -/
def csvHeader (path : Str) (sniffed : Char × Bool) (sep : Option Char) (file : Str) :
    Except Exn (List Str) :=
  if !endsIn csvExtension path then .error .valueError
  else
    let first := (readline (universal file)).dropLast
    let names := splitOnChar (sep.getD sniffed.1) first
    if sniffed.2 then .ok names else .ok ((List.range names.length).map natStr)

/-- The kinds of files told apart by name. -/
inductive FileKind
  | csv | arff
  deriving DecidableEq, Repr

/-- The reader chosen by `load_feature_metadata_from_file`, l.171-176; for csv files
`load_csv_header` checks the extension again, case-sensitively (l.25). -/
def metadataReader (path : Str) : Except Exn FileKind :=
  if endsIn arffExtension (lowerStr path) then .ok .arff
  else if endsIn csvExtension (lowerStr path) then
    (if endsIn csvExtension path then .ok .csv else .error .valueError)
  else .error .valueError

/-- The reader chosen by `file_to_pandas`, l.120-126. -/
def dataReader (path : Str) : Except Exn FileKind :=
  if endsIn arffExtension path then .ok .arff
  else if endsIn csvExtension path then .ok .csv
  else .error .valueError

/-! ### The command line -/

/-- The result of parsing the command line, cli.py l.14-129. -/
structure CliArgs where
  inputFile : Str
  separator : Option Str
  target : Option Str
  outputFile : Str
  exportPython : Option Str
  mode : Option Str
  metric : Option Str
  preferShort : Bool
  timeLimit : Int
  evalTime : Int
  nJobs : Int
  outdir : Option Str
  verbose : Bool
  dryRun : Bool
  deriving DecidableEq, Repr

/-- The configuration passed to GAMA, l.160-171. -/
structure CliConfig where
  regularizeLength : Bool
  maxTotalTime : Int
  maxEvalTime : Int
  nJobs : Int
  verbosity : Nat
  outputDirectory : Option Str
  store : Str
  scoring : Option Str
  deriving DecidableEq, Repr

/-- What `main` does to the world. -/
inductive CliEvent
  /-- `X_y_from_file(path, split_column, sep=…)` -/
  | load (path : Str) (sep target : Option Str)
  /-- `GamaClassifier(…)` or `GamaRegressor(…)` -/
  | construct (classifier : Bool) (c : CliConfig)
  | fit
  /-- the model is pickled -/
  | dump (path : Str)
  | exportScript (path : Str)
  | cleanup
  deriving DecidableEq, Repr

/-- The environment: which files exist, and how the calls end.  Loading tells whether the target is
categorical. -/
structure CliWorld where
  fileExists : Str → Bool
  load : Str → Option Str → Option Str → Except Exn Bool
  construct : Bool → CliConfig → Except Exn Unit
  fit : Except Exn Unit
  dump : Str → Except Exn Unit
  exportScript : Str → Except Exn Unit
  cleanup : Except Exn Unit

/-- `"classification"` -/
def classificationMode : Str :=
  ['c', 'l', 'a', 's', 's', 'i', 'f', 'i', 'c', 'a', 't', 'i', 'o', 'n']

/-- `"regression"` -/
def regressionMode : Str := ['r', 'e', 'g', 'r', 'e', 's', 's', 'i', 'o', 'n']

/-- The configuration, l.160-171. -/
def cliConfig (a : CliArgs) : CliConfig where
  regularizeLength := a.preferShort
  maxTotalTime := a.timeLimit * 60
  maxEvalTime := a.evalTime * 60
  nJobs := a.nJobs
  verbosity := if a.verbose then 20 else 30
  outputDirectory := a.outdir
  store := if a.dryRun then ['n', 'o', 't', 'h', 'i', 'n', 'g'] else ['l', 'o', 'g', 's']
  scoring := match a.metric with
    | some (c :: m) => some (c :: m)
    | _ => none

/-- After constructing the instance, l.180-192. -/
def cliRun (w : CliWorld) (a : CliArgs) : List CliEvent × Except Exn Unit :=
  if a.dryRun then ([.cleanup], w.cleanup)
  else match w.fit with
    | .error e => ([.fit], .error e)
    | .ok () => match w.dump a.outputFile with
      | .error e => ([.fit, .dump a.outputFile], .error e)
      | .ok () => match a.exportPython with
        | none => ([.fit, .dump a.outputFile], .ok ())
        | some p => ([.fit, .dump a.outputFile, .exportScript p], w.exportScript p)

/-- From the mode on, l.155-192; `categorical` tells whether the target is. -/
def cliModel (w : CliWorld) (a : CliArgs) (categorical : Bool) : List CliEvent × Except Exn Unit :=
  let mode := a.mode.getD (if categorical then classificationMode else regressionMode)
  let start (classifier : Bool) : List CliEvent × Except Exn Unit :=
    match w.construct classifier (cliConfig a) with
    | .error e => ([.construct classifier (cliConfig a)], .error e)
    | .ok () => let r := cliRun w a
      (.construct classifier (cliConfig a) :: r.1, r.2)
  if mode = regressionMode then start false
  else if mode = classificationMode then start true
  else ([], .error .valueError)

/-- `main` after parsing the options, l.140-193.  The parsed options have an attribute `separator`
but none `seperator`: reading that is an AttributeError (l.148). -/
def cliMain (w : CliWorld) (a : CliArgs) : List CliEvent × Except Exn Unit :=
  let path := lowerStr a.inputFile
  if !w.fileExists path then ([], .error .fileNotFound)
  else if (splitOnChar '.' path).getLastD [] ∉ [['c', 's', 'v'], ['a', 'r', 'f', 'f']] then
    ([], .error .valueError)
  else if endsIn csvExtension path && a.separator.isSome then ([], .error .attributeError)
  else match w.load path none a.target with
    | .error e => ([.load path none a.target], .error e)
    | .ok categorical =>
      let r := cliModel w a categorical
      (.load path none a.target :: r.1, r.2)

end Gama
