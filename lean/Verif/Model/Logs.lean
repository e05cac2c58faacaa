import Mathlib.Algebra.Order.Ring.Rat
import Verif.Model.Dict
import Verif.Model.Export

/-!
# Logs and reports

`gama/logging/evaluation_logger.py`, `gama/logging/GamaReport.py`,
`gama/logging/utility_functions.py`, and the log file of `Gama.__init__`.

Files are texts.  What `pandas.read_csv(fh, sep=";", header=None, index_col=False)` does with a text
is written out from the tokenizer of pandas (`tokenizer.c`: `tokenize_bytes`, `end_line`,
`parser_handle_eof`), as far as it divides the text into records and fields; the conversion of
columns to numbers or missing values is not modelled, fields stay texts.
-/

namespace Gama

/-! ### Writing the evaluation log -/

/-- `EvaluationLogger.log_line`, evaluation_logger.py l.68-71: append one line to the file. -/
def logLine (sep : Str) (values : List Str) (file : Str) : Str :=
  file ++ joinWith sep values ++ ['\n']

/-- The fields of a logger: column names with what they read off an evaluation, already formatted
by `format_value`, l.76-77. -/
abbrev LogFields (E : Type) := List (Str × (E → Str))

/-- `EvaluationLogger.__init__`, l.42-66: the given fields extended by the extra ones
(`dict.update`), and the header written. -/
def loggerInit {E : Type} (sep : Str) (fields : LogFields E) (extra : Option (LogFields E))
    (file : Str) : LogFields E × Str :=
  let all := match extra with
    | none => fields
    | some e => dmerge fields e
  (all, logLine sep (all.map Prod.fst) file)

/-- `EvaluationLogger.log_evaluation`, l.73-79. -/
def logEvaluation {E : Type} (sep : Str) (fields : LogFields E) (file : Str) (e : E) : Str :=
  logLine sep (fields.map fun f => f.2 e) file

/-- The file after logging some evaluations one after the other. -/
def logAll {E : Type} (sep : Str) (fields : LogFields E) (file : Str) (es : List E) : Str :=
  es.foldl (logEvaluation sep fields) file

/-! ### Reading separated values -/

/-- What a file opened as text gives: line ends `\r\n` and `\r` are read as `\n` (the default
`newline=None` of `open`). -/
def universal : Str → Str
  | [] => []
  | [c] => if c = '\r' then ['\n'] else [c]
  | c :: d :: s =>
    if c = '\r' then (if d = '\n' then '\n' :: universal s else '\n' :: universal (d :: s))
    else c :: universal (d :: s)

/-- The states of the tokenizer used here. -/
inductive CsvState
  | startRecord | blankLine | startField | inField | inQuoted | quoteInQuoted
  deriving DecidableEq, Repr

/-- `isblank` -/
def isBlank (c : Char) : Bool := c = ' ' || c = '\t'

/-- `end_line` of the tokenizer: the first record fixes the number of fields; a longer record is a
`ParserError` (a `ValueError`), a shorter one is filled up with empty fields. -/
def endLine (row : List Str) : List (List Str) → Except Exn (List (List Str))
  | [] => .ok [row]
  | first :: rest =>
    if first.length < row.length then .error .valueError
    else .ok (first :: rest ++ [row ++ List.replicate (first.length - row.length) []])

/-- `tokenize_bytes` with separator `;`, quote `"` doubled inside quotes, empty lines skipped; and
`parser_handle_eof`.  `field` and `row` are the field and the record being read, `acc` the records
read. -/
def csvGo : Str → CsvState → Str → List Str → List (List Str) → Except Exn (List (List Str))
  | [], .startRecord, _, _, acc => .ok acc
  | [], .blankLine, _, _, acc => .ok acc
  | [], .inQuoted, _, _, _ => .error .valueError
  | [], _, field, row, acc => endLine (row ++ [field]) acc
  | c :: s, .startRecord, _, _, acc =>
    if c = '\n' then csvGo s .startRecord [] [] acc
    else if isBlank c then csvGo s .blankLine [c] [] acc
    else if c = '"' then csvGo s .inQuoted [] [] acc
    else if c = ';' then csvGo s .startField [] [[]] acc
    else csvGo s .inField [c] [] acc
  | c :: s, .blankLine, field, row, acc =>
    if c = '\n' then csvGo s .startRecord [] [] acc
    else if isBlank c then csvGo s .blankLine (field ++ [c]) row acc
    else if c = ';' then csvGo s .startField [] (row ++ [field]) acc
    else csvGo s .inField (field ++ [c]) row acc
  | c :: s, .startField, field, row, acc =>
    if c = '\n' then
      match endLine (row ++ [field]) acc with
      | .ok acc' => csvGo s .startRecord [] [] acc'
      | .error e => .error e
    else if c = '"' then csvGo s .inQuoted field row acc
    else if c = ';' then csvGo s .startField [] (row ++ [field]) acc
    else csvGo s .inField (field ++ [c]) row acc
  | c :: s, .inField, field, row, acc =>
    if c = '\n' then
      match endLine (row ++ [field]) acc with
      | .ok acc' => csvGo s .startRecord [] [] acc'
      | .error e => .error e
    else if c = ';' then csvGo s .startField [] (row ++ [field]) acc
    else csvGo s .inField (field ++ [c]) row acc
  | c :: s, .inQuoted, field, row, acc =>
    if c = '"' then csvGo s .quoteInQuoted field row acc
    else csvGo s .inQuoted (field ++ [c]) row acc
  | c :: s, .quoteInQuoted, field, row, acc =>
    if c = '\n' then
      match endLine (row ++ [field]) acc with
      | .ok acc' => csvGo s .startRecord [] [] acc'
      | .error e => .error e
    else if c = '"' then csvGo s .inQuoted (field ++ [c]) row acc
    else if c = ';' then csvGo s .startField [] (row ++ [field]) acc
    else csvGo s .inField (field ++ [c]) row acc

/-- The records of a text.  No record at all is pandas' `EmptyDataError`; it is caught by the only
caller, so it is not made an exception here. -/
def readCsv (s : Str) : Except Exn (List (List Str)) := csvGo s .startRecord [] [] []

/-- `fh.readline()`: the text up to and including the first line end. -/
def readline : Str → Str
  | [] => []
  | c :: s => if c = '\n' then ['\n'] else c :: readline s

/-! ### `GamaReport.update` -/

/-- The conversions `update` applies to the texts of a record, as parameters: the scores in the text
of a tuple (l.88-91), dates (l.92-94), durations (l.95), pipelines (l.98). -/
structure Conversions (M I : Type) where
  scores : Str → Except Exn (List M)
  start : Str → Except Exn ℚ
  duration : Str → Except Exn ℚ
  pipeline : Str → Except Exn I

/-- A row of `GamaReport.evaluations`: the texts read, `n` (l.85, l.107), the metrics (l.91), and the
converted start and duration. -/
structure ReportRow (M : Type) where
  record : List Str
  n : Nat
  metrics : List M
  start : ℚ
  duration : ℚ
  deriving DecidableEq

/-- A `GamaReport`: the state `update` works on.  `cummax` is, per metric, the column
`<metric>_cummax`; `relativeEnd` the column `relative_end`. -/
structure Report (M I : Type) where
  incomplete : Bool
  metrics : Nat
  tell : Nat
  rows : List (ReportRow M)
  individuals : List (Str × I)
  cummax : List (List M)
  relativeEnd : List ℚ

/-- The value of a column in a record, `df.<name>`; without such a column an AttributeError. -/
def column (header : List Str) (name : Str) (record : List Str) : Except Exn Str :=
  match header, record with
  | h :: hs, v :: vs => if h = name then .ok v else column hs name vs
  | _, _ => .error .attributeError

/-- One row of the new frame, l.84-98, with the entry for `new_individuals`.  `df[self.metrics] = …`
needs as many scores as metrics. -/
def convertRow {M I : Type} (C : Conversions M I) (metrics : Nat) (header : List Str) (n : Nat)
    (record : List Str) : Except Exn (ReportRow M × (Str × I)) := do
  let scores ← C.scores (← column header ['s', 'c', 'o', 'r', 'e'] record)
  if scores.length ≠ metrics then .error .valueError
  let start ← C.start (← column header ['t', '_', 's', 't', 'a', 'r', 't'] record)
  let duration ← C.duration
    (← column header ['t', '_', 'w', 'a', 'l', 'l', 'c', 'l', 'o', 'c', 'k'] record)
  let ind ← C.pipeline (← column header ['p', 'i', 'p', 'e', 'l', 'i', 'n', 'e'] record)
  let id ← column header ['i', 'd'] record
  .ok (⟨record, n, scores, start, duration⟩, (id, ind))

/-- All rows of the new frame, numbered from `n`. -/
def convertRows {M I : Type} (C : Conversions M I) (metrics : Nat) (header : List Str) :
    Nat → List (List Str) → Except Exn (List (ReportRow M × (Str × I)))
  | _, [] => .ok []
  | n, r :: rs => do
    let x ← convertRow C metrics header n r
    let xs ← convertRows C metrics header (n + 1) rs
    .ok (x :: xs)

/-- `Series.max()` of a column of numbers, `self.evaluations.n.max()`. -/
def maxNat : List Nat → Nat
  | [] => 0
  | n :: ns => max n (maxNat ns)

/-- `Series.cummax()`. -/
def runningMax {M : Type} [LinearOrder M] : Option M → List M → List M
  | _, [] => []
  | none, m :: ms => m :: runningMax (some m) ms
  | some b, m :: ms => max b m :: runningMax (some (max b m)) ms

/-- `Series.min()` of a non-empty column. -/
def minOf : ℚ → List ℚ → ℚ
  | m, [] => m
  | m, x :: xs => minOf (min m x) xs

/-- The column of the `k`-th metric. -/
def metricColumn {M : Type} (k : Nat) (rows : List (ReportRow M)) : List M :=
  rows.filterMap fun r => r.metrics[k]?

/-- The columns computed from all rows, l.109-119. -/
def derive {M I : Type} [LinearOrder M] (r : Report M I) : Report M I :=
  { r with
    cummax := (List.range r.metrics).map fun k => runningMax none (metricColumn k r.rows)
    relativeEnd := match r.rows with
      | [] => []
      | x :: xs => r.rows.map fun y =>
          (y.start + y.duration) - minOf x.start (xs.map fun z => z.start) }

/-- Reading the log from where the previous reading ended, GamaReport.py l.74-82: the position
reached, the header, and the records.  File positions are counted in characters of the text as
read. -/
def readLog (file : Str) (tell : Nat) : Nat × List Str × Except Exn (List (List Str)) :=
  let text := universal file
  let head := readline text
  let start := max tell head.length
  (start, splitOnChar ';' head.dropLast, readCsv (text.drop start))

/-- The rows kept and the new ones, l.104-108. -/
def appendRows {M : Type} (old fresh : List (ReportRow M)) : List (ReportRow M) :=
  match old with
  | [] => fresh
  | _ :: _ => old ++ fresh.map fun x =>
      ⟨x.record, x.n + (maxNat (old.map fun y => y.n) + 1), x.metrics, x.start, x.duration⟩

/-- `GamaReport.update`, GamaReport.py l.70-120, on the current text of `evaluations.log`. -/
def update {M I : Type} [LinearOrder M] (C : Conversions M I) (file : Str) (force : Bool)
    (r : Report M I) : Except Exn Bool × Report M I :=
  if !force && !r.incomplete then (.ok false, r)
  else
    let (start, header, records) := readLog file r.tell
    match records with
    | .error e => (.error e, { r with tell := start })
    | .ok [] => (.ok false, { r with tell := start })
    | .ok (first :: rest) =>
      let r := { r with tell := (universal file).length }
      if first.length ≠ header.length then (.error .valueError, r)
      else
        match convertRows C r.metrics header 0 (first :: rest) with
        | .error e => (.error e, r)
        | .ok new =>
          (.ok true, derive { r with
            rows := appendRows r.rows (new.map Prod.fst)
            individuals := dmerge r.individuals (new.map Prod.snd) })

/-- A report before its first `update`, l.35-64. -/
def newReport {M I : Type} (incomplete : Bool) (metrics : Nat) : Report M I :=
  ⟨incomplete, metrics, 0, [], [], [], []⟩

/-- A report updated once per given text of the file, the first time with `force`; an exception ends
the sequence. -/
def updates {M I : Type} [LinearOrder M] (C : Conversions M I) (force : Bool) (r : Report M I) :
    List Str → Except Exn (Report M I)
  | [] => .ok r
  | f :: fs => match update C f force r with
    | (.ok _, r') => updates C false r' fs
    | (.error e, _) => .error e

/-! ### The initialisation line -/

/-- An argument as printed: a text, or an object printing as `Name(hp=value,…)` (`BaseSearch.__str__`,
base_search.py l.22-33, and `BasePostProcessing.__str__`). -/
inductive ArgText
  | plain (text : Str)
  | config (name : Str) (hps : List (Str × Str))
  deriving DecidableEq, Repr

/-- `f"{k}={v}"` -/
def keyValue (kv : Str × Str) : Str := kv.1 ++ '=' :: kv.2

def ArgText.text : ArgText → Str
  | .plain t => t
  | .config n hps => n ++ '(' :: joinWith [','] (hps.map keyValue) ++ [')']

/-- The arguments of the INIT line, gama.py l.221-227. -/
def argumentsText (args : List (Str × ArgText)) : Str :=
  joinWith [','] (args.map fun a => keyValue (a.1, a.2.text))

/-- The line in `gama.log`, gama.py l.216-217 and l.229: what the formatter puts in front, the name
of the class, the arguments. -/
def initLine (front cls : Str) (args : List (Str × ArgText)) : Str :=
  front ++ ['I', 'N', 'I', 'T', ':'] ++ cls ++ '(' :: argumentsText args ++ [')', '\n']

/-- `s.split(c, maxsplit=1)[-1]` -/
def afterFirst (c : Char) (s : Str) : Str :=
  if c ∈ s then (s.dropWhile (· ≠ c)).drop 1 else s

/-- `s.rsplit(c, maxsplit=1)[0]` -/
def beforeLast (c : Char) (s : Str) : Str :=
  if c ∈ s then ((s.reverse.dropWhile (· ≠ c)).drop 1).reverse else s

/-- `s.replace(a, ",")` for a token of one character. -/
def replaceOne (a : Char) (s : Str) : Str := s.map fun c => if c = a then ',' else c

/-- `s.replace(ab, ",")` for a token of two characters. -/
def replaceTwo (a b : Char) : Str → Str
  | [] => []
  | [c] => [c]
  | c :: d :: s =>
    if c = a ∧ d = b then ',' :: replaceTwo a b s else c :: replaceTwo a b (d :: s)

/-- The replacements, GamaReport.py l.134-135. -/
def flattenArgs (s : Str) : Str :=
  replaceTwo ',' ',' (replaceOne ')' (replaceOne '(' (replaceTwo '(' ')' s)))

/-- `dict(hp.split("=") for hp in pieces)`: each piece must split in two. -/
def pairsToDict : List Str → List (Str × Str) → Except Exn (List (Str × Str))
  | [], d => .ok d
  | p :: ps, d => match splitOnChar '=' p with
    | [k, v] => pairsToDict ps (dset d k v)
    | _ => .error .valueError

/-- `init_to_hps`, GamaReport.py l.130-136. -/
def initToHps (line : Str) : Except Exn (List (Str × Str)) :=
  pairsToDict (splitOnChar ',' (flattenArgs (beforeLast ')' (afterFirst '(' line)))) []

/-! ### Log handlers -/

/-- A handler of the logger `gama`: whether it has the attribute `tag`, whether it is a
`StreamHandler` (a `FileHandler` is one), its level, and the directory whose `gama.log` it writes to
if it was added by `Gama.__init__`. -/
structure Handler where
  id : Nat
  tag : Bool
  stream : Bool
  level : Nat
  dir : Option Nat
  deriving DecidableEq, Repr

/-- `register_stream_log`, utility_functions.py l.7-26; `id` names the new handler. -/
def registerStreamLog (id verbosity : Nat) (handlers : List Handler) : List Handler :=
  let kept :=
    if (handlers.filter fun h => h.tag).length > 0 then
      handlers.filter fun h => !(h.tag && h.stream)
    else handlers
  kept ++ [⟨id, true, true, verbosity, none⟩]

/-- The level `logging.DEBUG`. -/
def debugLevel : Nat := 10

/-- The handlers installed by `Gama.__init__`, gama.py l.211-219; `dir` names the output directory. -/
def initHandlers (id verbosity : Nat) (storesLogs : Bool) (dir : Nat) (handlers : List Handler) :
    List Handler :=
  let hs := registerStreamLog id verbosity handlers
  if storesLogs then hs ++ [⟨id, false, true, debugLevel, some dir⟩] else hs

/-- What happens to the handlers of the logger. -/
inductive HandlerEvent
  /-- an instance is constructed -/
  | construct (id verbosity : Nat) (storesLogs : Bool) (dir : Nat)
  /-- the user adds a handler -/
  | add (h : Handler)
  deriving DecidableEq, Repr

def handlerStep (hs : List Handler) : HandlerEvent → List Handler
  | .construct id v s d => initHandlers id v s d hs
  | .add h => hs ++ [h]

def handlerRun (hs : List Handler) (es : List HandlerEvent) : List Handler :=
  es.foldl handlerStep hs

/-- What happens to the log files: an instance is constructed, or one logs a message. -/
inductive FileLogEvent (Msg : Type)
  | construct (storesLogs : Bool) (dir : Nat)
  | message (dir : Nat) (m : Msg)

/-- The handlers, and the messages in each `gama.log` with the instance they come from. -/
structure FileLogs (Msg : Type) where
  handlers : List Handler
  files : Nat → List (Nat × Msg)

/-- A message of an instance goes to every handler (`Logger.callHandlers`); levels are not modelled:
all messages considered are at least `DEBUG`.  The construction itself is not counted as a message. -/
def fileLogStep {Msg : Type} (s : FileLogs Msg) : FileLogEvent Msg → FileLogs Msg
  | .construct st d => ⟨initHandlers d 0 st d s.handlers, s.files⟩
  | .message d m => ⟨s.handlers, fun f =>
      s.files f ++ (s.handlers.filter fun h => h.dir = some f).map fun _ => (d, m)⟩

def fileLogRun {Msg : Type} (s : FileLogs Msg) (es : List (FileLogEvent Msg)) : FileLogs Msg :=
  es.foldl fileLogStep s

/-! ### Phases -/

/-- Whether a text begins with a token, and what follows. -/
def afterPrefix : Str → Str → Option Str
  | [], s => some s
  | _ :: _, [] => none
  | a :: t, c :: s => if a = c then afterPrefix t s else none

/-- `s.split(tok)` for a token of any length; `skip` counts the characters of a token found. -/
def splitGo (tok : Str) : Str → Nat → List Str
  | [], _ => [[]]
  | _ :: s, skip + 1 => splitGo tok s skip
  | c :: s, 0 =>
    if (afterPrefix tok (c :: s)).isSome then [] :: splitGo tok s (tok.length - 1)
    else match splitGo tok s 0 with
      | [] => [[c]]
      | p :: ps => (c :: p) :: ps

def splitOnStr (tok s : Str) : List Str := splitGo tok s 0

/-- The token `" STOP: "`. -/
def stopToken : Str := [' ', 'S', 'T', 'O', 'P', ':', ' ']

/-- The token `" - "`. -/
def dashToken : Str := [' ', '-', ' ']

/-- The line written when an activity ends, timekeeper.py l.114 and l.122, in the format of
gama.py l.216: `[<time> - <place>] STOP: <name> <meta,…> after <seconds>s.` -/
def stopLine (time place name : Str) (details : List Str) (seconds : Str) : Str :=
  '[' :: time ++ dashToken ++ place ++ ']' :: stopToken ++ name ++ ' ' :: joinWith [','] details
    ++ [' ', 'a', 'f', 't', 'e', 'r', ' '] ++ seconds ++ ['s', '.', '\n']

/-- What `GamaReport.__init__` makes of a line with `STOP:`, GamaReport.py l.50-58: phase, algorithm,
the text of the time stamp and the text of the duration.  The conversions of the last two to a date
and a number are left out. -/
def readStop (line : Str) : Except Exn (Str × Str × Str × Str) :=
  match splitOnStr stopToken line with
  | [timeAndPlace, activity] =>
    match splitOnStr dashToken (timeAndPlace.drop 1).dropLast with
    | [time, _] =>
      match splitOnChar ' ' activity with
      | [phase, algorithm, _, duration] =>
        .ok (phase, algorithm, time, duration.dropLast.dropLast.dropLast)
      | _ => .error .valueError
    | _ => .error .valueError
  | _ => .error .valueError

end Gama
