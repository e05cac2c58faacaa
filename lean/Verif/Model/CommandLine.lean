import Verif.Model.Loading

/-!
# Reading the command line

`make_parser` and the beginning of `main` of `gama/utilities/cli.py` (l.14-137).  `argparse` is written out from
CPython 3.11 (`Lib/argparse.py`, lines as of 3.11.10) for a parser such as this one: one positional argument, and
options that take one argument or none.  Messages are left out.
-/

namespace Gama

/-- The options, cli.py l.26-127, and `-h`, which argparse adds. -/
inductive CliOpt
  | help | separator | target | outputFile | exportPython | mode | metric | long | timeLimit | evalTime | nJobs
  | outdir | verbose | dryRun
  deriving DecidableEq, Repr

/-- `parser._option_string_actions`: the spellings in the order they were added. -/
def optionStrings : List (Str × CliOpt) :=
  [(['-', 'h'], .help), (['-', '-', 'h', 'e', 'l', 'p'], .help),
   (['-', 's', 'e', 'p'], .separator),
   (['-', '-', 't', 'a', 'r', 'g', 'e', 't'], .target),
   (['-', 'o'], .outputFile),
   (['-', 'p', 'y'], .exportPython),
   (['-', '-', 'm', 'o', 'd', 'e'], .mode),
   (['-', 'm'], .metric),
   (['-', '-', 'l', 'o', 'n', 'g'], .long),
   (['-', 't'], .timeLimit),
   (['-', '-', 't', 'i', 'm', 'e', '_', 'p', 'i', 'p', 'e', 'l', 'i', 'n', 'e'], .evalTime),
   (['-', 'n'], .nJobs),
   (['-', 'o', 'u', 't', 'd', 'i', 'r'], .outdir),
   (['-', 'v'], .verbose),
   (['-', 'd', 'r', 'y'], .dryRun)]

/-- `nargs` is None, not 0: the option takes an argument. -/
def CliOpt.takesArg : CliOpt → Bool
  | .help | .long | .verbose | .dryRun => false
  | _ => true

/-- How the process ends when the command line is not accepted: after printing a help text (status 0) or the usage
(status 2). -/
inductive Exit
  | help | usage
  deriving DecidableEq, Repr

/-- An option tuple: action, spelling, whether there is a `=`, and what is attached to it. -/
structure Found where
  opt : CliOpt
  name : Str
  sep : Bool
  explicit : Option Str
  deriving DecidableEq, Repr

/-- A word of the command line after classification: `O` of a known or an unknown option, `A`, or `-`. -/
inductive Tok
  | option (f : Found)
  | unknown (s : Str)
  | arg (s : Str)
  | dashes
  deriving DecidableEq, Repr

/-- `s.partition('=')`; nothing if there is no `=`. -/
def partitionEq : Str → Str × Option Str
  | [] => ([], none)
  | c :: s => if c = '=' then ([], some s) else (c :: (partitionEq s).1, (partitionEq s).2)

/-- `self._option_string_actions.get(s)` -/
def optionNamed (s : Str) : Option CliOpt := (optionStrings.find? fun x => x.1 = s).map (·.2)

/-- `_negative_number_matcher.match(s)`, argparse.py: `^-\d+$|^-\d*\.\d+$`, where `$` is also before a line end at the
end.  Simplification: only the digits 0-9. -/
def negativeNumber : Str → Bool
  | '-' :: t =>
    let t := if t.getLast? = some '\n' then t.dropLast else t
    match t.dropWhile Char.isDigit with
    | [] => !t.isEmpty
    | '.' :: d => !d.isEmpty && d.all Char.isDigit
    | _ => false
  | _ => false

/-- `_get_option_tuples`, argparse.py l.2300-2340. -/
def optionTuples (s : Str) : List Found :=
  if startsWith ['-', '-'] s then
    optionStrings.filterMap fun x =>
      if startsWith (partitionEq s).1 x.1 then some ⟨x.2, x.1, (partitionEq s).2.isSome, (partitionEq s).2⟩ else none
  else
    optionStrings.filterMap fun x =>
      if x.1 = s.take 2 then some ⟨x.2, x.1, false, some (s.drop 2)⟩
      else if startsWith s x.1 then some ⟨x.2, x.1, false, none⟩ else none

/-- `_parse_optional`, argparse.py l.2243-2298, on a word that begins with a dash and is no option as it is. -/
def parseDashed (s : Str) : Except Exit Tok :=
  if s.length = 1 then .ok (.arg s)
  else match (partitionEq s).2, optionNamed (partitionEq s).1 with
    | some v, some o => .ok (.option ⟨o, (partitionEq s).1, true, some v⟩)
    | _, _ => match optionTuples s with
      | _ :: _ :: _ => .error .usage
      | [f] => .ok (.option f)
      | [] => if negativeNumber s then .ok (.arg s) else if ' ' ∈ s then .ok (.arg s) else .ok (.unknown s)

/-- `_parse_optional`, argparse.py l.2243-2298. -/
def parseOptional (s : Str) : Except Exit Tok :=
  if s.head? ≠ some '-' then .ok (.arg s)
  else match optionNamed s with
    | some o => .ok (.option ⟨o, s, false, none⟩)
    | none => parseDashed s

/-- The classification of all words, argparse.py l.1936-1960.  After `--` no word is an option. -/
def classify : List Str → Except Exit (List Tok)
  | [] => .ok []
  | s :: rest =>
    if s = ['-', '-'] then .ok (.dashes :: rest.map .arg)
    else match parseOptional s with
      | .error e => .error e
      | .ok t => match classify rest with
        | .error e => .error e
        | .ok ts => .ok (t :: ts)

/-- The value of a digit. -/
def digitValue (c : Char) : Nat := c.toNat - 48

/-- The rest of a number after its first digits: digits, with single underscores between them. -/
def digitsFrom : Nat → Str → Option Nat
  | n, [] => some n
  | n, '_' :: d :: s => if d.isDigit then digitsFrom (10 * n + digitValue d) s else none
  | n, c :: s => if c.isDigit then digitsFrom (10 * n + digitValue c) s else none

/-- White space of `Py_ISSPACE`. -/
def isCSpace (c : Char) : Bool := c = ' ' || (9 ≤ c.toNat && c.toNat ≤ 13)

/-- Digits. -/
def natOf : Str → Option Nat
  | [] => none
  | c :: s => if c.isDigit then digitsFrom (digitValue c) s else none

/-- `int(s)`, `PyLong_FromString`.  Simplification: only ASCII texts, and not more than 4300 digits. -/
def intOf (s : Str) : Option Int :=
  match ((s.dropWhile isCSpace).reverse.dropWhile isCSpace).reverse with
  | '-' :: t => Option.map (fun n : Nat => -(n : Int)) (natOf t)
  | '+' :: t => Option.map (fun n : Nat => (n : Int)) (natOf t)
  | t => Option.map (fun n : Nat => (n : Int)) (natOf t)

/-- The state of `_parse_known_args`: the namespace, whether the positional argument has been seen, and the words nobody
wants. -/
structure Parsing where
  args : CliArgs
  seen : Bool
  extras : List Str
  deriving DecidableEq, Repr

/-- `take_action` for an option, argparse.py l.1965-1983, with `type` and `dest` of cli.py l.26-127. -/
def takeAction (a : CliArgs) : CliOpt → Option Str → Except Exit CliArgs
  | .separator, some v => .ok { a with separator := some v }
  | .target, some v => .ok { a with target := some v }
  | .outputFile, some v => .ok { a with outputFile := v }
  | .exportPython, some v => .ok { a with exportPython := some v }
  | .mode, some v => .ok { a with mode := some v }
  | .metric, some v => .ok { a with metric := some v }
  | .timeLimit, some v => match intOf v with
    | some n => .ok { a with timeLimit := n }
    | none => .error .usage
  | .evalTime, some v => match intOf v with
    | some n => .ok { a with evalTime := n }
    | none => .error .usage
  | .nJobs, some v => match intOf v with
    | some n => .ok { a with nJobs := n }
    | none => .error .usage
  | .outdir, some v => .ok { a with outdir := some v }
  | .long, none => .ok { a with preferShort := false }
  | .verbose, none => .ok { a with verbose := true }
  | .dryRun, none => .ok { a with dryRun := true }
  | .help, none => .error .help
  | _, _ => .error .usage

/-- What an option word asks for: actions, a word nobody wants, and an option that takes the next word. -/
structure Settled where
  actions : List (CliOpt × Option Str)
  extra : List Str
  wants : Option CliOpt
  deriving DecidableEq, Repr

/-- An option without attached text, argparse.py l.2052-2060. -/
def settlePlain (o : CliOpt) : Settled :=
  if o.takesArg then ⟨[], [], some o⟩ else ⟨[(o, none)], [], none⟩

/-- An option with attached text, argparse.py l.2005-2050: it is the argument, or further options of one letter.  A `=`
before the argument is still there; `single`: the option is spelt with one dash. -/
def settleAttached : Str → CliOpt → Bool → Except Exit Settled
  | [], o, _ => .ok (settlePlain o)
  | c :: v, o, single =>
    if c = '=' then (if o.takesArg then .ok ⟨[(o, some v)], [], none⟩ else .error .usage)
    else if o.takesArg then .ok ⟨[(o, some (c :: v))], [], none⟩
    else if !single || c = '-' then .error .usage
    else match optionNamed ['-', c] with
      | none => .ok ⟨[(o, none)], ['-' :: c :: v], none⟩
      | some o' => match settleAttached v o' true with
        | .error e => .error e
        | .ok r => .ok { r with actions := (o, none) :: r.actions }

/-- The loop of `consume_optional`, argparse.py l.1986-2068. -/
def settle (f : Found) : Except Exit Settled :=
  match f.explicit with
  | none => .ok (settlePlain f.opt)
  | some v => settleAttached (if f.sep then '=' :: v else v) f.opt (f.name[1]? ≠ some '-')

/-- All actions in turn. -/
def takeActions : CliArgs → List (CliOpt × Option Str) → Except Exit CliArgs
  | a, [] => .ok a
  | a, (o, v) :: rest => match takeAction a o v with
    | .error e => .error e
    | .ok a' => takeActions a' rest

/-- The alternation of positional arguments and options, argparse.py l.2076-2134.  The pattern of the positional argument
is `-*A-*`, that of an argument of an option is `A`. -/
def argLoop : List Tok → Parsing → Except Exit Parsing
  | [], p => .ok p
  | .unknown s :: rest, p => argLoop rest { p with extras := p.extras ++ [s] }
  | .arg s :: .dashes :: rest, p =>
    if p.seen then argLoop rest { p with extras := p.extras ++ [s, ['-', '-']] }
    else argLoop rest { p with args := { p.args with inputFile := s }, seen := true }
  | .arg s :: rest, p =>
    if p.seen then argLoop rest { p with extras := p.extras ++ [s] }
    else argLoop rest { p with args := { p.args with inputFile := s }, seen := true }
  | .dashes :: .arg s :: rest, p =>
    if p.seen then argLoop rest { p with extras := p.extras ++ [['-', '-'], s] }
    else argLoop rest { p with args := { p.args with inputFile := s }, seen := true }
  | .dashes :: rest, p => argLoop rest { p with extras := p.extras ++ [['-', '-']] }
  | .option f :: rest, p => match settle f with
    | .error e => .error e
    | .ok r => match r.wants with
      | none => match takeActions p.args r.actions with
        | .error e => .error e
        | .ok a => argLoop rest { p with args := a, extras := p.extras ++ r.extra }
      | some o => match rest with
        | .arg v :: rest' => match takeActions p.args (r.actions ++ [(o, some v)]) with
          | .error e => .error e
          | .ok a => argLoop rest' { p with args := a, extras := p.extras ++ r.extra }
        | _ => .error .usage

/-- The defaults, cli.py l.17-127. -/
def parserDefaults : CliArgs where
  inputFile := []
  separator := none
  target := none
  outputFile := ['g', 'a', 'm', 'a', '_', 'm', 'o', 'd', 'e', 'l', '.', 'p', 'k', 'l']
  exportPython := none
  mode := none
  metric := none
  preferShort := true
  timeLimit := 60
  evalTime := 5
  nJobs := 1
  outdir := none
  verbose := false
  dryRun := false

/-- `parser.parse_args(words)`, argparse.py l.1873-1916, l.2138-2175: the positional argument is required, and no word may be left. -/
def parseArgs (words : List Str) : Except Exit CliArgs :=
  match classify words with
  | .error e => .error e
  | .ok ts => match argLoop ts ⟨parserDefaults, false, []⟩ with
    | .error e => .error e
    | .ok p => if !p.seen then .error .usage else if p.extras ≠ [] then .error .usage else .ok p.args

/-- White space of `str.split`, for ASCII texts. -/
def isPySpace (c : Char) : Bool := c = ' ' || (9 ≤ c.toNat && c.toNat ≤ 13) || (28 ≤ c.toNat && c.toNat ≤ 31)

/-- `s.split()`; `word` is what has been read of the current word, reversed. -/
def pySplitGo : Str → Str → List Str
  | word, [] => if word.isEmpty then [] else [word.reverse]
  | word, c :: s =>
    if isPySpace c then (if word.isEmpty then pySplitGo [] s else word.reverse :: pySplitGo [] s)
    else pySplitGo (c :: word) s

/-- `s.split()` -/
def pySplit (s : Str) : List Str := pySplitGo [] s

/-- The argument of `main`, cli.py l.131: a text or a list of words. -/
inductive Command
  | text (s : Str)
  | words (l : List Str)
  deriving DecidableEq, Repr

/-- The words of the command, cli.py l.134-135. -/
def Command.own : Command → List Str
  | .text s => pySplit s
  | .words l => l

/-- The words `main` works on, cli.py l.134-137; `argv` is `sys.argv[1:]`, which is used if there are none (argparse.py l.1881-1883). -/
def commandWords (c : Command) (argv : List Str) : List Str := if c.own.isEmpty then argv else c.own

/-- `main`, cli.py l.131-193. -/
def cliCommand (w : CliWorld) (c : Command) (argv : List Str) : Except Exit (List CliEvent × Except Exn Unit) :=
  match parseArgs (commandWords c argv) with
  | .error e => .error e
  | .ok a => .ok (cliMain w a)

end Gama
