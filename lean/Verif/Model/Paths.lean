import Verif.Model.Export

/-!
# Where the files of a run are

How the `output_directory` given to Gama becomes the directory the files are in (gama.py l.200-202), how
the paths of those files are made (l.214, 256, 290, 301, 339), what the evaluation library does to the
path of its cache (evaluation_library.py l.148-150), and which paths GamaReport opens (GamaReport.py
l.35-39 and l.74).

The functions of `os.path` are those of a posix system, written out.  A place in the file system is the
list of names on the way to it from the root.  Simplification: there are no symbolic links.
-/

namespace Gama

/-- What the functions of `os.path` ask the system for. -/
structure Sys where
  /-- `os.getcwd()` -/
  cwd : Str
  /-- the home directory of the user of that name; of the current user for the empty name -/
  home : Str → Option Str
  /-- `os.environ` -/
  vars : Str → Option Str

/-- `os.path.join(a, b)` -/
def joinPath (a b : Str) : Str :=
  if b.head? = some '/' then b
  else if a = [] ∨ a.getLast? = some '/' then a ++ b
  else a ++ '/' :: b

/-- One name on a path, after the names `at_` in reverse order: empty names and `.` stay, `..` goes
up.  The loop of `os.path.normpath` for a path that begins with `/`. -/
def stepInto (at_ : List Str) (name : Str) : List Str :=
  if name = [] ∨ name = ['.'] then at_
  else if name = ['.', '.'] then at_.tail
  else name :: at_

/-- The place that a path denotes when it is opened, or made absolute. -/
def placeOf (cwd path : Str) : List Str :=
  ((splitOnChar '/' (joinPath cwd path)).foldl stepInto []).reverse

/-- `os.path.abspath(path)`.  Simplification: a path that begins with exactly two slashes keeps both in
python; here it keeps one. -/
def absPath (cwd path : Str) : Str := '/' :: joinWith ['/'] (placeOf cwd path)

/-- Drop the given character at the end, as in `userhome.rstrip('/')`. -/
def rstripChar (c : Char) (s : Str) : Str := (s.reverse.dropWhile (· = c)).reverse

/-- `os.path.expanduser(path)`. -/
def expandUser (home : Str → Option Str) (path : Str) : Str :=
  match path with
  | '~' :: rest =>
    match home (rest.takeWhile (· ≠ '/')) with
    | none => path
    | some h =>
      let out := rstripChar '/' h ++ rest.dropWhile (· ≠ '/')
      if out = [] then ['/'] else out
  | _ => path

/-- A character of a variable's name outside braces: the class `\w`, ascii only. -/
def isWordChar (c : Char) : Bool := c.isAlphanum || c == '_'

/-- What follows a `$` if it is the name of a variable, by itself or in braces: the name, the text that
it takes, and the text after it.  The regular expression `\$(\w+|\{[^}]*\})` of `os.path.expandvars`. -/
def varName (s : Str) : Option (Str × Str × Str) :=
  match s with
  | '{' :: t =>
    match t.dropWhile (· ≠ '}') with
    | '}' :: rest => some (t.takeWhile (· ≠ '}'), '{' :: t.takeWhile (· ≠ '}') ++ ['}'], rest)
    | _ => none
  | _ =>
    if s.takeWhile isWordChar = [] then none
    else some (s.takeWhile isWordChar, s.takeWhile isWordChar, s.dropWhile isWordChar)

/-- The loop of `os.path.expandvars`; the first argument is at least the length of the text left. -/
def expandVarsGo (vars : Str → Option Str) : Nat → Str → Str
  | 0, s => s
  | _ + 1, [] => []
  | n + 1, c :: s =>
    if c = '$' then
      match varName s with
      | none => c :: expandVarsGo vars n s
      | some (name, text, rest) =>
        match vars name with
        | some v => v ++ expandVarsGo vars n rest
        | none => c :: (text ++ expandVarsGo vars n rest)
    else c :: expandVarsGo vars n s

/-- `os.path.expandvars(path)`. -/
def expandVars (vars : Str → Option Str) (path : Str) : Str := expandVarsGo vars path.length path

/-- `self.output_directory`, gama.py l.200-202; `fresh` is the name made of `uuid.uuid4()`. -/
def outputDirectory (sys : Sys) (fresh : Str) (given : Option Str) : Str :=
  let d := match given with
    | some d => if d = [] then fresh else d
    | none => fresh
  absPath sys.cwd (expandUser sys.home d)

/-- `"cache"` -/
def cacheDirName : Str := "cache".toList
/-- `"gama.log"` -/
def gamaLogName : Str := "gama.log".toList
/-- `"evaluations.log"` -/
def evaluationsLogName : Str := "evaluations.log".toList

/-- The folder that `cleanup` removes, gama.py l.339. -/
def cleanedFolder (out : Str) : Str := joinPath out cacheDirName

/-- The folder that the evaluation library makes and evaluations are written to: gama.py l.290 gives the
path, and evaluation_library.py l.148 expands it. -/
def cacheFolder (sys : Sys) (out : Str) : Str := expandVars sys.vars (joinPath out cacheDirName)

/-- The file that the logger of a run writes to, gama.py l.214. -/
def gamaLogWritten (out : Str) : Str := joinPath out gamaLogName

/-- The file that evaluations are logged to, gama.py l.301. -/
def evaluationsLogWritten (out : Str) : Str := joinPath out evaluationsLogName

/-- The first file that `GamaReport(log_directory)` opens, GamaReport.py l.44. -/
def gamaLogRead (dir : Str) : Str := joinPath dir gamaLogName

/-- The second file that it opens, GamaReport.py l.35 and l.74. -/
def evaluationsLogRead (sys : Sys) (dir : Str) : Str :=
  joinPath (expandUser sys.home dir) evaluationsLogName

/-- `self.name`, GamaReport.py l.36: the second part of `os.path.split`, which is what comes after the
last slash. -/
def reportName (dir : Str) : Str := (splitOnChar '/' dir).getLastD []

end Gama
