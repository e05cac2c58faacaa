import Verif.Model.Logs

/-!
# Columns of the evaluation log

`gama/logging/evaluation_logger.py` l.42-79 with the fields that the searches ask for:
`gama/search_methods/async_ea.py` l.47-60, `gama/search_methods/asha.py` l.56-62,
`gama/search_methods/base_search.py` l.20, and gama.py l.301, where the logger of the search is
created for the file `evaluations.log`.

What a column reads off an evaluation is a text here, already formatted by `format_value` (l.76-77).
-/

namespace Gama

/-- The part of an evaluation the log reads: the standard values as texts and the dictionary `meta`
of its individual (operator_set.py l.66, 75, 84; asha.py l.212-213). -/
structure LogEval where
  id : Str
  pid : Str
  tStart : Str
  tWallclock : Str
  tProcess : Str
  score : Str
  pipeline : Str
  error : Str
  /-- `meta["parents"]`, if there is one -/
  parents : Option (List Str)
  /-- `meta["origin"]` -/
  origin : Option Str
  /-- `meta["rung"]` -/
  rung : Option Str
  /-- `meta["subsample"]` -/
  subsample : Option Str

/-- The standard fields, evaluation_logger.py l.46-59. -/
def standardFields : LogFields LogEval :=
  [("id".toList, LogEval.id), ("pid".toList, LogEval.pid), ("t_start".toList, LogEval.tStart),
   ("t_wallclock".toList, LogEval.tWallclock), ("t_process".toList, LogEval.tProcess),
   ("score".toList, LogEval.score), ("pipeline".toList, LogEval.pipeline),
   ("error".toList, LogEval.error)]

/-- `get_parent`, async_ea.py l.47-51. -/
def getParent (n : Nat) (e : LogEval) : Str :=
  if n < (e.parents.getD []).length then (e.parents.getD []).getD n [] else []

/-- The text for a missing entry of `meta`. -/
def unknownText : Str := "unknown".toList

/-- The extra fields of `AsyncEA`, async_ea.py l.53-60. -/
def eaFields : LogFields LogEval :=
  [("parent0".toList, getParent 0), ("parent1".toList, getParent 1),
   ("origin".toList, fun e => e.origin.getD unknownText)]

/-- The extra fields of `AsynchronousSuccessiveHalving`, asha.py l.56-62. -/
def ashaFields : LogFields LogEval :=
  [("rung".toList, fun e => e.rung.getD unknownText),
   ("subsample".toList, fun e => e.subsample.getD unknownText)]

/-- `EvaluationLogger.__init__`, l.42-66, with respect to the dictionaries: what the caller passes as
`fields` (or `none`) and `extra_fields`; the result is the logger's fields, the file, and the
caller's `fields` afterwards, which is the very dictionary that `update` extends (l.61-64). -/
def loggerCreate {E : Type} (sep : Str) (default : LogFields E) (fields extra : Option (LogFields E))
    (file : Str) : LogFields E × Str × Option (LogFields E) :=
  let r := loggerInit sep (fields.getD default) extra file
  (r.1, r.2, fields.map fun _ => r.1)

end Gama
