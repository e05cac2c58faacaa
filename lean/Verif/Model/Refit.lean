import Verif.Model.Build

/-!
# A second `fit` on the same evaluation library

The `EvaluationLibrary` is made once, by `Gama.__init__` (gama.py l.291-304), and every `fit` uses it.
This file models what a later `fit` does to it, and the evaluations of a later `fit` when the cleanup of
an earlier one has removed the cache directory (gama.py l.338-350 and l.613-615).
-/

namespace Gama
open PyM

section
variable {E P K : Type}

/-- The library when the search of a later `fit` starts.  For classification (`stratify` is the number of
labels) rows are chosen again, GamaClassifier.py l.133 (the warning of evaluation_library.py l.196-197
is left out); for regression nothing is done. -/
def refitLibrary (c : LibConfig) (stratify : Option Nat) (s : Lib E P K) : Except Exn (Lib E P K) :=
  match stratify with
  | none => .ok s
  | some k =>
    match determineSample c none none (some k) s with
    | (.ok _, s') => .ok s'
    | (.error e, _) => .error e

/-- `shutil.rmtree(cache_directory)` of `cleanup`, gama.py l.347-348: with `store="logs"`, the default,
and `store="nothing"`, at the end of `fit`. -/
def removeCache (s : Lib E P K) : Lib E P K := { s with disk := fun _ => none }

/-- `Evaluation.to_disk`, evaluation_library.py l.45-50, when the directory does not exist: `open`
raises after `_cache_file` is set. -/
def toDiskGone (r : Ref E P K) : PyM (Lib E P K) Unit := do
  let c ← getCell r.idx
  setCell r.idx { c with cacheFile := some r.given.ident }
  raise .fileNotFound

variable [LinearOrder K]

/-- l.239-245 without a cache directory -/
def afterPopGone (removed new : Ref E P K) : PyM (Lib E P K) Unit :=
  if removed.given.score = new.given.score then discard removed
  else do
    toDiskGone new
    removeFromDisk removed

/-- l.231-247 without a cache directory -/
def storeGone (c : LibConfig) (r : Ref E P K) : PyM (Lib E P K) Unit := do
  let s ← get
  if r.given.error.isSome then do
    discard r
    addOther r
  else if hasRoom c.m s.top.length then do
    toDiskGone r
    modify fun s => { s with top := heappush (fun r => r.given.score) s.top r }
  else do
    let pop := heappushpop (fun r => r.given.score) s.top r
    modify fun s => { s with top := pop.2 }
    afterPopGone pop.1 r
    addOther pop.1

/-- `EvaluationLibrary.save_evaluation`, l.228-249, without a cache directory -/
def saveEvaluationGone (c : LibConfig) (given : EvalRec E P K) : PyM (Lib E P K) Unit := do
  let s ← get
  let r : Ref E P K := ⟨s.next, given⟩
  modify fun s => { s with next := s.next + 1 }
  let ps ← processPredictions c given.predictions
  setCell r.idx ⟨given.estimators, ps, none⟩
  storeGone c r
  modify fun s => { s with lookup := fun k => if k = given.pipeline then some r else s.lookup k }

/-- The evaluations of a search without a cache directory; exceptions are swallowed (gama.py
l.716-743). -/
def saveAllGone (c : LibConfig) : List (EvalRec E P K) → Lib E P K → Lib E P K
  | [], s => s
  | r :: rs, s => saveAllGone c rs (saveEvaluationGone c r s).2

/-- The library after two calls of `fit` with evaluations `hist1` and `hist2`; `stratify1` and
`stratify2` are the numbers of labels (classification) and `removed` says whether the first one removed
the cache directory. -/
def twoFits (c : LibConfig) (stratify1 stratify2 : Option Nat) (removed : Bool) (rnd : Stream)
    (hist1 hist2 : List (EvalRec E P K)) : Except Exn (Lib E P K) :=
  match startLibrary c stratify1 rnd with
  | .error e => .error e
  | .ok s0 =>
    let s1 := saveAll c hist1 s0
    match refitLibrary c stratify2 (if removed then removeCache s1 else s1) with
    | .error e => .error e
    | .ok s2 => .ok (if removed then saveAllGone c hist2 s2 else saveAll c hist2 s2)

end
end Gama
