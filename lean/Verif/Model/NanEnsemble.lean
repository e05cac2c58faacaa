import Verif.Model.Ensemble

/-!
# Scores that are not numbers while an ensemble is built

`gama/postprocessing/ensemble.py` with a metric that may give NaN (`none`), as some metrics do, for instance for
predictions that do not vary.  `_internal_score` is not NaN: it is given values only that were found greater than
another (l.294-295), and `-float("inf")`.
-/

namespace Gama
open PyM

section
variable {κ ε : Type}

/-- `_ensemble_validation_score`, l.222-223, l.435-447, l.478-481. -/
def floatValidation (score : (κ → ℚ) → Except Exn (Option Score)) (p : κ → ℚ) : PyM (Ens κ ε) (Option Score) :=
  fun s => (score p, s)

/-- `build_initial_ensemble`, l.238-261, as `buildInitial` in `Model/Ensemble`. -/
def floatInitial (score : (κ → ℚ) → Except Exn (Option Score)) (n : Int) : PyM (Ens κ ε) Unit := do
  if n ≤ 0 then raise .valueError
  modify fun s => { s with models := some [] }
  let s ← PyM.get
  addModels (s.library.take n.toNat)
  let p ← averaged
  let _ ← floatValidation score p
  pure ()

/-- The inner loop of `expand_ensemble`, l.285-295: NaN is not greater than the best score. -/
def floatAddition (score : (κ → ℚ) → Except Exn (Option Score)) (avg : κ → ℚ) (w : Int) :
    List (Mdl κ ε) → Option (Mdl κ ε) → Score → PyM (Ens κ ε) (Option (Mdl κ ε) × Score)
  | [], best, bestScore => pure (best, bestScore)
  | m :: ms, best, bestScore => do
    let c ← floatValidation score (candidatePred avg w m)
    match c with
    | some v =>
      if bestScore < v then floatAddition score avg w ms (some m) v
      else floatAddition score avg w ms best bestScore
    | none => floatAddition score avg w ms best bestScore

/-- One round of `expand_ensemble`, l.281-302.  `prev` is what the variable `best_addition` holds from the rounds
before. -/
def floatExpandOne (score : (κ → ℚ) → Except Exn (Option Score)) (prev : Option (Mdl κ ε)) :
    PyM (Ens κ ε) (Option (Mdl κ ε)) := do
  let avg ← averaged
  let l ← modelValues
  let s ← PyM.get
  let best ← floatAddition score avg (totalWeight l) s.library prev .ninf
  match best.1 with
  | none => raise .unboundLocal
  | some m => do
    addModel m
    modify fun s => { s with internal := best.2 }
    pure (some m)

/-- The for loop of `expand_ensemble`, l.281-302. -/
def floatExpandLoop (score : (κ → ℚ) → Except Exn (Option Score)) : Nat → Option (Mdl κ ε) → PyM (Ens κ ε) Unit
  | 0, _ => pure ()
  | n + 1, prev => do
    let m ← floatExpandOne score prev
    floatExpandLoop score n m

/-- `expand_ensemble`, l.270-302. -/
def floatExpand (score : (κ → ℚ) → Except Exn (Option Score)) (n : Int) : PyM (Ens κ ε) Unit := do
  if n ≤ 0 then raise .valueError
  floatExpandLoop score n.toNat none

/-- The `try` block of `build_fit_ensemble`, l.508-524. -/
def floatBuildFit (score : (κ → ℚ) → Except Exn (Option Score)) (size : Int) (timeout : ℚ) : PyM (Ens κ ε) Unit := do
  floatInitial score (if size ≤ 10 then 1 else 10)
  let l ← modelValues
  if 0 < size - totalWeight l then floatExpand score (size - totalWeight l)
  fitEnsemble timeout

/-- `build_fit_ensemble`, l.487-528. -/
def floatEnsemble (score : (κ → ℚ) → Except Exn (Option Score)) (size : Int) (timeout : ℚ)
    (library : List (Mdl κ ε)) : Ens κ ε := (floatBuildFit score size timeout (newEnsemble library)).2

end
end Gama
