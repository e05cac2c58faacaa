import Verif.Model.Joint
import Verif.Model.Library
import Mathlib.Data.List.Lex

/-!
# A search, its evaluator and the evaluation library together

Models what happens between the submission of an individual and the next decision of the search: a
worker evaluates it, `OperatorSet.wait_next` (gama/genetic_programming/operator_set.py l.43-50) hands the
`Evaluation` to `Gama._on_evaluation_completed` (gama/gama.py l.741-743), the evaluation library saves it
(gama.py l.300), and from then on `try_until_new` (operator_set.py l.52-61) finds its pipeline among
`completed_evaluations` (gama.py l.335).  The parts are those of `Joint.lean` and `Library.lean`.
-/

namespace Gama
open PyM

section
variable {S I A B J Fn V X Ω E P : Type}

/-- What an `Evaluation` holds besides its individual, evaluation_library.py l.21-43.  Scores compare
as tuples of floats. -/
structure Findings (E P : Type) where
  score : List Score
  error : Option Str
  estimators : List E
  predictions : Option (List P)

/-- A search in GAMA: `look` tells its operators which pipelines are in the library, `world` is where
its individuals live, `ident` the individual of a job, `report` what a result holds. -/
structure Setup (S I A B J Fn V X Ω E P : Type) where
  client : Client S I A J World
  look : (Str → Bool) → B → A
  world : S → World
  ident : J → Nat
  coding : Coding Fn V J
  jobs : Jobs Fn V X Ω
  report : V → Findings E P
  lib : LibConfig

/-- `async_ea` with GAMA's operators, which look for new pipelines. -/
def evolveClient (c : OpConfig) (cxpb : ℚ) (maxN : Option Int) (size : Nat) :
    Client (Ea World Nat) ((Str → Bool) × EaInput World) ((Str → Bool) × Bool) Nat World where
  step i := eaStep (gamaOps { c with completed := i.1 } cxpb) maxN size i.2
  go a q := (a.1, ⟨.raises .runtimeError, q, a.2⟩)
  waited w := (fun _ => false, ⟨w, 0, false⟩)
  waits := eaWaits maxN
  setPending p s := { s with pending := p }
  submitted := Ea.submitted
  history := Ea.history

/-- `Individual.fitness` is set by `evaluate_individual`, compilers/scikitlearn.py l.218-223, on the
individual that comes back (which is equal to the one submitted). -/
def recordFitness (x : Nat) (v : List Score) (w : World) : World :=
  { w with inds := w.inds.modify x fun c => { c with fitness := some v } }

/-- `str(individual.main_node)`.  An individual that has no pipeline does not occur (C126). -/
def pipelineOf (x : Nat) (w : World) : Str :=
  match pipelineStr x w with
  | (.ok s, _) => s
  | (.error _, _) => []

/-- The `Evaluation` of a result.  Its individual is a copy of the one submitted, which no operator
changes. -/
def evaluationOf (U : Setup S I A B J Fn V X Ω E P) (w : World) (v : V) : EvalRec E P (List Score) :=
  let x := U.ident (U.coding.read v).1
  ⟨x, pipelineOf x w, (U.report v).score, (U.report v).error, (U.report v).estimators,
    (U.report v).predictions⟩

/-- The state of the program. -/
structure Whole (S Fn V X E P : Type) where
  joint : Joint S Fn V X
  lib : Lib E P (List Score)

/-- How `OperatorSet.wait_next` ends once there is a future: by returning it, or by an exception (the
timeout of the search, `KeyboardInterrupt`, `TimeoutException` of gama.py l.729-739) before or after the
library saved the evaluation.  An exception that arrives in the middle of saving is in `Cutoff.lean`. -/
inductive WaitEnd
  | returns
  | raisesBefore (e : Exn)
  | raisesAfter (e : Exn)

/-- As `JointEvent`. -/
inductive WholeEvent (B Ω : Type)
  | go (b : B)
  | wait
  | iterate (r₁ r₂ r₃ : Readings) (o : StopOutcome) (fin : WaitEnd)
  | worker (pid : Nat) (act : WorkerAct Ω)

/-- The world when `wait_next` returns the future. -/
def afterCallback (U : Setup S I A B J Fn V X Ω E P) (fin : WaitEnd) (f : Future Fn V X) (w : World) :
    Except Exn World :=
  match fin with
  | .returns =>
    match f.result with
    | none => .ok w
    | some v => .ok (recordFitness (U.ident (U.coding.read v).1) (U.report v).score w)
  | .raisesBefore e => .error e
  | .raisesAfter e => .error e

/-- The library when `wait_next` ends: `if future.result and self._evaluate_callback`, operator_set.py
l.46-47 (an `Evaluation` is truthy), `save_evaluation`, whose exceptions are swallowed, gama.py
l.716-726. -/
def afterSaving (U : Setup S I A B J Fn V X Ω E P) (fin : WaitEnd) (f : Future Fn V X) (w : World)
    (lib : Lib E P (List Score)) : Lib E P (List Score) :=
  match fin with
  | .raisesBefore _ => lib
  | _ =>
    match f.result with
    | none => lib
    | some v => (saveEvaluation U.lib (evaluationOf U w v) lib).2

/-- Which pipelines are in the library: `str(individual.main_node) not in
self._completed_evaluations`, operator_set.py l.57. -/
def inLibrary (lib : Lib E P (List Score)) (text : Str) : Bool := (lib.lookup text).isSome

/-- One event. -/
def wholeStep (U : Setup S I A B J Fn V X Ω E P) :
    WholeEvent B Ω → Whole S Fn V X E P → Whole S Fn V X E P
  | .go b, s => { s with
      joint := jointStep U.client U.coding U.jobs (.go (U.look (inLibrary s.lib) b)) s.joint }
  | .wait, s => { s with joint := jointStep U.client U.coding U.jobs .wait s.joint }
  | .iterate r₁ r₂ r₃ o fin, s =>
    let w := U.world s.joint.search
    match asyncStep U.jobs s.joint.ev (.iterate r₁ r₂ r₃ o) with
    | (.returned f, _) =>
      ⟨jointStep U.client U.coding U.jobs (.iterate r₁ r₂ r₃ o (afterCallback U fin f w)) s.joint,
        afterSaving U fin f w s.lib⟩
    | _ => { s with
        joint := jointStep U.client U.coding U.jobs (.iterate r₁ r₂ r₃ o (.ok w)) s.joint }
  | .worker pid act, s => { s with
      joint := jointStep U.client U.coding U.jobs (.worker pid act) s.joint }

def wholeRun (U : Setup S I A B J Fn V X Ω E P) :
    List (WholeEvent B Ω) → Whole S Fn V X E P → Whole S Fn V X E P
  | [], s => s
  | e :: es, s => wholeRun U es (wholeStep U e s)

/-- Evolution, gama/search_methods/async_ea.py, as `Gama` runs it. -/
def evolution (c : OpConfig) (cxpb : ℚ) (maxN : Option Int) (size : Nat) (K : Coding Fn V Nat)
    (Jb : Jobs Fn V X Ω) (report : V → Findings E P) (lib : LibConfig) :
    Setup (Ea World Nat) ((Str → Bool) × EaInput World) ((Str → Bool) × Bool) Bool Nat Fn V X Ω E P where
  client := evolveClient c cxpb maxN size
  look d b := (d, b)
  world := Ea.world
  ident x := x
  coding := K
  jobs := Jb
  report := report
  lib := lib

/-- Random search, gama/search_methods/random_search.py, as `Gama` runs it. -/
def randomSearching (c : OpConfig) (cxpb : ℚ) (maxN : Option Int) (K : Coding Fn V Nat)
    (Jb : Jobs Fn V X Ω) (report : V → Findings E P) (lib : LibConfig) :
    Setup (Rs World Nat) (Wait World) Unit Unit Nat Fn V X Ω E P where
  client := rsClient (gamaOps c cxpb) maxN
  look _ b := b
  world := Rs.world
  ident x := x
  coding := K
  jobs := Jb
  report := report
  lib := lib

/-- Asynchronous successive halving, gama/search_methods/asha.py, as `Gama` runs it.  What is evaluated is
`evaluate_on_rung`, l.210-219: an evaluation that is not on the top rung is given an error. -/
def halving (c : OpConfig) (cxpb : ℚ) (a : AshaConfig) (K : Coding Fn V (Nat × Nat))
    (Jb : Jobs Fn V X Ω) (report : V → Findings E P) (lib : LibConfig) :
    Setup (Asha World Nat) (AshaInput World) Nat Nat (Nat × Nat) Fn V X Ω E P where
  client := ashaClient (gamaOps c cxpb) a
  look _ b := b
  world := Asha.world
  ident x := x.1
  coding := K
  jobs := Jb
  report v := { report v with error := rungError (K.read v).1.2 a.maxRung (report v).error }
  lib := lib

/-- A search about to start with a library, gama.py l.622-656. -/
def wholeStart (start : S) (lib : Lib E P (List Score)) (n : Nat) (limit : Option ℚ) (logfile : Bool)
    (defaults : List (Str × V)) : Whole S Fn V X E P := ⟨jointStart start n limit logfile defaults, lib⟩

end
end Gama
