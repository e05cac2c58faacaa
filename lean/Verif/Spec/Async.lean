import Verif.Model.Async

/-! # What the asynchronous evaluator is expected to do -/

namespace Gama.Spec
open Gama

variable {Fn V E Ω : Type}

/-- Keyword arguments that all come from the job or from the process-wide defaults, none missing
(which of the two wins is the subject of C33). -/
def KwargsFrom (given defaults : List (Str × V)) (kw : Str → Option V) : Prop :=
  ∀ k, (∀ v, kw k = some v → (k, v) ∈ given ∨ (k, v) ∈ defaults) ∧
    (∀ v, (k, v) ∈ given ∨ (k, v) ∈ defaults → kw k ≠ none)

/-- `f` reports a call of `job`: its return value (a MemoryError inside it may be replaced), the
exception it raised, or that the worker was out of memory when it looked at the return value. -/
def Reports (J : Jobs Fn V E Ω) (defaults : List (Str × V)) (job f : Future Fn V E) : Prop :=
  ∃ kw ω, KwargsFrom job.kwargs defaults kw ∧
    match J.call job.fn job.args kw ω with
    | .returns v =>
      (f.result = some v ∧ f.exception = none) ∨
      (J.probe v = .memoryError ∧ f.result = some (J.withoutMemoryError v) ∧ f.exception = none) ∨
      (J.probe v = .raisesMemory ∧ f.result = none ∧ f.exception = some .memory)
    | .raises e => f.result = none ∧ f.exception = some (.raised e)
    | .escapes => False

/-- The same function call. -/
def SameJob (f g : Future Fn V E) : Prop :=
  f.id = g.id ∧ f.fn = g.fn ∧ f.args = g.args ∧ f.kwargs = g.kwargs

/-- Number of jobs submitted in a trace. -/
def submittedCount : List (AsyncObs Fn V E) → Nat
  | [] => 0
  | .submitted _ :: tr => submittedCount tr + 1
  | _ :: tr => submittedCount tr

/-- Number of jobs returned in a trace. -/
def returnedCount : List (AsyncObs Fn V E) → Nat
  | [] => 0
  | .returned _ :: tr => returnedCount tr + 1
  | _ :: tr => returnedCount tr

end Gama.Spec
