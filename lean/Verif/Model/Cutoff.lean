import Verif.Model.Whole

/-!
# An exception in the middle of saving an evaluation

The time of a search runs out through an exception that is put into the main thread (`stopit`,
gama.py l.639-656), so it can arrive between any two instructions, also while the evaluation library is
saving an evaluation (gama/utilities/evaluation_library.py l.228-249); `_safe_outside_call` passes it on
(gama.py l.716-721).  The same holds for a `KeyboardInterrupt`.  What was done so far stays done.  The
definitions here say in which states the library may then be left.
-/

namespace Gama
open PyM

section
variable {E P K : Type} [LinearOrder K]

/-- The states during `Evaluation.to_disk`, evaluation_library.py l.45-50, of `r`.  `named`: from the
assignment of `_cache_file` to the end of the `with` block; the file may not be there yet or hold anything
(`none` stands for no file and for one that cannot be read).  `halfCleared`: between the two assignments
of l.50. -/
inductive DuringToDisk (r : Ref E P K) (s : Lib E P K) : Lib E P K → Prop
  | before : DuringToDisk r s s
  | named (d : Option (List E × Option (List P))) : DuringToDisk r s { s with
      cells := upd s.cells r.idx { s.cells r.idx with cacheFile := some r.given.ident }
      disk := upd s.disk r.given.ident d }
  | halfCleared : DuringToDisk r s { s with
      cells := upd s.cells r.idx ⟨[], (s.cells r.idx).predictions, some r.given.ident⟩
      disk := upd s.disk r.given.ident (some ((s.cells r.idx).estimators, (s.cells r.idx).predictions)) }
  | done : DuringToDisk r s (toDisk r s).2

/-- The states during `Evaluation.remove_from_disk`, l.52-55.  `gone`: between its two lines. -/
inductive DuringRemove (r : Ref E P K) (s : Lib E P K) : Lib E P K → Prop
  | before : DuringRemove r s s
  | gone (f : Nat) : (s.cells r.idx).cacheFile = some f →
      DuringRemove r s { s with disk := upd s.disk f none }
  | done : DuringRemove r s (removeFromDisk r s).2

/-- The states during `evaluation._estimators, evaluation._predictions = [], None`, l.232 and l.241. -/
inductive DuringDiscard (r : Ref E P K) (s : Lib E P K) : Lib E P K → Prop
  | before : DuringDiscard r s s
  | half : DuringDiscard r s { s with cells := upd s.cells r.idx { s.cells r.idx with estimators := [] } }
  | done : DuringDiscard r s (discard r s).2

/-- The states during the three branches of `save_evaluation`, l.231-247 (`store`).  While `heapq` works
(its comparisons call `Evaluation.__lt__`, which is Python code), the list holds the right items in some
order: CPython's implementation appends the new item or puts it in the place of the first one, and then
swaps items.  The evaluation that `heappushpop` takes out is then nowhere until l.247. -/
inductive DuringStore (c : LibConfig) (r : Ref E P K) (s : Lib E P K) : Lib E P K → Prop
  | error {t} : r.given.error.isSome → DuringDiscard r s t → DuringStore c r s t
  | room {t} : r.given.error = none → hasRoom c.m s.top.length = true → DuringToDisk r s t →
      DuringStore c r s t
  | push (h : List (Ref E P K)) : r.given.error = none → hasRoom c.m s.top.length = true →
      h.Perm (r :: s.top) → DuringStore c r s { (toDisk r s).2 with top := h }
  | before : DuringStore c r s s
  | pushpop (h : List (Ref E P K)) : r.given.error = none → hasRoom c.m s.top.length = false →
      h.Perm (heappushpop (fun r => r.given.score) s.top r).2 → DuringStore c r s { s with top := h }
  | back {t} : r.given.error = none → hasRoom c.m s.top.length = false →
      (heappushpop (fun r => r.given.score) s.top r).1.given.score = r.given.score →
      DuringDiscard (heappushpop (fun r => r.given.score) s.top r).1
        { s with top := (heappushpop (fun r => r.given.score) s.top r).2 } t → DuringStore c r s t
  | replace {t} : r.given.error = none → hasRoom c.m s.top.length = false →
      (heappushpop (fun r => r.given.score) s.top r).1.given.score ≠ r.given.score →
      DuringToDisk r { s with top := (heappushpop (fun r => r.given.score) s.top r).2 } t →
      DuringStore c r s t
  | remove {t} : r.given.error = none → hasRoom c.m s.top.length = false →
      (heappushpop (fun r => r.given.score) s.top r).1.given.score ≠ r.given.score →
      DuringRemove (heappushpop (fun r => r.given.score) s.top r).1
        (toDisk r { s with top := (heappushpop (fun r => r.given.score) s.top r).2 }).2 t →
      DuringStore c r s t
  | done : DuringStore c r s (store c r s).2

/-- The states during `EvaluationLibrary.save_evaluation`, l.228-249.  `drawing`: while the rows are being
chosen, when `random` may have drawn any number of times. -/
inductive DuringSave (c : LibConfig) (given : EvalRec E P K) (s : Lib E P K) : Lib E P K → Prop
  | before : DuringSave c given s s
  | drawing (rnd : Stream) : DuringSave c given s { s with next := s.next + 1, rnd := rnd }
  | processed : DuringSave c given s
      (processPredictions c given.predictions { s with next := s.next + 1 }).2
  | store (ps : Option (List P)) (s1 t : Lib E P K) :
      processPredictions c given.predictions { s with next := s.next + 1 } = (.ok ps, s1) →
      DuringStore c ⟨s.next, given⟩ { s1 with cells := upd s1.cells s.next ⟨given.estimators, ps, none⟩ } t →
      DuringSave c given s t
  | done : DuringSave c given s (saveEvaluation c given s).2

end

section
variable {S I A B J Fn V X Ω E P : Type}

/-- The program, when an exception arrives during the `save_evaluation` that is called for the future that
an iteration of `wait_next` found (operator_set.py l.43-50, gama.py l.741-743): the search gets the
exception, as in `wholeStep` with `raisesAfter`, and the library is as it was at that moment. -/
inductive CutOff (U : Setup S I A B J Fn V X Ω E P) (e : Exn) (s : Whole S Fn V X E P) :
    Whole S Fn V X E P → Prop
  | mk (r₁ r₂ r₃ : Readings) (o : StopOutcome) (f : Future Fn V X) (ev : Evaluator Fn V X) (v : V)
      (t : Lib E P (List Score)) :
      asyncStep U.jobs s.joint.ev (.iterate r₁ r₂ r₃ o) = (.returned f, ev) → f.result = some v →
      DuringSave U.lib (evaluationOf U (U.world s.joint.search) v) s.lib t →
      CutOff U e s ⟨(wholeStep U (.iterate r₁ r₂ r₃ o (.raisesAfter e)) s).joint, t⟩

end
end Gama
