import Verif.Model.Front

/-!
# Callbacks that register callbacks

`_on_evaluation_completed` and `evaluation_completed`, `gama/gama.py` l.741-753: the list that is iterated over is the
one that is appended to.
-/

namespace Gama

/-- What a call of a callback does: how it ends, whether it is late afterwards (`callbackTimesOut`), and the callbacks
it registers with `evaluation_completed`. -/
structure CallAct (C : Type) where
  ends : CallEnd
  late : Bool
  registers : List C

/-- How the delivery of an evaluation ends: the callbacks called, the list of subscribers afterwards, and whether
something was raised. -/
structure Delivered (C : Type) where
  called : List C
  subscribers : List C
  outcome : Except Exn Unit

/-- The loop of `_on_evaluation_completed`, l.742-743, from position `i` of the list on: `for` over a list looks up one
position after another until there is none, so that what is appended meanwhile is reached as well.  What a callback does
may depend on the calls made so far (`called`).  `none`: not ended after `fuel` rounds. -/
def tellFrom {C : Type} (act : List C → C → CallAct C) : Nat → List C → List C → Option (Delivered C)
  | 0, _, _ => none
  | fuel + 1, called, subs =>
    match subs[called.length]? with
    | none => some ⟨called, subs, .ok ()⟩
    | some cb =>
      let a := act called cb
      match safeOutsideCall a.ends a.late with
      | .error e => some ⟨called ++ [cb], subs ++ a.registers, .error e⟩
      | .ok _ => tellFrom act fuel (called ++ [cb]) (subs ++ a.registers)

/-- `_on_evaluation_completed` for one evaluation, l.741-743. -/
def tellAll {C : Type} (act : List C → C → CallAct C) (fuel : Nat) (subs : List C) : Option (Delivered C) :=
  tellFrom act fuel [] subs

/-- The evaluations of a search, one after another, until a delivery raises; `acts k` is what callbacks do when told of
the `k`-th.  The list is the instance's, l.289. -/
def tellSearch {C : Type} (acts : Nat → List C → C → CallAct C) (fuel : Nat) : Nat → Nat → List C →
    Option (List (List C) × List C × Except Exn Unit)
  | 0, _, subs => some ([], subs, .ok ())
  | n + 1, k, subs =>
    match tellAll (acts k) fuel subs with
    | none => none
    | some d =>
      match d.outcome with
      | .error e => some ([d.called], d.subscribers, .error e)
      | .ok _ =>
        match tellSearch acts fuel n (k + 1) d.subscribers with
        | none => none
        | some r => some (d.called :: r.1, r.2)

end Gama
