import Verif.Model.NanFront

/-!
# Choosing parents where scores are not numbers

`gama/genetic_programming/nsga2.py` l.39-168, as in `Model/Nsga2`, for values that may be NaN, with the arithmetic of
Python's floats (without rounding).  What `sorted` gives where comparisons are not those of an order depends on how
it sorts: here it is a parameter `srt`, which takes `<` and the list.
-/

namespace Gama
open PyM

/-- `v1 < v2` of floats, `none` for NaN. -/
def floatLt (a b : Option Score) : Bool := floatGt b a

/-- `v1 == v2` of floats. -/
def floatEq : Option Score → Option Score → Bool
  | some x, some y => decide (x = y)
  | _, _ => false

/-- `np.isinf` -/
def floatIsInf : Option Score → Bool
  | some x => x.isInf
  | none => false

/-- `-v` -/
def floatNeg (a : Option Score) : Option Score := a.map fun x => -x

/-- `a + b`: infinities of different signs give NaN. -/
def floatAdd : Option Score → Option Score → Option Score
  | some (.fin x), some (.fin y) => some (.fin (x + y))
  | some .pinf, some .ninf => none
  | some .ninf, some .pinf => none
  | some .pinf, some _ => some .pinf
  | some .ninf, some _ => some .ninf
  | some (.fin _), some y => some y
  | _, _ => none

/-- `a - b` -/
def floatSub (a b : Option Score) : Option Score := floatAdd a (floatNeg b)

/-- `a / b`: by zero an exception (which numpy's floats give a warning for instead). -/
def floatDiv : Option Score → Option Score → Except Exn (Option Score)
  | _, some (.fin 0) => .error .zeroDivision
  | some (.fin x), some (.fin y) => .ok (some (.fin (x / y)))
  | some (.fin _), some _ => .ok (some (.fin 0))
  | some x, some (.fin y) => .ok (some (if 0 < y then x else -x))
  | _, _ => .ok none

/-- The inner for loop over consecutive triples, nsga2.py l.165-168. -/
def floatGaps (val : Nat → Option Score) (range : Option Score) :
    List Nat → (Nat → Option Score) → Except Exn (Nat → Option Score)
  | a :: b :: c :: rest, d =>
    match floatDiv (floatSub (val c) (val a)) range with
    | .error e => .error e
    | .ok g => floatGaps val range (b :: c :: rest) (upd d b (floatAdd (d b) g))
  | _, d => .ok d

/-- One iteration of `crowding_distance_assignment`, nsga2.py l.152-168, on what `sorted` gave. -/
def floatCrowdStep (val : Nat → Option Score) (front : List Nat) (d : Nat → Option Score) :
    Except Exn (Nat → Option Score) :=
  match front with
  | [] => .error .indexError
  | x :: _ =>
    let y := front.getLastD x
    let d := upd (upd d y (some .pinf)) x (some .pinf)
    if floatEq (val y) (val x) || floatIsInf (val x) || floatIsInf (val y) then .ok d
    else floatGaps val (floatSub (val y) (val x)) front d

/-- The loop over the metrics `m, m+1, …` (`k` of them left), nsga2.py l.151-168. -/
def floatCrowdLoop (srt : (Nat → Nat → Bool) → List Nat → List Nat) (vals : Nat → List (Option Score)) :
    Nat → Nat → List Nat → (Nat → Option Score) → Except Exn (Nat → Option Score)
  | 0, _, _, d => .ok d
  | k + 1, m, front, d =>
    let val := fun i => (vals i).getD m none
    let sorted := srt (fun a b => floatLt (val a) (val b)) front
    match floatCrowdStep val sorted d with
    | .error e => .error e
    | .ok d' => floatCrowdLoop srt vals k (m + 1) sorted d'

/-- `crowding_distance_assignment`, nsga2.py l.148-168. -/
def floatCrowding (srt : (Nat → Nat → Bool) → List Nat → List Nat) (vals : Nat → List (Option Score))
    (front : List Nat) (d : Nat → Option Score) : Except Exn (Nat → Option Score) :=
  match front with
  | [] => .error .indexError
  | x :: _ => floatCrowdLoop srt vals (vals x).length 0 front d

/-- `self.distance > other.distance` -/
def floatWider (d : Nat → Option Score) (a b : Nat) : Bool := floatGt (d a) (d b)

/-- The while loop of `nsga2`, nsga2.py l.102-114, as `selectLoop` in `Model/Nsga2`. -/
def floatSelectLoop (srt : (Nat → Nat → Bool) → List Nat → List Nat) (vals : Nat → List (Option Score))
    (rank : Nat → Nat) (n : Nat) :
    List (List Nat) → List Nat → (Nat → Option Score) → Except Exn (List Nat × (Nat → Option Score))
  | [], selection, d => if selection.length < n then .error .indexError else .ok (selection, d)
  | front :: rest, selection, d =>
    if selection.length < n then
      match floatCrowding srt vals front d with
      | .error e => .error e
      | .ok d' =>
        if selection.length + front.length < n then floatSelectLoop srt vals rank n rest (selection ++ front) d'
        else
          let s := srt (floatBetter rank (floatWider d')) front
          floatSelectLoop srt vals rank n rest (selection ++ s.take (n - selection.length)) d'
    else .ok (selection, d)

/-- `nsga2(population, n, metrics, return_meta=True)` of the values of a population, nsga2.py l.95-116: positions in
order of selection, ranks and distances. -/
def floatNsga2 (srt : (Nat → Nat → Bool) → List Nat → List Nat) (values : List (List (Option Score))) (n : Nat) :
    Except Exn (List Nat × (Nat → Nat) × (Nat → Option Score)) :=
  if n = 0 ∨ n > values.length then .error .valueError
  else
    let vals := fun i => values.getD i []
    match fastNonDominatedSort (fun p q => floatDominates (vals p) (vals q)) values.length with
    | .error e => .error e
    | .ok (fronts, s) =>
      match floatSelectLoop srt vals s.rank n fronts [] (fun _ => some (.fin 0)) with
      | .error e => .error e
      | .ok (order, d) => .ok (order, s.rank, d)

section
variable {σ : Type} [HasRand σ]

/-- `select_one`, nsga2.py l.54-57. -/
def floatSelectOne (order : List Nat) (rank : Nat → Nat) (d : Nat → Option Score) (exclude : Option Nat) :
    PyM σ Nat := do
  let selected ← sample 3 order
  match (selected.filter fun s => some s ≠ exclude).take 2 with
  | [a, b] => pure (floatTournament rank (floatWider d) a b)
  | _ => raise .valueError

/-- The for loop, nsga2.py l.60-63. -/
def floatPairs (order : List Nat) (rank : Nat → Nat) (d : Nat → Option Score) : Nat → PyM σ (List (Nat × Nat))
  | 0 => pure []
  | n + 1 => do
    let first ← floatSelectOne order rank d none
    let second ← floatSelectOne order rank d (some first)
    let rest ← floatPairs order rank d n
    pure ((first, second) :: rest)

/-- `nsga2_select`, nsga2.py l.39-64. -/
def floatNsga2Select (srt : (Nat → Nat → Bool) → List Nat → List Nat) (values : List (List (Option Score))) (n : Nat) :
    PyM σ (List (Nat × Nat)) :=
  if values.length < 3 then raise .valueError
  else match floatNsga2 srt values values.length with
    | .error e => raise e
    | .ok (order, rank, d) => floatPairs order rank d n

end
end Gama
