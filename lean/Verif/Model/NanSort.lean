import Verif.Model.Nan
import Verif.Model.Py

/-!
# Scores that are not numbers when the pipeline to train is chosen

`fit` sorts the individuals the search found by their fitness values and trains the last one (`gama/gama.py` l.602-616,
`gama/postprocessing/best_fit.py` l.23-27).  What `sorted` gives for keys that are not ordered depends on how it sorts:
this is `list.sort` of CPython (`Objects/listobject.c`: `count_run`, `binarysort`, as up to Python 3.12: `SCORERS` of
`gama/utilities/metrics.py` l.5 is in versions of scikit-learn up to 1.2 only, which need Python 3.11 at most) for lists of less than 64 elements, which are sorted as one run.
-/

namespace Gama

section
variable {α ι K : Type} [LinearOrder K]

/-- The loop of `count_run` in a run of elements that do not decrease, after the element `prev`: the rest of the run,
and the elements after it. -/
def upRun (lt : α → α → Bool) : α → List α → List α × List α
  | _, [] => ([], [])
  | prev, x :: xs =>
    if lt x prev = true then ([], x :: xs)
    else
      let r := upRun lt x xs
      (x :: r.1, r.2)

/-- The loop of `count_run` in a run of elements that decrease. -/
def downRun (lt : α → α → Bool) : α → List α → List α × List α
  | _, [] => ([], [])
  | prev, x :: xs =>
    if lt x prev = true then
      let r := downRun lt x xs
      (x :: r.1, r.2)
    else ([], x :: xs)

/-- `count_run`, and `reverse_slice` if the run is one of decreasing elements. -/
def firstRun (lt : α → α → Bool) : List α → List α × List α
  | [] => ([], [])
  | [x] => ([x], [])
  | x :: y :: ys =>
    if lt y x = true then
      let r := downRun lt y ys
      ((x :: y :: r.1).reverse, r.2)
    else
      let r := upRun lt y ys
      (x :: y :: r.1, r.2)

/-- The loop of `binarysort` that looks for the place of `pivot` between `l` and `r`. -/
def binaryPlace (lt : α → α → Bool) (sorted : List α) (pivot : α) : Nat → Nat → Nat → Nat
  | 0, l, _ => l
  | fuel + 1, l, r =>
    if l < r then
      match sorted[l + (r - l) / 2]? with
      | none => l
      | some p =>
        if lt pivot p = true then binaryPlace lt sorted pivot fuel l (l + (r - l) / 2)
        else binaryPlace lt sorted pivot fuel (l + (r - l) / 2 + 1) r
    else l

/-- One round of `binarysort`: `pivot` is put in its place among the elements sorted so far. -/
def binaryInsert (lt : α → α → Bool) (sorted : List α) (pivot : α) : List α :=
  let l := binaryPlace lt sorted pivot sorted.length 0 sorted.length
  sorted.take l ++ pivot :: sorted.drop l

/-- `list.sort` of less than 64 elements. -/
def binarySort (lt : α → α → Bool) (l : List α) : List α :=
  (firstRun lt l).2.foldl (binaryInsert lt) (firstRun lt l).1

/-- The individual trained by `BestFitPostProcessing`, gama.py l.602-616, best_fit.py l.23-27: the first of the sorted
individuals in reverse, where fitness values may be NaN (`none`). -/
def nanBestFit (values : ι → List (Option K)) (pop : List ι) : Except Exn ι :=
  match (binarySort (fun a b => nanLt (values a) (values b)) pop).reverse with
  | [] => .error .indexError
  | x :: _ => .ok x

end
end Gama
