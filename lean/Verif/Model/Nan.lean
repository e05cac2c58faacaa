import Verif.Model.Library

/-!
# Scores that are not numbers in the evaluation library

`gama/utilities/evaluation_library.py` l.75-91 (comparison of evaluations) and l.228-249 (`save_evaluation`, as far as
the lists are concerned), for scores that may be NaN: of the metrics accepted (`gama/utilities/metrics.py` l.7-20),
scikit-learn's `explained_variance_score` is NaN if residuals of both signs are so large that their sum overflows, and
`r2_score` (for all pipelines) if a test set has one row.  `cross_validate` passes NaN on
(`gama/genetic_programming/compilers/scikitlearn.py` l.111-120), and the evaluation has no error.

`Model/Library` has scores of a linear order; here comparisons are those of Python's tuples of floats.
-/

namespace Gama

section
variable {α K : Type} [LinearOrder K]

/-- `score.__lt__` of tuples of floats, `none` for NaN: the first entries that are not equal decide, and a comparison
with NaN is false.  (The entries of two evaluations are different objects, so that NaN is not equal to NaN.) -/
def nanLt : List (Option K) → List (Option K) → Bool
  | [], [] => false
  | [], _ :: _ => true
  | _ :: _, [] => false
  | some x :: as, some y :: bs => if x = y then nanLt as bs else decide (x < y)
  | _ :: _, _ :: _ => false

/-! `heapq`, as in `Model/Heapq`, for a comparison that need not be an order. -/

/-- `_siftdown(heap, 0, pos)` -/
def siftDownBy (lt : α → α → Bool) : Nat → List α → Nat → α → List α
  | 0, h, pos, x => h.set pos x
  | fuel + 1, h, pos, x =>
    if 0 < pos then
      match h[(pos - 1) / 2]? with
      | none => h.set pos x
      | some p =>
        if lt x p = true then siftDownBy lt fuel (h.set pos p) ((pos - 1) / 2) x else h.set pos x
    else h.set pos x

/-- The while loop of `_siftup`. -/
def siftHoleBy (lt : α → α → Bool) : Nat → List α → Nat → List α × Nat
  | 0, h, pos => (h, pos)
  | fuel + 1, h, pos =>
    match h[2 * pos + 1]?, h[2 * pos + 2]? with
    | none, _ => (h, pos)
    | some l, none => siftHoleBy lt fuel (h.set pos l) (2 * pos + 1)
    | some l, some r =>
      if lt l r = true then siftHoleBy lt fuel (h.set pos l) (2 * pos + 1)
      else siftHoleBy lt fuel (h.set pos r) (2 * pos + 2)

/-- `heapq.heappush` -/
def heappushBy (lt : α → α → Bool) (h : List α) (x : α) : List α :=
  siftDownBy lt h.length (h ++ [x]) h.length x

/-- `heapq.heappushpop` -/
def heappushpopBy (lt : α → α → Bool) (h : List α) (x : α) : α × List α :=
  match h with
  | [] => (x, h)
  | r :: _ =>
    if lt r x = true then
      let hp := siftHoleBy lt h.length h 0
      (r, siftDownBy lt hp.2 hp.1 hp.2 x)
    else (x, h)

/-- The lists of the library. -/
structure NanLib (α : Type) where
  top : List α
  other : List α

/-- What is saved: a number to tell evaluations apart, the score, and whether there was an error. -/
structure NanEval (K : Type) where
  number : Nat
  score : List (Option K)
  error : Bool
  deriving DecidableEq

/-- Comparison of evaluations, l.75-91. -/
def NanEval.lt (a b : NanEval K) : Bool := nanLt a.score b.score

/-- `save_evaluation`, l.228-249. -/
def nanSave (m : Option Nat) (s : NanLib (NanEval K)) (x : NanEval K) : NanLib (NanEval K) :=
  if x.error then { s with other := s.other ++ [x] }
  else if hasRoom m s.top.length then { s with top := heappushBy NanEval.lt s.top x }
  else
    let r := heappushpopBy NanEval.lt s.top x
    ⟨r.2, s.other ++ [r.1]⟩

/-- Saving one evaluation after another, beginning with an empty library. -/
def nanSaveAll (m : Option Nat) (hist : List (NanEval K)) : NanLib (NanEval K) :=
  hist.foldl (nanSave m) ⟨[], []⟩

end
end Gama
