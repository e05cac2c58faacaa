import Verif.Model.Search
import Verif.Model.Config
import Verif.Model.Evaluate

/-!
# From the hyperparameters of successive halving to its evaluations

`search_methods/asha.py` l.39-54 (the hyperparameters), l.64-83 (`dynamic_defaults` and `search`), l.125-138
and l.173-181 (what is passed to an evaluation).
-/

namespace Gama

/-- Hyperparameters of successive halving: resources and whole numbers. -/
inductive HalvingValue
  | resource (r : Resource) | whole (n : Nat)
  deriving DecidableEq

def minResourceKey : Str := "minimum_resource".toList
def reductionKey : Str := "reduction_factor".toList
def stoppingKey : Str := "minimum_early_stopping_rate".toList

/-- `AsynchronousSuccessiveHalving.__init__`, l.39-54. -/
def halvingTable (rf : Option Nat) (r R : Option Resource) (rate : Option Nat) : HpTable HalvingValue :=
  [(reductionKey, (rf.map .whole, some (.whole 3))),
   (minResourceKey, (r.map .resource, some (.resource (.fraction (1 / 8))))),
   (maxResourceKey, (R.map .resource, some (.resource (.fraction 1)))),
   (stoppingKey, (rate.map .whole, some (.whole 0)))]

/-- `len(y) < set_max`, l.68. -/
def halvingExceeds (n : Nat) : HalvingValue → Bool
  | .resource r => decide ((n : ℚ) < r.val)
  | .whole k => decide (n < k)

/-- `search` after `dynamic_defaults`, l.64-83 and l.125-138: the rungs for data of `n` rows.  A
hyperparameter that is missing is a `TypeError` of the call (never the case). -/
def halvingStart (t : HpTable HalvingValue) (n : Nat) : Except Exn (Int × List (Nat × ℚ)) :=
  match ashaDefaults (halvingExceeds n) t with
  | .error e => .error e
  | .ok t' =>
    let hp := hyperparameters t'
    match dget hp reductionKey, dget hp minResourceKey, dget hp maxResourceKey, dget hp stoppingKey with
    | some (some (.whole rf)), some (some (.resource r)), some (some (.resource R)), some (some (.whole rate)) =>
      ashaSetup rf rate r R
    | _, _, _, _ => .error .typeError

/-- The `subsample` of evaluations on a rung, l.136 and l.179: a product and minimum of whole numbers is a
whole number. -/
def rungSubsample (R : Resource) (q : ℚ) : Subsample :=
  match R with
  | .rows _ => .rows q.num.toNat
  | .fraction _ => .frac q

end Gama
