import Verif.Model.Search
import Mathlib.Data.Rat.Floor

/-!
# Rungs of successive halving in double precision

The beginning of `asha` (asha.py l.125-138) as computed with doubles.  `Model/Search.lean` has the same
with exact numbers.

A number is rounded to the nearest double, to the even one if there are two.  Simplification: doubles of
any exponent, so that nothing overflows or is subnormal.
-/

namespace Gama

/-- `2 ^ e` for any integer `e`. -/
def pow2 : Int → ℚ
  | .ofNat n => ((2 ^ n : Nat) : ℚ)
  | .negSucc n => 1 / ((2 ^ (n + 1) : Nat) : ℚ)

/-- The exponent of a positive number: the `e` with `2 ^ e ≤ q < 2 ^ (e + 1)`. -/
def exponent (q : ℚ) : Int :=
  let e : Int := (Nat.log2 q.num.natAbs : Int) - (Nat.log2 q.den : Int)
  if pow2 e ≤ q then e else e - 1

/-- The nearest integer, the even one if there are two. -/
def roundEven (q : ℚ) : Int :=
  let f := q.floor
  if q - f < 1 / 2 then f
  else if 1 / 2 < q - f then f + 1
  else if f % 2 = 0 then f else f + 1

/-- The double nearest to a number: 53 binary digits. -/
def fround (q : ℚ) : ℚ :=
  if q = 0 then 0
  else
    let e := exponent |q| - 52
    roundEven (q / pow2 e) * pow2 e

/-- `math.ceil(math.log(maximum_resource / minimum_resource, reduction_factor))`, l.131-133, for
`0 < minimum_resource` and `2 ≤ reduction_factor`, given the logarithm `log` of the C library: the
quotient of the resources is rounded, and so is the quotient of the two logarithms (`loghelper` and
`math.log` of mathmodule.c). -/
def floatMaxRung (log : ℚ → ℚ) (rf : Nat) (r R : ℚ) : Int :=
  ⌈fround (log (fround (R / r)) / log rf)⌉

/-- `minimum_resource * (reduction_factor**rung)`, l.136: exact for numbers of rows, rounded for
fractions. -/
def scaled (rf : Nat) (r : Resource) (k : Nat) : ℚ :=
  match r with
  | .rows n => n * (rf : ℚ) ^ k
  | .fraction q => fround (q * fround ((rf : ℚ) ^ k))

/-- `rung_resources`, l.135-138. -/
def floatResources (rf : Nat) (r R : Resource) (levels : List Nat) : List (Nat × ℚ) :=
  levels.map fun k => (k, min (scaled rf r k) R.val)

/-- `max_rung` and `rung_resources`, l.131-138, for resources of the same kind. -/
def floatSetup (log : ℚ → ℚ) (rf rate : Nat) (r R : Resource) : Int × List (Nat × ℚ) :=
  let m := floatMaxRung log rf r.val R.val
  (m, floatResources rf r R (rungRange rate m))

end Gama
