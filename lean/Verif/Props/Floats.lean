import Verif.Model.Floats
import Verif.Model.Halving
import Verif.Props.Asha
import Mathlib.Analysis.SpecialFunctions.Log.Basic
import Mathlib.Analysis.Complex.ExponentialBounds
import Mathlib.Tactic.NormNum
import Mathlib.Tactic.Linarith
import Mathlib.Tactic.Positivity
import Mathlib.Tactic.FieldSimp

/-!
# C40 in double precision
-/

namespace Gama

/-! ### Rounding -/

theorem pow2_eq (e : Int) : pow2 e = (2 : ℚ) ^ e := by
  cases e with
  | ofNat n => simp [pow2]
  | negSucc n => simp [pow2, zpow_negSucc]

theorem exponent_spec {q : ℚ} (hq : 0 < q) :
    (2 : ℚ) ^ exponent q ≤ q ∧ q < (2 : ℚ) ^ (exponent q + 1) := by
  have hn : 0 < q.num := Rat.num_pos.2 hq
  have hna : q.num.natAbs ≠ 0 := by omega
  have hd : q.den ≠ 0 := q.den_nz
  have a1 := Nat.log2_self_le hna
  have a2 := Nat.lt_log2_self (n := q.num.natAbs)
  have b1 := Nat.log2_self_le hd
  have b2 := Nat.lt_log2_self (n := q.den)
  set a := Nat.log2 q.num.natAbs
  set b := Nat.log2 q.den
  have hN : ((q.num.natAbs : Nat) : ℚ) = (q.num : ℚ) := by
    rw [← Int.cast_natCast, Int.natAbs_of_nonneg hn.le]
  have hqe : q = (q.num.natAbs : ℚ) / (q.den : ℚ) := by
    rw [hN]; exact (Rat.num_div_den q).symm
  have a1' : (2 : ℚ) ^ a ≤ (q.num.natAbs : ℚ) := by exact_mod_cast a1
  have a2' : (q.num.natAbs : ℚ) < (2 : ℚ) ^ (a + 1) := by exact_mod_cast a2
  have b1' : (2 : ℚ) ^ b ≤ (q.den : ℚ) := by exact_mod_cast b1
  have b2' : (q.den : ℚ) < (2 : ℚ) ^ (b + 1) := by exact_mod_cast b2
  have hdp : (0 : ℚ) < q.den := by exact_mod_cast Nat.pos_of_ne_zero hd
  have hb : (0 : ℚ) < (2 : ℚ) ^ b := by positivity
  have up : q < (2 : ℚ) ^ ((a : Int) - b + 1) := by
    have : (2 : ℚ) ^ ((a : Int) - b + 1) = (2 : ℚ) ^ (a + 1) / (2 : ℚ) ^ b := by
      rw [show (a : Int) - b + 1 = ((a + 1 : Nat) : Int) - (b : Nat) by push_cast; ring,
        zpow_sub₀ (by norm_num), zpow_natCast, zpow_natCast]
    rw [this, hqe]
    exact div_lt_div₀ a2' b1' (by positivity) hb
  have lo : (2 : ℚ) ^ ((a : Int) - b - 1) < q := by
    have : (2 : ℚ) ^ ((a : Int) - b - 1) = (2 : ℚ) ^ a / (2 : ℚ) ^ (b + 1) := by
      rw [show (a : Int) - b - 1 = ((a : Nat) : Int) - ((b + 1 : Nat) : Int) by push_cast; ring,
        zpow_sub₀ (by norm_num), zpow_natCast, zpow_natCast]
    rw [this, hqe]
    exact div_lt_div₀' a1' b2' (lt_of_lt_of_le (by positivity) a1') hdp
  unfold exponent
  dsimp only
  rw [pow2_eq]
  split
  · rename_i h; exact ⟨h, up⟩
  · rename_i h
    refine ⟨lo.le, ?_⟩
    rw [show (a : Int) - b - 1 + 1 = (a : Int) - b by ring]
    exact not_le.1 h

theorem roundEven_spec (q : ℚ) : |(roundEven q : ℚ) - q| ≤ 1 / 2 := by
  have h1 : ((q.floor : Int) : ℚ) ≤ q := by
    have := Int.floor_le q
    exact this
  have h2 : q < (q.floor : Int) + 1 := by
    have := Int.lt_floor_add_one q
    exact this
  unfold roundEven
  dsimp only
  rw [abs_le]
  split
  · constructor <;> linarith
  · split
    · constructor <;> push_cast <;> linarith
    · have : q - (q.floor : Int) = 1 / 2 := by linarith
      split
      · constructor <;> linarith
      · constructor <;> push_cast <;> linarith

/-- Rounding changes a number by at most the fraction `2 ^ -53`. -/
theorem fround_spec (q : ℚ) : |fround q - q| ≤ |q| / 2 ^ 53 := by
  unfold fround
  by_cases h : q = 0
  · rw [if_pos h, h]; simp
  · rw [if_neg h]
    dsimp only
    have hq : 0 < |q| := abs_pos.2 h
    obtain ⟨e1, _⟩ := exponent_spec hq
    set e := exponent |q|
    rw [pow2_eq]
    have hp : (0 : ℚ) < (2 : ℚ) ^ (e - 52) := by positivity
    have h1 := roundEven_spec (q / (2 : ℚ) ^ (e - 52))
    have h2 : ((roundEven (q / (2 : ℚ) ^ (e - 52)) : Int) : ℚ) * (2 : ℚ) ^ (e - 52) - q
        = (((roundEven (q / (2 : ℚ) ^ (e - 52)) : Int) : ℚ) - q / (2 : ℚ) ^ (e - 52))
          * (2 : ℚ) ^ (e - 52) := by
      field_simp
    rw [h2, abs_mul, abs_of_pos hp]
    calc _ ≤ 1 / 2 * (2 : ℚ) ^ (e - 52) := mul_le_mul_of_nonneg_right h1 hp.le
      _ = (2 : ℚ) ^ e / 2 ^ 53 := by
        rw [zpow_sub₀ (by norm_num)]
        norm_num
        ring
      _ ≤ |q| / 2 ^ 53 := by gcongr

/-- A double: an integer of at most 53 binary digits times a power of two. -/
def Spec.IsDouble (q : ℚ) : Prop := ∃ n e : Int, |n| ≤ 2 ^ 53 ∧ q = n * (2 : ℚ) ^ e

theorem fround_double (q : ℚ) : Spec.IsDouble (fround q) := by
  unfold fround
  by_cases h : q = 0
  · rw [if_pos h]; exact ⟨0, 0, by simp, by simp⟩
  · rw [if_neg h]
    dsimp only
    have hq : 0 < |q| := abs_pos.2 h
    obtain ⟨_, e2⟩ := exponent_spec hq
    set e := exponent |q|
    rw [pow2_eq]
    refine ⟨_, _, ?_, rfl⟩
    have hp : (0 : ℚ) < (2 : ℚ) ^ (e - 52) := by positivity
    have h1 := roundEven_spec (q / (2 : ℚ) ^ (e - 52))
    have h3 : |q / (2 : ℚ) ^ (e - 52)| < 2 ^ 53 := by
      rw [abs_div, abs_of_pos hp, div_lt_iff₀ hp]
      refine lt_of_lt_of_eq e2 ?_
      rw [← zpow_natCast, ← zpow_add₀ (by norm_num)]
      congr 1
      push_cast; ring
    have h4 : |((roundEven (q / (2 : ℚ) ^ (e - 52)) : Int) : ℚ)| < 2 ^ 53 + 1 := by
      have := abs_sub_abs_le_abs_sub ((roundEven (q / (2 : ℚ) ^ (e - 52)) : Int) : ℚ) (q / (2 : ℚ) ^ (e - 52))
      linarith
    have h5 : |roundEven (q / (2 : ℚ) ^ (e - 52))| < 2 ^ 53 + 1 := by exact_mod_cast h4
    omega

/-! ### Logarithms -/

/-- A logarithm as that of a C library: its values are doubles, and off by at most one unit in the last
place (a fraction of `2 ^ -52`). -/
def Spec.GoodLog (log : ℚ → ℚ) : Prop :=
  ∀ x : ℚ, 0 < x → Spec.IsDouble (log x) ∧ |((log x : ℚ) : ℝ) - Real.log x| ≤ |Real.log x| / 2 ^ 52

theorem log_billion {x : ℝ} (hx : 0 < x) (h : x ≤ 10 ^ 9) : Real.log x ≤ 21 := by
  rw [Real.log_le_iff_le_exp hx]
  refine h.trans ?_
  have : Real.exp 21 = Real.exp 1 ^ 21 := by
    rw [← Real.exp_nat_mul]; norm_num
  rw [this]
  calc (10 : ℝ) ^ 9 ≤ 2.7182818283 ^ 21 := by norm_num
    _ ≤ Real.exp 1 ^ 21 := by
      have := Real.exp_one_gt_d9
      gcongr

theorem log_two_le {b : Nat} (hb : 2 ≤ b) : 69 / 100 ≤ Real.log b := by
  have h1 : Real.log 2 ≤ Real.log b := Real.log_le_log (by norm_num) (by exact_mod_cast hb)
  have := Real.log_two_gt_d9
  linarith

theorem log_near {x y : ℝ} (hx : 0 < x) (h : |y - x| ≤ x / 2 ^ 53) :
    0 < y ∧ |Real.log y - Real.log x| ≤ 1 / 2 ^ 52 := by
  rw [abs_le] at h
  have hy : 0 < y := by
    have : x / 2 ^ 53 < x := by
      rw [div_lt_iff₀ (by positivity)]; nlinarith
    linarith [h.1]
  refine ⟨hy, ?_⟩
  rw [← Real.log_div hy.ne' hx.ne']
  have hz : 0 < y / x := div_pos hy hx
  have h1 : y / x ≤ 1 + 1 / 2 ^ 53 := by
    rw [div_le_iff₀ hx]; linarith [h.2, (by ring : (1 + 1 / 2 ^ 53) * x = x + x / 2 ^ 53)]
  have h2 : 1 - 1 / 2 ^ 53 ≤ y / x := by
    rw [le_div_iff₀ hx]; linarith [h.1, (by ring : (1 - 1 / 2 ^ 53) * x = x - x / 2 ^ 53)]
  have a1 := Real.log_le_sub_one_of_pos hz
  have a2 := Real.one_sub_inv_le_log_of_pos hz
  rw [abs_le]
  constructor
  · have : (y / x)⁻¹ ≤ 1 + 1 / 2 ^ 52 := by
      rw [inv_le_comm₀ hz (by norm_num)]
      refine le_trans ?_ h2
      norm_num
    linarith
  · have : (1 : ℝ) / 2 ^ 53 ≤ 1 / 2 ^ 52 := by norm_num
    linarith

theorem fround_real (q : ℚ) : |((fround q : ℚ) : ℝ) - (q : ℝ)| ≤ |(q : ℝ)| / 2 ^ 53 := by
  have := fround_spec q
  exact_mod_cast this

/-- The number whose ceiling is taken is the exact quotient of logarithms, up to `2 ^ -44`. -/
theorem quotient_near {log : ℚ → ℚ} (hL : Spec.GoodLog log) {x : ℚ} {b : Nat} (h1 : 1 ≤ x)
    (h2 : x ≤ 10 ^ 9) (hb : 2 ≤ b) (hb' : b ≤ 10 ^ 9) :
    |((fround (log (fround x) / log b) : ℚ) : ℝ) - Real.log x / Real.log b| ≤ 1 / 2 ^ 44 := by
  have hx0 : (0 : ℝ) < x := by
    have : (0 : ℚ) < x := by linarith
    exact_mod_cast this
  have hx1 : (1 : ℝ) ≤ x := by exact_mod_cast h1
  have hx2 : (x : ℝ) ≤ 10 ^ 9 := by exact_mod_cast h2
  have hb0 : (0 : ℝ) < b := by exact_mod_cast (by omega : 0 < b)
  have hb2 : (b : ℝ) ≤ 10 ^ 9 := by exact_mod_cast hb'
  have l1 : 0 ≤ Real.log x := Real.log_nonneg hx1
  have l2 := log_billion hx0 hx2
  have b1 := log_two_le hb
  have b2 := log_billion hb0 hb2
  have hr := fround_real x
  rw [abs_of_pos hx0] at hr
  obtain ⟨hy, hlog⟩ := log_near hx0 hr
  have hy' : (0 : ℚ) < fround x := by exact_mod_cast hy
  obtain ⟨_, hA⟩ := hL (fround x) hy'
  obtain ⟨_, hB⟩ := hL (b : ℚ) (by exact_mod_cast (by omega : 0 < b))
  rw [Rat.cast_natCast] at hB
  set A : ℝ := ((log (fround x) : ℚ) : ℝ) with hAd
  set B : ℝ := ((log (b : ℚ) : ℚ) : ℝ) with hBd
  set l1' := Real.log ((fround x : ℚ) : ℝ)
  set l := Real.log (x : ℝ)
  set β := Real.log (b : ℝ)
  rw [abs_of_pos (by linarith : (0 : ℝ) < β)] at hB
  have hl1 : |l1'| ≤ 22 := by
    rw [abs_le] at hlog ⊢
    constructor <;> norm_num at hlog <;> linarith [hlog.1, hlog.2]
  have hAl : |A - l| ≤ 46 / 2 ^ 53 := by
    have : |A - l| ≤ |A - l1'| + |l1' - l| := abs_sub_le _ _ _
    have h3 : |l1'| / 2 ^ 52 ≤ 22 / 2 ^ 52 := by gcongr
    have h4 : (22 : ℝ) / 2 ^ 52 + 1 / 2 ^ 52 = 46 / 2 ^ 53 := by norm_num
    linarith
  have hBl : |B - β| ≤ 42 / 2 ^ 53 := by
    have h3 : β / 2 ^ 52 ≤ 21 / 2 ^ 52 := by gcongr
    have h4 : (21 : ℝ) / 2 ^ 52 = 42 / 2 ^ 53 := by norm_num
    linarith
  have hBpos : (68 : ℝ) / 100 ≤ B := by
    have := (abs_le.1 hBl).1
    have : (42 : ℝ) / 2 ^ 53 ≤ 1 / 100 := by norm_num
    linarith
  have hBp : 0 < B := by linarith
  have hβp : 0 < β := by linarith
  have hq : |A / B - l / β| ≤ 150 / 2 ^ 53 := by
    have e : A / B - l / β = ((A - l) - (l / β) * (B - β)) / B := by
      field_simp
      ring
    have hlβ : 0 ≤ l / β := div_nonneg l1 hβp.le
    have hs : l / β * |B - β| ≤ l / 2 ^ 52 := by
      calc l / β * |B - β| ≤ l / β * (β / 2 ^ 52) := by gcongr
        _ = l / 2 ^ 52 := by field_simp
    rw [e, abs_div, abs_of_pos hBp, div_le_iff₀ hBp]
    have h3 : |(A - l) - (l / β) * (B - β)| ≤ |A - l| + l / β * |B - β| := by
      refine (abs_sub _ _).trans ?_
      rw [abs_mul, abs_of_nonneg hlβ]
    have h4 : l / 2 ^ 52 ≤ 42 / 2 ^ 53 := by
      calc l / 2 ^ 52 ≤ 21 / 2 ^ 52 := by gcongr
        _ = 42 / 2 ^ 53 := by norm_num
    have h5 : (150 : ℝ) / 2 ^ 53 * B ≥ 150 / 2 ^ 53 * (68 / 100) := by gcongr
    have h6 : (46 : ℝ) / 2 ^ 53 + 42 / 2 ^ 53 ≤ 150 / 2 ^ 53 * (68 / 100) := by norm_num
    linarith
  have hq2 : |A / B| ≤ 32 := by
    have h3 : l / β ≤ 31 := by
      rw [div_le_iff₀ hβp]; linarith
    have h4 : 0 ≤ l / β := div_nonneg l1 hβp.le
    have h5 : (150 : ℝ) / 2 ^ 53 ≤ 1 := by norm_num
    rw [abs_le] at hq ⊢
    constructor <;> linarith [hq.1, hq.2]
  have hf := fround_real (log (fround x) / log b)
  push_cast at hf
  rw [← hAd, ← hBd] at hf
  have h7 : |A / B| / 2 ^ 53 ≤ 32 / 2 ^ 53 := by gcongr
  have h8 := abs_sub_le ((fround (log (fround x) / log b) : ℚ) : ℝ) (A / B) (l / β)
  have h9 : (32 : ℝ) / 2 ^ 53 + 150 / 2 ^ 53 ≤ 1 / 2 ^ 44 := by norm_num
  linarith

/-! ### The number of rungs -/

/-- The number of rungs against exact powers: not less than needed and not more than needed, up to a
fraction of `10 ^ -11`. -/
theorem maxRung_near {log : ℚ → ℚ} (hL : Spec.GoodLog log) {r R : ℚ} {b : Nat} (hr : 0 < r) (h1 : r ≤ R)
    (h2 : R ≤ 10 ^ 9 * r) (hb : 2 ≤ b) (hb' : b ≤ 10 ^ 9) :
    ∃ M : Nat, floatMaxRung log b r R = M ∧ (1 - 1 / (2 * 10 ^ 11)) * R ≤ r * (b : ℚ) ^ M ∧
      ∀ k, k < M → r * (b : ℚ) ^ k ≤ (1 + 1 / 10 ^ 11) * R := by
  have hx1 : 1 ≤ R / r := by rw [le_div_iff₀ hr]; linarith
  have hx2 : R / r ≤ 10 ^ 9 := by rw [div_le_iff₀ hr]; linarith
  have hq := quotient_near hL hx1 hx2 hb hb'
  have hb0 : (0 : ℝ) < b := by exact_mod_cast (by omega : 0 < b)
  have hb2 : (b : ℝ) ≤ 10 ^ 9 := by exact_mod_cast hb'
  have β1 := log_two_le hb
  have β2 := log_billion hb0 hb2
  have hx0 : (0 : ℝ) < ((R / r : ℚ) : ℝ) := by
    have : (0 : ℚ) < R / r := by linarith
    exact_mod_cast this
  have l1 : 0 ≤ Real.log ((R / r : ℚ) : ℝ) := Real.log_nonneg (by exact_mod_cast hx1)
  have hβ : 0 < Real.log (b : ℝ) := by linarith
  unfold floatMaxRung
  generalize fround (log (fround (R / r)) / log b) = q at hq
  rw [abs_le] at hq
  have hq0 : -1 < (q : ℝ) := by
    have h0 : 0 ≤ Real.log ((R / r : ℚ) : ℝ) / Real.log (b : ℝ) := div_nonneg l1 hβ.le
    have h3 : (1 : ℝ) / 2 ^ 44 < 1 := by norm_num
    linarith [hq.1]
  have hq0' : -1 < q := by exact_mod_cast hq0
  have hc : 0 ≤ ⌈q⌉ := by
    have : (-1 : ℤ) < ⌈q⌉ := by rw [Int.lt_ceil]; push_cast; exact hq0'
    omega
  obtain ⟨M, hM⟩ := Int.eq_ofNat_of_zero_le hc
  refine ⟨M, hM, ?_, ?_⟩
  · have hle : (q : ℝ) ≤ M := by
      have : q ≤ (M : ℚ) := by
        have := Int.le_ceil q
        rw [hM] at this
        exact_mod_cast this
      exact_mod_cast this
    have h3 : Real.log ((R / r : ℚ) : ℝ) - 21 / 2 ^ 44 ≤ M * Real.log (b : ℝ) := by
      have h4 : Real.log ((R / r : ℚ) : ℝ) / Real.log (b : ℝ) ≤ M + 1 / 2 ^ 44 := by linarith [hq.1]
      rw [div_le_iff₀ hβ] at h4
      have h5 : 1 / 2 ^ 44 * Real.log (b : ℝ) ≤ 21 / 2 ^ 44 := by
        have : 1 / 2 ^ 44 * Real.log (b : ℝ) ≤ 1 / 2 ^ 44 * 21 := by gcongr
        linarith
      linarith
    have h6 : ((R / r : ℚ) : ℝ) * (1 - 21 / 2 ^ 44) ≤ (b : ℝ) ^ M := by
      have e1 : Real.exp (Real.log ((R / r : ℚ) : ℝ) - 21 / 2 ^ 44) ≤ Real.exp (M * Real.log (b : ℝ)) :=
        Real.exp_le_exp.2 h3
      rw [mul_comm (M : ℝ), Real.exp_mul, Real.exp_log hb0, Real.rpow_natCast, sub_eq_add_neg,
        Real.exp_add, Real.exp_log hx0] at e1
      refine le_trans ?_ e1
      gcongr
      have := Real.add_one_le_exp (-(21 / 2 ^ 44) : ℝ)
      linarith
    have h7 : R / r * (1 - 21 / 2 ^ 44) ≤ (b : ℚ) ^ M := by
      have : (((R / r * (1 - 21 / 2 ^ 44) : ℚ)) : ℝ) ≤ (((b : ℚ) ^ M : ℚ) : ℝ) := by push_cast at h6 ⊢; exact h6
      exact Rat.cast_le.1 this
    have h8 : r * (R / r * (1 - 21 / 2 ^ 44)) ≤ r * (b : ℚ) ^ M := by gcongr
    have h9 : r * (R / r * (1 - 21 / 2 ^ 44)) = R * (1 - 21 / 2 ^ 44) := by
      field_simp
    have h10 : R * (1 - 1 / (2 * 10 ^ 11)) ≤ R * (1 - 21 / 2 ^ 44) := by
      have : (0 : ℚ) ≤ R := by linarith
      refine mul_le_mul_of_nonneg_left ?_ this
      norm_num
    linarith
  · intro k hk
    have hlt : (k : ℝ) < q := by
      have h3 : (k : ℚ) < q := by
        have : ((k : ℤ)) < ⌈q⌉ := by omega
        rw [Int.lt_ceil] at this
        exact_mod_cast this
      exact_mod_cast h3
    have h3 : k * Real.log (b : ℝ) ≤ Real.log ((R / r : ℚ) : ℝ) + 21 / 2 ^ 44 := by
      have h4 : (k : ℝ) - 1 / 2 ^ 44 ≤ Real.log ((R / r : ℚ) : ℝ) / Real.log (b : ℝ) := by linarith [hq.2]
      rw [le_div_iff₀ hβ] at h4
      have h5 : 1 / 2 ^ 44 * Real.log (b : ℝ) ≤ 21 / 2 ^ 44 := by
        have : 1 / 2 ^ 44 * Real.log (b : ℝ) ≤ 1 / 2 ^ 44 * 21 := by gcongr
        linarith
      linarith
    have h6 : (b : ℝ) ^ k * (1 - 21 / 2 ^ 44) ≤ ((R / r : ℚ) : ℝ) := by
      have e1 : Real.exp (k * Real.log (b : ℝ) - 21 / 2 ^ 44) ≤ Real.exp (Real.log ((R / r : ℚ) : ℝ)) :=
        Real.exp_le_exp.2 (by linarith)
      rw [mul_comm (k : ℝ), sub_eq_add_neg, Real.exp_add, Real.exp_mul, Real.exp_log hb0,
        Real.rpow_natCast, Real.exp_log hx0] at e1
      refine le_trans ?_ e1
      gcongr
      have := Real.add_one_le_exp (-(21 / 2 ^ 44) : ℝ)
      linarith
    have h7 : (b : ℚ) ^ k * (1 - 21 / 2 ^ 44) ≤ R / r := by
      have : ((((b : ℚ) ^ k * (1 - 21 / 2 ^ 44) : ℚ)) : ℝ) ≤ ((R / r : ℚ) : ℝ) := by push_cast at h6 ⊢; exact h6
      exact Rat.cast_le.1 this
    rw [le_div_iff₀ hr] at h7
    have hR : 0 < R := by linarith
    have h8 : r * (b : ℚ) ^ k ≤ R / (1 - 21 / 2 ^ 44) := by
      rw [le_div_iff₀ (by norm_num)]
      linarith
    refine h8.trans ?_
    rw [div_le_iff₀ (by norm_num)]
    nlinarith

/-- The rungs and their resources, from the number of rungs. -/
theorem floatResources_keys (rf rate M : Nat) (r R : Resource) :
    (floatResources rf r R (rungRange rate M)).map Prod.fst = (List.range (M + 1)).filter (fun k => rate ≤ k) := by
  unfold floatResources rungRange
  rw [List.map_map]
  have : ((M : Int) + 1).toNat = M + 1 := by omega
  rw [this]
  simp [Function.comp_def]

theorem floatResources_top {rf rate M : Nat} {r R : Resource} (h : rate ≤ M) :
    ∃ l, floatResources rf r R (rungRange rate M) = l ++ [(M, min (scaled rf r M) R.val)] := by
  refine ⟨floatResources rf r R ((List.range M).filter fun k => rate ≤ k), ?_⟩
  unfold floatResources rungRange
  have : ((M : Int) + 1).toNat = M + 1 := by omega
  rw [this, List.range_succ, List.filter_append, List.map_append]
  simp [h]

theorem mem_floatResources {rf : Nat} {r R : Resource} {ls : List Nat} {k : Nat} {q : ℚ}
    (h : (k, q) ∈ floatResources rf r R ls) : q = min (scaled rf r k) R.val := by
  unfold floatResources at h
  obtain ⟨k', _, e⟩ := List.mem_map.1 h
  obtain ⟨rfl, rfl⟩ := Prod.mk.inj e
  rfl

/-- **C40** in double precision, for resources that are numbers of rows, up to a billion of them: rung
`k` gets `minimum * factor ^ k` rows, or the maximum if that is less, and the top rung gets the maximum.
There is no rung more than that takes, unless the maximum is the minimum times a power of the factor, in
which case the last two rungs may both get the maximum. -/
theorem C40_rows_partial {log : ℚ → ℚ} (hL : Spec.GoodLog log) (rf rate r R : Nat) (hrf : 2 ≤ rf)
    (hrf' : rf ≤ 10 ^ 9) (hr : 0 < r) (hR : r ≤ R) (hR' : R ≤ 10 ^ 9) :
    ∃ (M : Nat) (res : List (Nat × ℚ)), floatSetup log rf rate (.rows r) (.rows R) = ((M : Int), res) ∧
      res.map Prod.fst = (List.range (M + 1)).filter (fun k => rate ≤ k) ∧
      (∀ k q, (k, q) ∈ res → q = min ((r * rf ^ k : Nat) : ℚ) R) ∧
      (rate ≤ M → ∃ l, res = l ++ [(M, (R : ℚ))]) ∧
      ∀ k, k < M → r * rf ^ k ≤ R := by
  have hr' : (0 : ℚ) < r := by exact_mod_cast hr
  have hr1 : (1 : ℚ) ≤ r := by exact_mod_cast hr
  have hRq : (R : ℚ) ≤ 10 ^ 9 := by exact_mod_cast hR'
  obtain ⟨M, hM, h1, h2⟩ := maxRung_near hL (r := r) (R := R) (b := rf) hr' (by exact_mod_cast hR)
    (by linarith) hrf hrf'
  have hR0 : (0 : ℚ) < R := by exact_mod_cast (by omega : 0 < R)
  have htop : R ≤ r * rf ^ M := by
    by_contra hc
    have h3 : r * rf ^ M + 1 ≤ R := by omega
    have h3' : (r : ℚ) * (rf : ℚ) ^ M + 1 ≤ R := by exact_mod_cast h3
    nlinarith
  refine ⟨M, _, by unfold floatSetup; rw [show (Resource.rows r).val = (r : ℚ) from rfl,
    show (Resource.rows R).val = (R : ℚ) from rfl, hM], floatResources_keys _ _ _ _ _, ?_, ?_, ?_⟩
  · intro k q hq
    rw [mem_floatResources hq]
    push_cast
    rfl
  · intro hle
    obtain ⟨l, hl⟩ := floatResources_top (rf := rf) (r := .rows r) (R := .rows R) hle
    refine ⟨l, ?_⟩
    rw [hl]
    congr
    refine min_eq_right ?_
    show (R : ℚ) ≤ r * (rf : ℚ) ^ M
    exact_mod_cast htop
  · intro k hk
    by_contra hc
    have h3 : R + 1 ≤ r * rf ^ k := by omega
    have h3' : (R : ℚ) + 1 ≤ r * (rf : ℚ) ^ k := by exact_mod_cast h3
    have := h2 k hk
    nlinarith

/-- **C40** in double precision, for resources that are fractions, at least a billionth of the maximum:
no rung gets more than the maximum; rung `k` gets `minimum * factor ^ k`, or the maximum if that is less,
up to rounding; the top rung gets the maximum up to a fraction of `10 ^ -11`; and no rung below it would
get more than that above the maximum. -/
theorem C40_fractions_partial {log : ℚ → ℚ} (hL : Spec.GoodLog log) (rf rate : Nat) (r R : ℚ) (hrf : 2 ≤ rf)
    (hrf' : rf ≤ 10 ^ 9) (hr : 0 < r) (hR : r ≤ R) (hR' : R ≤ 10 ^ 9 * r) :
    ∃ (M : Nat) (res : List (Nat × ℚ)), floatSetup log rf rate (.fraction r) (.fraction R) = ((M : Int), res) ∧
      res.map Prod.fst = (List.range (M + 1)).filter (fun k => rate ≤ k) ∧
      (∀ k q, (k, q) ∈ res → q ≤ R ∧ |q - min (r * (rf : ℚ) ^ k) R| ≤ r * (rf : ℚ) ^ k / 2 ^ 51) ∧
      (rate ≤ M → ∃ l q, res = l ++ [(M, q)] ∧ (1 - 1 / 10 ^ 11) * R ≤ q ∧ q ≤ R) ∧
      ∀ k, k < M → r * (rf : ℚ) ^ k ≤ (1 + 1 / 10 ^ 11) * R := by
  obtain ⟨M, hM, h1, h2⟩ := maxRung_near hL hr hR hR' hrf hrf'
  have hR0 : 0 < R := by linarith
  have hsc : ∀ k, |scaled rf (.fraction r) k - r * (rf : ℚ) ^ k| ≤ r * (rf : ℚ) ^ k / 2 ^ 51 := by
    intro k
    have hb : (0 : ℚ) < (rf : ℚ) ^ k := by
      have : (0 : ℚ) < rf := by exact_mod_cast (by omega : 0 < rf)
      positivity
    show |fround (r * fround ((rf : ℚ) ^ k)) - r * (rf : ℚ) ^ k| ≤ _
    have f1 := fround_spec ((rf : ℚ) ^ k)
    have f2 := fround_spec (r * fround ((rf : ℚ) ^ k))
    generalize fround ((rf : ℚ) ^ k) = y at f1 f2 ⊢
    generalize fround (r * y) = z at f2 ⊢
    rw [abs_of_pos hb] at f1
    rw [abs_mul, abs_of_pos hr] at f2
    have hy : |y| ≤ 2 * (rf : ℚ) ^ k := by
      have e : (rf : ℚ) ^ k / 2 ^ 53 ≤ (rf : ℚ) ^ k := div_le_self hb.le (by norm_num)
      rw [abs_le] at f1 ⊢
      constructor <;> linarith [f1.1, f1.2]
    have e1 : |z - r * (rf : ℚ) ^ k| ≤ |z - r * y| + |r * y - r * (rf : ℚ) ^ k| := abs_sub_le _ _ _
    have e2 : |r * y - r * (rf : ℚ) ^ k| ≤ r * ((rf : ℚ) ^ k / 2 ^ 53) := by
      rw [← mul_sub, abs_mul, abs_of_pos hr]
      gcongr
    have e3 : r * |y| / 2 ^ 53 ≤ r * (2 * (rf : ℚ) ^ k) / 2 ^ 53 := by gcongr
    have e4 : r * (2 * (rf : ℚ) ^ k) / 2 ^ 53 + r * ((rf : ℚ) ^ k / 2 ^ 53) ≤ r * (rf : ℚ) ^ k / 2 ^ 51 := by
      have : 0 < r * (rf : ℚ) ^ k := by positivity
      have e5 : r * (2 * (rf : ℚ) ^ k) / 2 ^ 53 + r * ((rf : ℚ) ^ k / 2 ^ 53) = 3 * (r * (rf : ℚ) ^ k) / 2 ^ 53 := by
        ring
      rw [e5, div_le_div_iff₀ (by norm_num) (by norm_num)]
      nlinarith
    linarith
  refine ⟨M, _, by unfold floatSetup; rw [show (Resource.fraction r).val = r from rfl,
    show (Resource.fraction R).val = R from rfl, hM], floatResources_keys _ _ _ _ _, ?_, ?_, h2⟩
  · intro k q hq
    rw [mem_floatResources hq]
    refine ⟨min_le_right _ _, ?_⟩
    refine (abs_min_sub_min_le_max _ _ _ _).trans ?_
    show max |scaled rf (.fraction r) k - r * (rf : ℚ) ^ k| |R - R| ≤ _
    rw [sub_self, abs_zero]
    exact max_le (hsc k) ((abs_nonneg _).trans (hsc k))
  · intro hle
    obtain ⟨l, hl⟩ := floatResources_top (rf := rf) (r := .fraction r) (R := .fraction R) hle
    refine ⟨l, _, hl, le_min ?_ ?_, min_le_right _ _⟩
    · have h3 := (abs_le.1 (hsc M)).1
      have h4 : (1 - 1 / 2 ^ 51) * ((1 - 1 / (2 * 10 ^ 11)) * R) ≤ (1 - 1 / 2 ^ 51) * (r * (rf : ℚ) ^ M) := by
        gcongr
      have h5 : (1 - 1 / 10 ^ 11) * R ≤ (1 - 1 / 2 ^ 51) * ((1 - 1 / (2 * 10 ^ 11)) * R) := by
        rw [← mul_assoc]
        refine mul_le_mul_of_nonneg_right ?_ hR0.le
        norm_num
      have h6 : (1 - 1 / 2 ^ 51) * (r * (rf : ℚ) ^ M) = r * (rf : ℚ) ^ M - r * (rf : ℚ) ^ M / 2 ^ 51 := by
        ring
      linarith
    · show (1 - 1 / 10 ^ 11) * R ≤ R
      have : (0 : ℚ) ≤ 1 / 10 ^ 11 * R := by positivity
      linarith


/-! ### A maximum that is missed, and a rung too many -/

theorem double_near (y : ℝ) : ∃ q : ℚ, Spec.IsDouble q ∧ |((q : ℚ) : ℝ) - y| ≤ |y| / 2 ^ 52 := by
  by_cases hy : y = 0
  · exact ⟨fround 0, fround_double 0, by subst hy; simp [fround]⟩
  · have h0 : 0 < |y| := abs_pos.2 hy
    obtain ⟨p, h1, h2⟩ := exists_rat_btwn (show y < y + |y| / 2 ^ 54 by
      have : 0 < |y| / 2 ^ 54 := by positivity
      linarith)
    refine ⟨fround p, fround_double p, ?_⟩
    have h3 : |(p : ℝ) - y| ≤ |y| / 2 ^ 54 := by rw [abs_le]; constructor <;> linarith [show 0 < |y| / 2 ^ 54 by positivity]
    have h4 : |(p : ℝ)| ≤ 3 / 2 * |y| := by
      have e : |(p : ℝ)| ≤ |(p : ℝ) - y| + |y| := by
        have := abs_add_le ((p : ℝ) - y) y
        simpa using this
      have e2 : |y| / 2 ^ 54 ≤ 1 / 2 * |y| := by
        rw [div_le_iff₀ (by positivity)]
        nlinarith
      linarith
    have h5 := fround_real p
    have h6 : |(p : ℝ)| / 2 ^ 53 ≤ 3 / 2 * |y| / 2 ^ 53 := by gcongr
    have h7 : 3 / 2 * |y| / 2 ^ 53 + |y| / 2 ^ 54 = |y| / 2 ^ 52 := by ring
    have h8 := abs_sub_le ((fround p : ℚ) : ℝ) (p : ℝ) y
    linarith

/-- There is a logarithm with given values, if those are good. -/
theorem goodLog_with (f : ℚ → Option ℚ) (hf : ∀ x q, f x = some q → Spec.IsDouble q ∧
    |((q : ℚ) : ℝ) - Real.log x| ≤ |Real.log x| / 2 ^ 52) :
    ∃ log, Spec.GoodLog log ∧ ∀ x q, f x = some q → log x = q := by
  choose g hg using fun x : ℚ => double_near (Real.log x)
  refine ⟨fun x => (f x).getD (g x), fun x _ => ?_, fun x q h => by simp [h]⟩
  dsimp only
  cases h : f x with
  | none => exact hg x
  | some q => exact hf x q h

/-- The beginning of the series of `- ln (1 - x)`. -/
def logSum (x : ℚ) : Nat → ℚ
  | 0 => 0
  | n + 1 => logSum x n + x ^ (n + 1) / ((n : ℚ) + 1)

theorem logSum_eq (x : ℚ) (n : Nat) :
    (∑ i ∈ Finset.range n, (x : ℝ) ^ (i + 1) / ((i : ℝ) + 1)) = ((logSum x n : ℚ) : ℝ) := by
  induction n with
  | zero => simp [logSum]
  | succ n ih =>
    rw [Finset.sum_range_succ, ih, logSum]
    push_cast
    ring

theorem logSum_near {x : ℚ} (h0 : 0 < x) (h1 : x < 1) (n : Nat) {d e : ℚ}
    (h : |d - logSum x n| + x ^ (n + 1) / (1 - x) ≤ e) : |(d : ℝ) + Real.log (1 - (x : ℝ))| ≤ e := by
  have hx0 : (0 : ℝ) < x := by exact_mod_cast h0
  have hx : |(x : ℝ)| < 1 := by rw [abs_of_pos hx0]; exact_mod_cast h1
  have hs := Real.abs_log_sub_add_sum_range_le hx n
  rw [logSum_eq, abs_of_pos hx0] at hs
  have h' : |(d : ℝ) - ((logSum x n : ℚ) : ℝ)| + (x : ℝ) ^ (n + 1) / (1 - (x : ℝ)) ≤ e := by
    exact_mod_cast h
  have h2 := abs_add_le ((d : ℝ) - ((logSum x n : ℚ) : ℝ)) (((logSum x n : ℚ) : ℝ) + Real.log (1 - (x : ℝ)))
  have h3 : (d : ℝ) - ((logSum x n : ℚ) : ℝ) + (((logSum x n : ℚ) : ℝ) + Real.log (1 - (x : ℝ))) =
      (d : ℝ) + Real.log (1 - (x : ℝ)) := by ring
  rw [h3] at h2
  linarith

/-- A good value for the logarithm of three. -/
theorem log_three : |((4947709893870347 / 2 ^ 52 : ℚ) : ℝ) - Real.log 3| ≤ 1 / 2 ^ 53 := by
  have h := logSum_near (x := 2 / 3) (by norm_num) (by norm_num) 110 (d := 4947709893870347 / 2 ^ 52)
    (e := 1 / 2 ^ 53) (by decide +kernel)
  have e : Real.log (1 - ((2 / 3 : ℚ) : ℝ)) = - Real.log 3 := by
    rw [← Real.log_inv]; norm_num
  rw [e] at h
  have e2 : (((1 / 2 ^ 53 : ℚ)) : ℝ) = 1 / 2 ^ 53 := by push_cast; rfl
  rw [e2] at h
  rwa [sub_eq_add_neg]

/-- A good value for the logarithm of five. -/
theorem log_five : |((7248263982714163 / 2 ^ 52 : ℚ) : ℝ) - Real.log 5| ≤ 1 / 2 ^ 53 := by
  have h := logSum_near (x := 4 / 5) (by norm_num) (by norm_num) 220 (d := 7248263982714163 / 2 ^ 52)
    (e := 1 / 2 ^ 53) (by decide +kernel)
  have e : Real.log (1 - ((4 / 5 : ℚ) : ℝ)) = - Real.log 5 := by
    rw [← Real.log_inv]; norm_num
  rw [e] at h
  have e2 : (((1 / 2 ^ 53 : ℚ)) : ℝ) = 1 / 2 ^ 53 := by push_cast; rfl
  rw [e2] at h
  rwa [sub_eq_add_neg]

/-- The values of a C library at 3, 729, 5 and 125. -/
def someLogs (x : ℚ) : Option ℚ :=
  if x = 3 then some (4947709893870347 / 2 ^ 52)
  else if x = 729 then some (463847802550345 / 2 ^ 46)
  else if x = 5 then some (7248263982714163 / 2 ^ 52)
  else if x = 125 then some (5436197987035623 / 2 ^ 50)
  else none

theorem someLogs_good (x q : ℚ) (h : someLogs x = some q) :
    Spec.IsDouble q ∧ |((q : ℚ) : ℝ) - Real.log x| ≤ |Real.log x| / 2 ^ 52 := by
  have h3 := log_three
  have h5 := log_five
  have b3 : 1 ≤ Real.log 3 := by
    have := (abs_le.1 h3).2
    push_cast at this
    norm_num at this
    linarith
  have b5 : 3 / 2 ≤ Real.log 5 := by
    have := (abs_le.1 h5).2
    push_cast at this
    norm_num at this
    linarith
  unfold someLogs at h
  split at h
  · obtain rfl := Option.some.inj h
    subst x
    refine ⟨⟨4947709893870347, -52, by decide, by norm_num⟩, ?_⟩
    rw [show ((3 : ℚ) : ℝ) = 3 by norm_num, abs_of_pos (by linarith : 0 < Real.log 3)]
    refine h3.trans ?_
    rw [div_le_div_iff₀ (by norm_num) (by norm_num)]
    nlinarith
  split at h
  · obtain rfl := Option.some.inj h
    subst x
    refine ⟨⟨463847802550345, -46, by decide, by norm_num⟩, ?_⟩
    have e : Real.log ((729 : ℚ) : ℝ) = 6 * Real.log 3 := by
      rw [show ((729 : ℚ) : ℝ) = 3 ^ 6 by norm_num, Real.log_pow]; norm_num
    rw [e, abs_of_pos (by linarith : 0 < 6 * Real.log 3)]
    rw [abs_le] at h3 ⊢
    push_cast at h3 ⊢
    constructor <;> norm_num at h3 ⊢ <;> linarith [h3.1, h3.2]
  split at h
  · obtain rfl := Option.some.inj h
    subst x
    refine ⟨⟨7248263982714163, -52, by decide, by norm_num⟩, ?_⟩
    rw [show ((5 : ℚ) : ℝ) = 5 by norm_num, abs_of_pos (by linarith : 0 < Real.log 5)]
    refine h5.trans ?_
    rw [div_le_div_iff₀ (by norm_num) (by norm_num)]
    nlinarith
  split at h
  · obtain rfl := Option.some.inj h
    subst x
    refine ⟨⟨5436197987035623, -50, by decide, by norm_num⟩, ?_⟩
    have e : Real.log ((125 : ℚ) : ℝ) = 3 * Real.log 5 := by
      rw [show ((125 : ℚ) : ℝ) = 5 ^ 3 by norm_num, Real.log_pow]; norm_num
    rw [e, abs_of_pos (by linarith : 0 < 3 * Real.log 5)]
    rw [abs_le] at h5 ⊢
    push_cast at h5 ⊢
    constructor <;> norm_num at h5 ⊢ <;> linarith [h5.1, h5.2]
  · cases h

/-- A logarithm with the values of a C library at 3, 729, 5 and 125. -/
theorem goodLog_exists : ∃ log, Spec.GoodLog log ∧ log 3 = 4947709893870347 / 2 ^ 52 ∧
    log 729 = 463847802550345 / 2 ^ 46 ∧ log 5 = 7248263982714163 / 2 ^ 52 ∧
    log 125 = 5436197987035623 / 2 ^ 50 := by
  obtain ⟨log, h1, h2⟩ := goodLog_with someLogs someLogs_good
  exact ⟨log, h1, h2 _ _ rfl, h2 _ _ (by decide +kernel), h2 _ _ (by decide +kernel), h2 _ _ (by decide +kernel)⟩

/-- The claim in full, for fractions: with any good logarithm the top rung gets the maximum. -/
def C40_claim : Prop :=
  ∀ log : ℚ → ℚ, Spec.GoodLog log → ∀ (rf : Nat) (r R : ℚ), 2 ≤ rf → Spec.IsDouble r → Spec.IsDouble R →
    0 < r → r ≤ R → R ≤ 1 → ∃ (M : Nat) (l : List (Nat × ℚ)),
      floatSetup log rf 0 (.fraction r) (.fraction R) = ((M : Int), l ++ [(M, R)])

theorem maxRung_729 {log : ℚ → ℚ} (l3 : log 3 = 4947709893870347 / 2 ^ 52)
    (l729 : log 729 = 463847802550345 / 2 ^ 46) : floatMaxRung log 3 (fround (1 / 729)) 1 = 6 := by
  unfold floatMaxRung
  rw [show fround (1 / fround (1 / 729)) = 729 by decide +kernel, l729, show ((3 : Nat) : ℚ) = 3 from rfl, l3]
  decide +kernel

/-- `C40_claim` is false: from 1/729 of the rows to all with a reduction factor of three, the top rung, the
sixth, gets the largest double below one. -/
theorem C40_false : ¬ C40_claim := by
  intro h
  obtain ⟨log, hL, l3, l729, _, _⟩ := goodLog_exists
  obtain ⟨M, l, e⟩ := h log hL 3 (fround (1 / 729)) 1 (by decide) (fround_double _)
    ⟨1, 0, by decide, by norm_num⟩ (by decide +kernel) (by decide +kernel) (by decide +kernel)
  unfold floatSetup at e
  dsimp only at e
  rw [show (Resource.fraction (fround (1 / 729))).val = fround (1 / 729) from rfl,
    show (Resource.fraction 1).val = 1 from rfl, maxRung_729 l3 l729] at e
  obtain ⟨hM, hl⟩ := Prod.mk.inj e
  have hM' : M = 6 := by omega
  subst hM'
  have : (6, (1 : ℚ)) ∈ floatResources 3 (.fraction (fround (1 / 729))) (.fraction 1) (rungRange 0 6) := by
    rw [hl]; simp
  have h2 := mem_floatResources this
  revert h2
  decide +kernel

/-- The effect: evaluations on the top rung, the full ones, are made on a sample of the rows. -/
theorem C40_top_sampled : ∃ log q l, Spec.GoodLog log ∧
    floatSetup log 3 0 (.fraction (fround (1 / 729))) (.fraction 1) = (6, l ++ [(6, q)]) ∧
    ∀ n, requireSubsample (rungSubsample (.fraction 1) q) n = true := by
  obtain ⟨log, hL, l3, l729, _, _⟩ := goodLog_exists
  obtain ⟨l, hl⟩ := floatResources_top (rf := 3) (rate := 0) (M := 6) (r := .fraction (fround (1 / 729)))
    (R := .fraction 1) (by decide)
  refine ⟨log, min (scaled 3 (.fraction (fround (1 / 729))) 6) (Resource.fraction 1).val, l, hL, ?_, ?_⟩
  · unfold floatSetup
    dsimp only
    rw [show (Resource.fraction (fround (1 / 729))).val = fround (1 / 729) from rfl,
      show (Resource.fraction 1).val = 1 from rfl, maxRung_729 l3 l729]
    exact Prod.ext rfl hl
  · intro n
    show decide (_ < (1 : ℚ)) = true
    decide +kernel

/-- There may be a rung too many: from one row to 125 with a reduction factor of five, the last two rungs
both get all rows. -/
theorem C40_extra_rung : ∃ log, Spec.GoodLog log ∧
    floatSetup log 5 0 (.rows 1) (.rows 125) = (4, [(0, 1), (1, 5), (2, 25), (3, 125), (4, 125)]) := by
  obtain ⟨log, hL, _, _, l5, l125⟩ := goodLog_exists
  refine ⟨log, hL, ?_⟩
  have hm : floatMaxRung log 5 1 125 = 4 := by
    unfold floatMaxRung
    rw [show fround (125 / 1) = 125 by decide +kernel, l125, show ((5 : Nat) : ℚ) = 5 from rfl, l5]
    decide +kernel
  unfold floatSetup
  dsimp only
  rw [show (Resource.rows 1).val = 1 from rfl, show (Resource.rows 125).val = 125 from rfl, hm]
  decide +kernel

/-- **C40** with the default hyperparameters: an eighth of the rows, three eighths and all. -/
theorem C40_default {log : ℚ → ℚ} (hL : Spec.GoodLog log) :
    floatSetup log 3 0 (.fraction (1 / 8)) (.fraction 1) = (2, [(0, 1 / 8), (1, 3 / 8), (2, 1)]) := by
  obtain ⟨M, res, h1, _, h3, h4, h5⟩ := C40_fractions_partial hL 3 0 (1 / 8) 1 (by decide) (by decide)
    (by norm_num) (by norm_num) (by norm_num)
  obtain ⟨l, q, hl, h6, h7⟩ := h4 (Nat.zero_le _)
  have hM : M ≤ 2 := by
    by_contra hc
    have := h5 2 (by omega)
    norm_num at this
  have hq := (h3 M q (by rw [hl]; simp)).2
  have hM' : M = 2 := by
    have hc : M = 0 ∨ M = 1 ∨ M = 2 := by omega
    rcases hc with rfl | rfl | rfl
    · rw [abs_le] at hq
      norm_num at hq h6
      linarith [hq.2]
    · rw [abs_le] at hq
      norm_num at hq h6
      linarith [hq.2]
    · rfl
  subst hM'
  obtain ⟨h8, h9⟩ := Prod.mk.inj h1
  unfold floatSetup
  dsimp only
  rw [h8]
  decide +kernel

/-! ### Examples -/

/-- `C40_rows_partial`: from 100 rows to 10000 with a reduction factor of three, the top rung is the fifth. -/
example : ∃ log l, Spec.GoodLog log ∧ floatSetup log 3 0 (.rows 100) (.rows 10000) = (5, l ++ [(5, 10000)]) := by
  obtain ⟨log, hL, _⟩ := goodLog_exists
  obtain ⟨M, res, h1, _, h3, h4, h5⟩ := C40_rows_partial hL 3 0 100 10000 (by decide) (by decide) (by decide)
    (by decide) (by decide)
  obtain ⟨l, hl⟩ := h4 (Nat.zero_le _)
  have hM : M ≤ 5 := by
    by_contra hc
    have := h5 5 (by omega)
    omega
  have hq := h3 M 10000 (by rw [hl]; simp)
  have hM' : M = 5 := by
    have hc : M = 0 ∨ M = 1 ∨ M = 2 ∨ M = 3 ∨ M = 4 ∨ M = 5 := by omega
    rcases hc with rfl | rfl | rfl | rfl | rfl | rfl
    iterate 5 (exfalso; revert hq; decide +kernel)
    rfl
  subst hM'
  rw [hl] at h1
  exact ⟨log, l, hL, h1⟩

/-- `C40_fractions_partial`: from a thousandth of the rows to all, by tens: the top rung is the third or the
fourth, and gets nearly all rows. -/
example : ∃ log M l q, Spec.GoodLog log ∧ (M = 3 ∨ M = 4) ∧ floatSetup log 10 0 (.fraction (fround (1 / 1000)))
    (.fraction 1) = (((M : Nat) : Int), l ++ [(M, q)]) ∧ (99999999999 / 100000000000 : ℚ) ≤ q := by
  obtain ⟨log, hL, _⟩ := goodLog_exists
  obtain ⟨M, res, h1, _, h3, h4, h5⟩ := C40_fractions_partial hL 10 0 (fround (1 / 1000)) 1 (by decide) (by decide)
    (by decide +kernel) (by decide +kernel) (by decide +kernel)
  obtain ⟨l, q, hl, h6, h7⟩ := h4 (Nat.zero_le _)
  have hM : M ≤ 4 := by
    by_contra hc
    have := h5 4 (by omega)
    revert this
    decide +kernel
  have hq := (h3 M q (by rw [hl]; simp)).2
  refine ⟨log, M, l, q, hL, ?_, by rw [h1, hl], by norm_num at h6 ⊢; linarith⟩
  have hc : M = 0 ∨ M = 1 ∨ M = 2 ∨ M = 3 ∨ M = 4 := by omega
  rw [abs_le] at hq
  rcases hc with rfl | rfl | rfl | rfl | rfl
  iterate 3
    exfalso
    have e : min (fround (1 / 1000) * (10 : ℚ) ^ 2) 1 + fround (1 / 1000) * (10 : ℚ) ^ 2 / 2 ^ 51 < 1 / 2 := by
      decide +kernel
    have e1 : min (fround (1 / 1000) * (10 : ℚ) ^ 1) 1 + fround (1 / 1000) * (10 : ℚ) ^ 1 / 2 ^ 51 < 1 / 2 := by
      decide +kernel
    have e0 : min (fround (1 / 1000) * (10 : ℚ) ^ 0) 1 + fround (1 / 1000) * (10 : ℚ) ^ 0 / 2 ^ 51 < 1 / 2 := by
      decide +kernel
    have h2 := hq.2
    rw [show (((10 : Nat) : ℚ)) = 10 from rfl] at h2
    norm_num at h6
    linarith
  · exact .inl rfl
  · exact .inr rfl

/-- `C40_default`: there is such a logarithm. -/
example : ∃ log, floatSetup log 3 0 (.fraction (1 / 8)) (.fraction 1) = (2, [(0, 1 / 8), (1, 3 / 8), (2, 1)]) :=
  goodLog_exists.imp fun _ h => C40_default h.1

end Gama
