import Verif.Bessel.Approx
import Verif.Functions.Pnebi
import Verif.Functions.Spec

/-! Property theorem C111 (see properties.jsonl). -/
namespace Verif.Bessel
open Functions

theorem fabs_abs (x : ℝ) : fabs x = |x| := by
  unfold fabs
  split
  · rename_i h; rw [abs_of_neg h]
  · rename_i h; rw [abs_of_nonneg (not_lt.1 h)]

/-- Full statement of C111: the relative error of the order 0 is at most 5e-7 for every argument. -/
def C111_statement : Prop := ∀ x : ℝ, |evaluatePnebi0Polynom Spec.real x - pnebi 0 (|x|)| ≤ 5 / 10000000 * pnebi 0 |x|

theorem poly_small (x : ℝ) (h : |x| < 15 / 4) : evaluatePnebi0Polynom Spec.real x = 2 * Real.exp (-|x|) * small ((|x| / (15 / 4)) ^ 2) := by
  unfold evaluatePnebi0Polynom
  rw [fabs_abs]
  dsimp only
  have e : (375 : ℝ) / 100 = 15 / 4 := by norm_num
  rw [e, if_pos ((div_lt_one (by norm_num)).2 h), small, sq]
  rfl

theorem poly_big (x : ℝ) (h : 15 / 4 ≤ |x|) : evaluatePnebi0Polynom Spec.real x = 2 * big (15 / 4 * |x|⁻¹) / √|x| := by
  unfold evaluatePnebi0Polynom
  rw [fabs_abs]
  dsimp only
  have e : (375 : ℝ) / 100 = 15 / 4 := by norm_num
  have h0 : 0 < |x| := by linarith
  rw [e, if_neg (by rw [div_lt_one (by norm_num)]; exact not_lt.2 h), one_div_div, div_eq_mul_inv (15 / 4) |x|, big]
  rfl

/-- C111. -/
theorem C111_accuracy : C111_statement := by
  intro x
  by_cases h : |x| < 15 / 4
  · rw [poly_small x h, pnebi]
    have h1 := small_bessel |x| (abs_nonneg x) h.le
    have h2 : 1 ≤ besselI 0 |x| := by
      rw [besselI_eq, pow_zero, one_mul]
      have := J_ge 0 1 (y := |x| ^ 2 / 4) (by positivity)
      simpa [partialJ] using this
    have h3 := Real.exp_pos (-|x|)
    rw [← mul_sub, abs_mul, abs_of_pos (by positivity)]
    have h4 : |small ((|x| / (15 / 4)) ^ 2) - besselI 0 (|x|)| ≤ 5 / 10000000 * besselI 0 |x| := by linarith
    calc 2 * Real.exp (-|x|) * |small ((|x| / (15 / 4)) ^ 2) - besselI 0 (|x|)| ≤ 2 * Real.exp (-|x|) * (5 / 10000000 * besselI 0 |x|) := by gcongr
      _ = _ := by ring
  · rw [not_lt] at h
    have h0 : 0 < |x| := by linarith
    rw [poly_big x h]
    have h1 := big_bessel |x| h
    have hs : 0 < √|x| := Real.sqrt_pos.2 h0
    have hu : 15 / 4 * |x|⁻¹ ≤ 1 := by rw [← div_eq_mul_inv, div_le_one h0]; exact h
    have h2 := big_lower (15 / 4 * |x|⁻¹) (by positivity) hu
    have e : pnebi 0 |x| = 2 * gB |x| / √|x| := by
      rw [pnebi, gB, wt]
      field_simp
    rw [e, ← sub_div, ← mul_sub, abs_div, abs_mul, abs_of_pos hs, abs_of_pos (show (0 : ℝ) < 2 by norm_num), mul_div_assoc']
    refine div_le_div_of_nonneg_right ?_ hs.le
    rw [abs_le] at h1
    have h3 : 3988 / 10000 ≤ gB |x| := by linarith [h1.2]
    have h4 : |big (15 / 4 * |x|⁻¹) - gB (|x|)| ≤ 194 / 1000000000 := abs_le.2 h1
    linarith

-- the value at 0 is the exact one
example : evaluatePnebi0Polynom Spec.real 0 = 2 ∧ pnebi 0 0 = 2 := by
  constructor
  · rw [poly_small 0 (by norm_num)]
    norm_num [small]
  · rw [pnebi, besselI_eq, J, tsum_eq_single 0 (by intro m hm; simp [hm])]
    norm_num

end Verif.Bessel
