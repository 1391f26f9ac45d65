import Verif.Bessel.Series
import Verif.Bessel.Cert
import Verif.Bessel.Ode
import Mathlib.Analysis.SpecialFunctions.Sqrt
import Mathlib.Analysis.Complex.Exponential

/-! The polynomials of `evaluatePnebi0Polynom` approximate the Bessel function of order 0. -/
namespace Verif.Bessel
open Bern
open scoped Nat

/-! ### Small arguments -/

/-- The polynomial of the first branch, functions.cpp:151. -/
noncomputable def small (t : ℝ) : ℝ := 1 + t * (35156229 / 10000000 + t * (30899424 / 10000000 + t * (12067492 / 10000000 + t * (2659732 / 10000000 +
  t * (360768 / 10000000 + t * (45813 / 10000000))))))

theorem small_partial (t : ℝ) (h0 : 0 ≤ t) (h1 : t ≤ 1) : |small t - partialJ 0 12 (225 / 64 * t)| ≤ 160 / 1000000000 := by
  have a := small_hi t h0 h1
  have b := small_lo t h0 h1
  simp only [eval_cons, eval_nil] at a b
  simp only [small, partialJ, Finset.sum_range_succ, Finset.sum_range_zero, Nat.add_zero, Nat.factorial, mul_pow]
  push_cast at a b ⊢
  rw [abs_le]
  constructor <;> linarith

theorem small_bessel (x : ℝ) (h0 : 0 ≤ x) (h1 : x ≤ 15 / 4) : |small ((x / (15 / 4)) ^ 2) - besselI 0 x| ≤ 161 / 1000000000 := by
  have ht0 : 0 ≤ (x / (15 / 4)) ^ 2 := by positivity
  have ht1 : (x / (15 / 4)) ^ 2 ≤ 1 := by
    rw [sq_le_one_iff₀ (by positivity), div_le_one (by norm_num)]
    exact h1
  have h2 := small_partial _ ht0 ht1
  have e : besselI 0 x = J 0 (225 / 64 * (x / (15 / 4)) ^ 2) := by
    rw [besselI_eq, pow_zero, one_mul]
    congr 1
    ring
  rw [e]
  generalize (x / (15 / 4)) ^ 2 = t at ht0 ht1 h2
  have hy : 0 ≤ 225 / 64 * t := by positivity
  have h3 := J_ge 0 12 hy
  have h4 := J_le 0 12 hy (by push_cast; linarith)
  have h5 : 2 * ((225 / 64 * t) ^ 12 / (12 ! * (12 + 0)! : ℝ)) ≤ 1 / 1000000000 := by
    have : (225 / 64 * t) ^ 12 ≤ (225 / 64) ^ 12 := by gcongr; linarith
    rw [Nat.add_zero, show (12 ! : ℕ) = 479001600 by rfl]
    rw [mul_div_assoc', div_le_iff₀ (by norm_num)]
    refine (mul_le_mul_of_nonneg_left this (by norm_num)).trans ?_
    norm_num
  rw [abs_le] at h2 ⊢
  constructor <;> linarith

/-! ### Large arguments -/

theorem hasDerivAt_eval (c : List ℤ) (t : ℝ) : HasDerivAt (eval c) (evalD c t) t := by
  induction c with
  | nil => exact hasDerivAt_const t 0
  | cons a c ih =>
    refine (((hasDerivAt_id t).mul ih).const_add (a : ℝ)).congr_deriv ?_
    simp [evalD]

theorem hasDerivAt_evalD (c : List ℤ) (t : ℝ) : HasDerivAt (evalD c) (evalDD c t) t := by
  induction c with
  | nil => exact hasDerivAt_const t 0
  | cons a c ih =>
    refine ((hasDerivAt_eval c t).add ((hasDerivAt_id t).mul ih)).congr_deriv ?_
    simp only [evalDD, id]
    ring

/-- √x exp(-x). -/
noncomputable def wt (x : ℝ) : ℝ := √x * Real.exp (-x)

theorem hasDerivAt_wt {x : ℝ} (hx : 0 < x) : HasDerivAt wt (wt x * (1 / (2 * x) - 1)) x := by
  have h1 : HasDerivAt (fun x : ℝ => Real.exp (-x)) (-Real.exp (-x)) x := by
    refine ((hasDerivAt_id x).neg.exp).congr_deriv ?_
    simp
  refine ((Real.hasDerivAt_sqrt hx.ne').mul h1).congr_deriv ?_
  have hs : 0 < √x := Real.sqrt_pos.2 hx
  have e : √x * √x = x := Real.mul_self_sqrt hx.le
  have h2 : 1 / (2 * √x) = √x * (1 / (2 * x)) := by
    rw [← e]
    field_simp
    rw [Real.sqrt_sq hs.le]
  rw [wt, h2]
  ring

/-- √x exp(-x) I₀(x). -/
noncomputable def gB (x : ℝ) : ℝ := wt x * besselI 0 x

/-- Its derivative. -/
noncomputable def gB' (x : ℝ) : ℝ := wt x * (besselI 1 x + (1 / (2 * x) - 1) * besselI 0 x)

theorem hasDerivAt_gB {x : ℝ} (hx : 0 < x) : HasDerivAt gB (gB' x) x := by
  refine ((hasDerivAt_wt hx).mul (hasDerivAt_besselI_zero x)).congr_deriv ?_
  rw [gB']
  ring

theorem hasDerivAt_besselI_one {x : ℝ} (hx : 0 < x) : HasDerivAt (besselI 1) (besselI 0 x - besselI 1 x / x) x := by
  refine (hasDerivAt_besselI_succ 0 x).congr_deriv ?_
  have h := besselI_rec 0 x hx.ne'
  push_cast at h
  have e : 2 * (0 + 1) / x * besselI (0 + 1) x = 2 * (besselI 1 x / x) := by rw [zero_add, zero_add]; ring
  rw [e] at h
  rw [zero_add]
  linarith

theorem hasDerivAt_gB' {x : ℝ} (hx : 0 < x) : HasDerivAt gB' (-2 * gB' x - gB x / (4 * x ^ 2)) x := by
  have h1 : HasDerivAt (fun x : ℝ => 1 / (2 * x) - 1) (-(1 / (2 * x ^ 2))) x := by
    have := ((hasDerivAt_inv hx.ne').const_mul (1 / 2)).sub_const 1
    refine (this.congr_deriv ?_).congr_of_eventuallyEq ?_
    · field_simp
    · refine Filter.Eventually.of_forall fun y => ?_
      change 1 / (2 * y) - 1 = 1 / 2 * y⁻¹ - 1
      rw [one_div, mul_inv]
      ring
  refine ((hasDerivAt_wt hx).mul ((hasDerivAt_besselI_one hx).add (h1.mul (hasDerivAt_besselI_zero x)))).congr_deriv ?_
  simp only [gB, gB', Pi.mul_apply, Pi.add_apply]
  field_simp
  ring

/-- The polynomial `qc` at 15/(4x). -/
noncomputable def qB (x : ℝ) : ℝ := eval qc (15 / 4 * x⁻¹) / 100000000000000

/-- Its derivative. -/
noncomputable def qB' (x : ℝ) : ℝ := evalD qc (15 / 4 * x⁻¹) * (-(15 / 4) * (x⁻¹) ^ 2) / 100000000000000

theorem hasDerivAt_arg {x : ℝ} (hx : 0 < x) : HasDerivAt (fun x : ℝ => 15 / 4 * x⁻¹) (-(15 / 4) * (x⁻¹) ^ 2) x := by
  refine ((hasDerivAt_inv hx.ne').const_mul (15 / 4)).congr_deriv ?_
  field_simp

theorem hasDerivAt_qB {x : ℝ} (hx : 0 < x) : HasDerivAt qB (qB' x) x :=
  ((hasDerivAt_eval qc _).comp x (hasDerivAt_arg hx)).div_const _

theorem hasDerivAt_qB' {x : ℝ} (hx : 0 < x) :
    HasDerivAt qB' (-2 * qB' x - qB x / (4 * x ^ 2) + eval rc (15 / 4 * x⁻¹) / 400000000000000 / x ^ 2) x := by
  have h1 : HasDerivAt (fun x : ℝ => -(15 / 4) * (x⁻¹) ^ 2) (15 / 2 * (x⁻¹) ^ 3) x := by
    refine (((hasDerivAt_inv hx.ne').pow 2).const_mul (-(15 / 4))).congr_deriv ?_
    simp only [inv_pow, Nat.cast_ofNat, Nat.add_one_sub_one, pow_one]
    field_simp
    norm_num
  refine ((((hasDerivAt_evalD qc _).comp x (hasDerivAt_arg hx)).mul h1).div_const 100000000000000).congr_deriv ?_
  have hr := qc_resid (15 / 4 * x⁻¹)
  rw [← hr, qB, qB']
  simp only [Function.comp]
  generalize evalDD qc (15 / 4 * x⁻¹) = a
  generalize evalD qc (15 / 4 * x⁻¹) = b
  generalize eval qc (15 / 4 * x⁻¹) = c
  field_simp
  ring

/-! #### Values at 15/4 -/

theorem exp_bounds : (25535894580629 : ℝ) / 10000000000000 ≤ Real.exp (15 / 16) ∧ Real.exp (15 / 16) ≤ 25535894580630 / 10000000000000 := by
  constructor
  · refine le_trans ?_ (Real.sum_le_exp_of_nonneg (by norm_num) 18)
    simp only [Finset.sum_range_succ, Finset.sum_range_zero, Nat.factorial]
    norm_num
  · refine (Real.exp_bound' (by norm_num) (by norm_num) (n := 18) (by norm_num)).trans ?_
    simp only [Finset.sum_range_succ, Finset.sum_range_zero, Nat.factorial]
    norm_num

theorem wt_bounds : (4554191902 : ℝ) / 100000000000 ≤ wt (15 / 4) ∧ wt (15 / 4) ≤ 4554191903 / 100000000000 := by
  obtain ⟨a, b⟩ := exp_bounds
  have e : Real.exp (15 / 4) = Real.exp (15 / 16) ^ 4 := by rw [← Real.exp_nat_mul]; norm_num
  have h1 : (425210820000 : ℝ) / 10000000000 ≤ Real.exp (15 / 4) := by
    rw [e]
    refine le_trans ?_ (pow_le_pow_left₀ (by norm_num) a 4)
    norm_num
  have h2 : Real.exp (15 / 4) ≤ (425210820001 : ℝ) / 10000000000 := by
    rw [e]
    refine (pow_le_pow_left₀ (Real.exp_pos _).le b 4).trans ?_
    norm_num
  have s1 : (19364916731 : ℝ) / 10000000000 ≤ √(15 / 4) := Real.le_sqrt_of_sq_le (by norm_num)
  have s2 : √(15 / 4) ≤ (19364916732 : ℝ) / 10000000000 := Real.sqrt_le_iff.2 (by norm_num)
  rw [wt, Real.exp_neg, ← div_eq_mul_inv]
  constructor
  · rw [le_div_iff₀ (Real.exp_pos _)]
    nlinarith
  · rw [div_le_iff₀ (Real.exp_pos _)]
    nlinarith

theorem besselI_bounds : |besselI 0 (15 / 4) - 9118945860845 / 1000000000000| ≤ 1 / 10000000000 ∧
    |besselI 1 (15 / 4) - 15 / 8 * (4149341455906 / 1000000000000)| ≤ 1 / 10000000000 := by
  rw [besselI_eq, besselI_eq, pow_zero, one_mul, pow_one]
  have e : ((15 : ℝ) / 4) ^ 2 / 4 = 225 / 64 := by norm_num
  rw [e]
  have a1 := J_ge 0 14 (y := 225 / 64) (by norm_num)
  have a2 := J_le 0 14 (y := 225 / 64) (by norm_num) (by norm_num)
  have b1 := J_ge 1 14 (y := 225 / 64) (by norm_num)
  have b2 := J_le 1 14 (y := 225 / 64) (by norm_num) (by norm_num)
  simp only [partialJ, Finset.sum_range_succ, Finset.sum_range_zero, Nat.factorial] at a1 a2 b1 b2
  norm_num at a1 a2 b1 b2
  generalize J 0 (225 / 64) = u at *
  generalize J 1 (225 / 64) = v at *
  rw [abs_le, abs_le]
  refine ⟨⟨?_, ?_⟩, ?_, ?_⟩ <;> linarith

theorem start : |qB (15 / 4) - gB (15 / 4)| ≤ 1 / 1000000000 ∧
    |qB (15 / 4) - gB (15 / 4) + (qB' (15 / 4) - gB' (15 / 4)) / 2| ≤ 1 / 1000000000 := by
  obtain ⟨w1, w2⟩ := wt_bounds
  obtain ⟨i0, i1⟩ := besselI_bounds
  have u1 : (15 : ℝ) / 4 * (15 / 4)⁻¹ = 1 := by norm_num
  rw [qB, qB', gB, gB', u1]
  simp only [qc, eval_cons, eval_nil, evalD]
  norm_num
  generalize wt (15 / 4) = w at *
  generalize besselI 0 (15 / 4) = a at *
  generalize besselI 1 (15 / 4) = b at *
  rw [abs_le] at i0 i1
  rw [abs_le, abs_le]
  have a1 := mul_nonneg (sub_nonneg.2 w1) (show 0 ≤ a by linarith)
  have a2 := mul_nonneg (sub_nonneg.2 w2) (show 0 ≤ a by linarith)
  have b1 := mul_nonneg (sub_nonneg.2 w1) (show 0 ≤ b by linarith)
  have b2 := mul_nonneg (sub_nonneg.2 w2) (show 0 ≤ b by linarith)
  refine ⟨⟨?_, ?_⟩, ?_, ?_⟩ <;> linarith

/-- The polynomial of the second branch is close to √x exp(-x) I₀(x). -/
theorem big_bessel (x : ℝ) (hx : 15 / 4 ≤ x) : |big (15 / 4 * x⁻¹) - gB x| ≤ 194 / 1000000000 := by
  have hx0 : 0 < x := by linarith
  have hu : ∀ y : ℝ, 15 / 4 ≤ y → 0 ≤ 15 / 4 * y⁻¹ ∧ 15 / 4 * y⁻¹ ≤ 1 := fun y hy => by
    have : 0 < y := by linarith
    refine ⟨by positivity, ?_⟩
    rw [← div_eq_mul_inv, div_le_one this]
    exact hy
  have h1 := big_qc _ (hu x hx).1 (hu x hx).2
  have h2 := ode_bound (e := fun y => qB y - gB y) (p := fun y => qB' y - gB' y) (r := fun y => eval rc (15 / 4 * y⁻¹) / 400000000000000 / y ^ 2)
    (x0 := 15 / 4) (B := 26 / 1000000000) (E := 1 / 1000000000) (by norm_num)
    (fun y hy => (hasDerivAt_qB (by linarith)).sub (hasDerivAt_gB (by linarith)))
    (fun y hy => ((hasDerivAt_qB' (by linarith)).sub (hasDerivAt_gB' (by linarith))).congr_deriv (by ring))
    (fun y hy => by
      have hb := rc_bound _ (hu y hy).1 (hu y hy).2
      rw [abs_div, abs_of_nonneg (sq_nonneg y), abs_div, abs_of_pos (show (0 : ℝ) < 400000000000000 by norm_num)]
      refine div_le_div_of_nonneg_right ?_ (sq_nonneg y)
      rw [div_le_iff₀ (by norm_num)]
      refine hb.trans ?_
      norm_num)
    start.1 start.2 x hx
  norm_num at h2
  have h3 : eval qc (15 / 4 * x⁻¹) / 100000000000000 = qB x := rfl
  rw [h3] at h1
  have h4 : big (15 / 4 * x⁻¹) - gB x = (big (15 / 4 * x⁻¹) - qB x) + (qB x - gB x) := by ring
  rw [h4]
  refine (abs_add_le _ _).trans ?_
  linarith

end Verif.Bessel
