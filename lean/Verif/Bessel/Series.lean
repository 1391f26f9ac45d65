import Verif.Bessel.Spec
import Mathlib.Analysis.Calculus.SmoothSeries
import Mathlib.Analysis.SpecialFunctions.Exponential
import Mathlib.Analysis.Calculus.Deriv.Pow

/-! Power series of the Bessel functions: derivatives, recurrence and bounds of the tail. -/
namespace Verif.Bessel
open scoped Nat

/-- The power series of the Bessel function of order `k` in `y = (x/2)²`. -/
noncomputable def J (k : ℕ) (y : ℝ) : ℝ := ∑' m : ℕ, y ^ m / (m ! * (m + k)! : ℝ)

theorem fac_pos (m : ℕ) : (0 : ℝ) < (m ! : ℝ) := by exact_mod_cast Nat.factorial_pos m

theorem one_le_fac (m : ℕ) : (1 : ℝ) ≤ (m ! : ℝ) := by exact_mod_cast Nat.factorial_pos m

theorem summable_J (k : ℕ) (y : ℝ) : Summable fun m : ℕ => y ^ m / (m ! * (m + k)! : ℝ) := by
  refine Summable.of_norm_bounded (Real.summable_pow_div_factorial |y|) fun m => ?_
  rw [Real.norm_eq_abs, abs_div, abs_pow, abs_of_pos (mul_pos (fac_pos m) (fac_pos (m + k)))]
  have := one_le_fac (m + k)
  have h2 := fac_pos m
  gcongr
  nlinarith

theorem besselI_eq (k : ℕ) (x : ℝ) : besselI k x = (x / 2) ^ k * J k (x ^ 2 / 4) := by
  rw [besselI, J, ← tsum_mul_left]
  refine tsum_congr fun m => ?_
  rw [pow_add, pow_mul, show (x / 2) ^ 2 = x ^ 2 / 4 by ring]
  ring

theorem hasDerivAt_J (k : ℕ) (y : ℝ) : HasDerivAt (J k) (J (k + 1) y) y := by
  set r := |y| + 1 with hr
  have hr1 : 0 ≤ r := by positivity
  have key := hasDerivAt_tsum_of_isPreconnected (𝕜 := ℝ) (F := ℝ) (u := fun m : ℕ => (m : ℝ) * r ^ (m - 1) / (m ! : ℝ))
    (g := fun (m : ℕ) (z : ℝ) => z ^ m / (m ! * (m + k)! : ℝ)) (g' := fun m z => (m : ℝ) * z ^ (m - 1) / (m ! * (m + k)! : ℝ))
    (t := Metric.ball (0 : ℝ) r) (y₀ := 0) (y := y) ?_ Metric.isOpen_ball (convex_ball (0 : ℝ) r).isPreconnected ?_ ?_ ?_ (summable_J k 0) ?_
  · have e : (∑' m : ℕ, (m : ℝ) * y ^ (m - 1) / (m ! * (m + k)! : ℝ)) = J (k + 1) y := by
      have hs : Summable fun m : ℕ => (m : ℝ) * y ^ (m - 1) / (m ! * (m + k)! : ℝ) := by
        rw [← summable_nat_add_iff 1]
        refine (summable_J (k + 1) y).congr fun m => ?_
        rw [Nat.add_sub_cancel, Nat.factorial_succ, show m + 1 + k = m + (k + 1) by omega]
        have := fac_pos m
        have := fac_pos (m + (k + 1))
        push_cast
        field_simp
      rw [hs.tsum_eq_zero_add, J]
      simp only [Nat.cast_zero, zero_mul, zero_div, zero_add]
      refine tsum_congr fun m => ?_
      rw [Nat.add_sub_cancel, Nat.factorial_succ, show m + 1 + k = m + (k + 1) by omega]
      have := fac_pos m
      have := fac_pos (m + (k + 1))
      push_cast
      field_simp
    rw [← e]
    exact key
  · rw [← summable_nat_add_iff 1]
    refine (Real.summable_pow_div_factorial r).congr fun m => ?_
    rw [Nat.add_sub_cancel, Nat.factorial_succ]
    have := fac_pos m
    push_cast
    field_simp
  · exact fun m z _ => (hasDerivAt_pow m z).div_const _
  · intro m z hz
    have hz' : |z| ≤ r := by simpa using (Metric.mem_ball.1 hz).le
    rw [Real.norm_eq_abs, abs_div, abs_mul, abs_pow, abs_of_pos (mul_pos (fac_pos m) (fac_pos (m + k))), abs_of_nonneg (Nat.cast_nonneg m)]
    have := one_le_fac (m + k)
    have h2 := fac_pos m
    gcongr
    nlinarith
  · simpa using by positivity
  · simp [hr]

theorem J_rec (k : ℕ) (y : ℝ) : J k y - y * J (k + 2) y = (k + 1) * J (k + 1) y := by
  have h1 : J k y = 1 / (k ! : ℝ) + ∑' m : ℕ, y ^ (m + 1) / ((m + 1)! * (m + 1 + k)! : ℝ) := by
    rw [J, (summable_J k y).tsum_eq_zero_add]
    simp
  have h2 : J (k + 1) y = 1 / ((k + 1)! : ℝ) + ∑' m : ℕ, y ^ (m + 1) / ((m + 1)! * (m + 1 + (k + 1))! : ℝ) := by
    rw [J, (summable_J (k + 1) y).tsum_eq_zero_add]
    simp
  have s1 := (summable_nat_add_iff 1).2 (summable_J k y)
  have s2 := (summable_nat_add_iff 1).2 (summable_J (k + 1) y)
  have s3 := (summable_J (k + 2) y).mul_left y
  rw [h1, h2, J, ← tsum_mul_left, mul_add, ← tsum_mul_left]
  have e0 : (1 : ℝ) / (k ! : ℝ) = (k + 1) * (1 / ((k + 1)! : ℝ)) := by
    rw [Nat.factorial_succ]
    have := fac_pos k
    push_cast
    field_simp
  rw [← e0, add_sub_assoc, ← s1.tsum_sub s3]
  congr 1
  refine tsum_congr fun m => ?_
  rw [show m + (k + 2) = m + 1 + k + 1 by omega, show m + 1 + (k + 1) = m + 1 + k + 1 by omega, Nat.factorial_succ (m + 1 + k), Nat.factorial_succ m]
  have := fac_pos m
  have := fac_pos (m + 1 + k)
  push_cast
  field_simp
  ring

/-- Partial sum of the series. -/
noncomputable def partialJ (k n : ℕ) (y : ℝ) : ℝ := ∑ m ∈ Finset.range n, y ^ m / (m ! * (m + k)! : ℝ)

theorem J_ge (k n : ℕ) {y : ℝ} (hy : 0 ≤ y) : partialJ k n y ≤ J k y :=
  (summable_J k y).sum_le_tsum _ fun m _ => div_nonneg (pow_nonneg hy m) (mul_pos (fac_pos m) (fac_pos (m + k))).le

theorem J_le (k n : ℕ) {y : ℝ} (hy : 0 ≤ y) (hn : 2 * y ≤ (n + 1) * (n + 1 + k)) : J k y ≤ partialJ k n y + 2 * (y ^ n / (n ! * (n + k)! : ℝ)) := by
  rw [J, ← (summable_J k y).sum_add_tsum_nat_add n, partialJ]
  gcongr
  have hpos : ∀ m : ℕ, (0 : ℝ) < (m ! * (m + k)! : ℝ) := fun m => mul_pos (fac_pos m) (fac_pos (m + k))
  have hb : ∀ m : ℕ, y ^ (m + n) / ((m + n)! * (m + n + k)! : ℝ) ≤ (y ^ n / (n ! * (n + k)! : ℝ)) * (1 / 2) ^ m := by
    intro m
    induction m with
    | zero => simp
    | succ m ih =>
      have e : y ^ (m + 1 + n) / ((m + 1 + n)! * (m + 1 + n + k)! : ℝ) =
          (y ^ (m + n) / ((m + n)! * (m + n + k)! : ℝ)) * (y / (((m + n : ℕ) + 1 : ℝ) * ((m + n + k : ℕ) + 1))) := by
        rw [show m + 1 + n = m + n + 1 by omega, show m + n + 1 + k = m + n + k + 1 by omega, Nat.factorial_succ, Nat.factorial_succ]
        have := fac_pos (m + n)
        have := fac_pos (m + n + k)
        push_cast
        field_simp
        ring
      rw [e, pow_succ, ← mul_assoc]
      refine mul_le_mul ih ?_ (by positivity) ?_
      · rw [div_le_div_iff₀ (by positivity) (by norm_num), one_mul, mul_comm y 2]
        refine hn.trans ?_
        push_cast
        have : (0 : ℝ) ≤ m := Nat.cast_nonneg m
        refine mul_le_mul (by linarith) (by linarith) (by positivity) (by positivity)
      · exact mul_nonneg (div_nonneg (pow_nonneg hy n) (hpos n).le) (by positivity)
  refine (((summable_nat_add_iff n).2 (summable_J k y)).tsum_le_tsum hb (summable_geometric_two.mul_left _)).trans ?_
  rw [tsum_mul_left, tsum_geometric_two]
  linarith

theorem J_pos (k : ℕ) {y : ℝ} (hy : 0 ≤ y) : 0 < J k y := by
  refine lt_of_lt_of_le ?_ (J_ge k 1 hy)
  simp only [partialJ, Finset.sum_range_one, pow_zero]
  exact div_pos one_pos (mul_pos (fac_pos 0) (fac_pos _))

/-! ### The Bessel functions -/

theorem hasDerivAt_besselI_zero (x : ℝ) : HasDerivAt (besselI 0) (besselI 1 x) x := by
  have h : besselI 0 = fun x => J 0 (x ^ 2 / 4) := by funext x; rw [besselI_eq]; simp
  rw [h, besselI_eq]
  have h1 : HasDerivAt (fun x : ℝ => x ^ 2 / 4) (x / 2) x := by
    refine ((hasDerivAt_pow 2 x).div_const 4).congr_deriv ?_
    push_cast
    ring
  refine ((hasDerivAt_J 0 (x ^ 2 / 4)).comp x h1).congr_deriv ?_
  ring

theorem besselI_rec (k : ℕ) (x : ℝ) (hx : x ≠ 0) : besselI k x - besselI (k + 2) x = 2 * (k + 1) / x * besselI (k + 1) x := by
  have := J_rec k (x ^ 2 / 4)
  rw [besselI_eq, besselI_eq, besselI_eq]
  have e : (x / 2) ^ k * J k (x ^ 2 / 4) - (x / 2) ^ (k + 2) * J (k + 2) (x ^ 2 / 4) = (x / 2) ^ k * (J k (x ^ 2 / 4) - x ^ 2 / 4 * J (k + 2) (x ^ 2 / 4)) := by
    ring
  rw [e, this]
  field_simp
  ring

/-- The derivative of the function of order `k + 1`. -/
theorem hasDerivAt_besselI_succ (k : ℕ) (x : ℝ) : HasDerivAt (besselI (k + 1)) ((besselI k x + besselI (k + 2) x) / 2) x := by
  have h : besselI (k + 1) = fun x => (x / 2) ^ (k + 1) * J (k + 1) (x ^ 2 / 4) := by funext x; rw [besselI_eq]
  have h1 : HasDerivAt (fun x : ℝ => x ^ 2 / 4) (x / 2) x := by
    refine ((hasDerivAt_pow 2 x).div_const 4).congr_deriv ?_
    push_cast
    ring
  have h2 : HasDerivAt (fun x : ℝ => (x / 2) ^ (k + 1)) ((k + 1) * (x / 2) ^ k / 2) x := by
    refine (((hasDerivAt_id x).div_const 2).pow (k + 1)).congr_deriv ?_
    simp
    ring
  have h3 := h2.mul ((hasDerivAt_J (k + 1) (x ^ 2 / 4)).comp x h1)
  have hr := J_rec k (x ^ 2 / 4)
  rw [h]
  refine h3.congr_deriv ?_
  rw [besselI_eq, besselI_eq]
  have e : J k (x ^ 2 / 4) = (k + 1) * J (k + 1) (x ^ 2 / 4) + x ^ 2 / 4 * J (k + 2) (x ^ 2 / 4) := by linarith
  rw [e]
  simp only [Function.comp]
  ring

theorem besselI_pos (k : ℕ) {x : ℝ} (hx : 0 < x) : 0 < besselI k x := by
  rw [besselI_eq]
  exact mul_pos (by positivity) (J_pos k (by positivity))

end Verif.Bessel
