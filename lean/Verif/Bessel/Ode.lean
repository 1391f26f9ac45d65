import Mathlib.Analysis.Calculus.Deriv.MeanValue
import Mathlib.Analysis.Calculus.Deriv.Inv
import Mathlib.Analysis.SpecialFunctions.ExpDeriv

/-! Bound of the solutions of `e'' + 2 e' + e / (4 x²) = r` for a small right-hand side. -/
namespace Verif.Bessel
open Set

theorem le_of_deriv_nonneg {f f' : ℝ → ℝ} {a b : ℝ} (hab : a ≤ b) (h : ∀ x ∈ Icc a b, HasDerivAt f (f' x) x) (h0 : ∀ x ∈ Icc a b, 0 ≤ f' x) : f a ≤ f b := by
  have hm : MonotoneOn f (Icc a b) := by
    refine monotoneOn_of_deriv_nonneg (convex_Icc a b) (fun x hx => (h x hx).continuousAt.continuousWithinAt)
      (fun x hx => ((h x (interior_subset hx)).differentiableAt).differentiableWithinAt) fun x hx => ?_
    rw [(h x (interior_subset hx)).deriv]
    exact h0 x (interior_subset hx)
  exact hm (left_mem_Icc.2 hab) (right_mem_Icc.2 hab) hab

/-- `e + p/2` moves slowly. -/
theorem drift {e p r : ℝ → ℝ} {x0 X M B : ℝ} (h0 : 0 < x0) (hx : x0 ≤ X) (he : ∀ x ∈ Icc x0 X, HasDerivAt e (p x) x)
    (hp : ∀ x ∈ Icc x0 X, HasDerivAt p (-2 * p x - e x / (4 * x ^ 2) + r x) x) (hr : ∀ x ∈ Icc x0 X, |r x| ≤ B / x ^ 2) (hM : ∀ x ∈ Icc x0 X, |e x| ≤ M) :
    e X + p X / 2 ≤ e x0 + p x0 / 2 + (M / 8 + B / 2) / x0 := by
  have h : ∀ x ∈ Icc x0 X, HasDerivAt (fun x => -(e x + p x / 2) + (M / 8 + B / 2) * (-x⁻¹))
      (e x / (8 * x ^ 2) - r x / 2 + (M / 8 + B / 2) / x ^ 2) x := by
    intro x hx
    have hx0 : 0 < x := h0.trans_le hx.1
    refine (((he x hx).add ((hp x hx).div_const 2)).neg.add ((hasDerivAt_inv hx0.ne').neg.const_mul (M / 8 + B / 2))).congr_deriv ?_
    field_simp
    ring
  have := le_of_deriv_nonneg hx h fun x hx => by
    have hx0 : 0 < x := h0.trans_le hx.1
    have h1 := (abs_le.1 (hr x hx)).2
    have h2 := (abs_le.1 (hM x hx)).1
    have h3 : -(M / (8 * x ^ 2)) ≤ e x / (8 * x ^ 2) := by rw [← neg_div]; gcongr
    have h4 : M / 8 / x ^ 2 = M / (8 * x ^ 2) := by field_simp
    have h5 : B / 2 / x ^ 2 = B / x ^ 2 / 2 := by field_simp
    rw [add_div, h4, h5]
    linarith
  have hX : 0 < X := h0.trans_le hx
  have hM0 : 0 ≤ M := (abs_nonneg _).trans (hM x0 (left_mem_Icc.2 hx))
  have hB0 : 0 ≤ B := by
    have := (abs_nonneg _).trans (hr x0 (left_mem_Icc.2 hx))
    rwa [le_div_iff₀ (by positivity), zero_mul] at this
  have h6 : 0 ≤ (M / 8 + B / 2) * X⁻¹ := by positivity
  rw [div_eq_mul_inv _ x0]
  linarith

/-- `e` follows `e + e'/2`. -/
theorem follow {e p : ℝ → ℝ} {x0 X S : ℝ} (hx : x0 ≤ X) (he : ∀ x ∈ Icc x0 X, HasDerivAt e (p x) x) (hS : ∀ x ∈ Icc x0 X, e x + p x / 2 ≤ S)
    (h0 : e x0 ≤ S) : e X ≤ S := by
  have h : ∀ x ∈ Icc x0 X, HasDerivAt (fun x => Real.exp (2 * x) * (S - e x)) (Real.exp (2 * x) * (2 * (S - (e x + p x / 2)))) x := by
    intro x hx
    have h1 : HasDerivAt (fun x : ℝ => Real.exp (2 * x)) (Real.exp (2 * x) * 2) x := by
      refine (((hasDerivAt_id x).const_mul 2).exp).congr_deriv ?_
      simp
    refine (h1.mul ((he x hx).const_sub S)).congr_deriv ?_
    ring
  have h2 := le_of_deriv_nonneg hx h fun x hx => by
    have := hS x hx
    have := Real.exp_pos (2 * x)
    apply mul_nonneg this.le
    linarith
  have h3 : 0 ≤ Real.exp (2 * x0) * (S - e x0) := mul_nonneg (Real.exp_pos _).le (by linarith)
  have h4 : 0 ≤ S - e X := nonneg_of_mul_nonneg_right (h3.trans h2) (Real.exp_pos _)
  linarith

theorem ode_bound {e p r : ℝ → ℝ} {x0 B E : ℝ} (h0 : 1 < 8 * x0) (he : ∀ x, x0 ≤ x → HasDerivAt e (p x) x)
    (hp : ∀ x, x0 ≤ x → HasDerivAt p (-2 * p x - e x / (4 * x ^ 2) + r x) x) (hr : ∀ x, x0 ≤ x → |r x| ≤ B / x ^ 2)
    (hE : |e x0| ≤ E) (hF : |e x0 + p x0 / 2| ≤ E) (x : ℝ) (hx : x0 ≤ x) : |e x| * (1 - 1 / (8 * x0)) ≤ E + B / (2 * x0) := by
  have hx0 : 0 < x0 := by linarith
  have hc : ContinuousOn (fun x => |e x|) (Icc x0 x) := fun y hy => ((he y hy.1).continuousAt.abs).continuousWithinAt
  obtain ⟨m, hm, hmax⟩ := isCompact_Icc.exists_isMaxOn (nonempty_Icc.2 hx) hc
  set M := |e m| with hM
  have hMb : ∀ y ∈ Icc x0 x, |e y| ≤ M := fun y hy => hmax hy
  have hB0 : 0 ≤ B := by
    have := (abs_nonneg _).trans (hr x0 le_rfl)
    rwa [le_div_iff₀ (by positivity), zero_mul] at this
  have hM0 : 0 ≤ M := abs_nonneg _
  have hpos : 0 ≤ (M / 8 + B / 2) / x0 := by positivity
  have key : |e m| ≤ E + (M / 8 + B / 2) / x0 := by
    have hsub : ∀ y ∈ Icc x0 m, Icc x0 y ⊆ Icc x0 x := fun y hy z hz => ⟨hz.1, hz.2.trans (hy.2.trans hm.2)⟩
    rw [abs_le]
    constructor
    · have := follow (e := fun y => -e y) (p := fun y => -p y) (S := E + (M / 8 + B / 2) / x0) hm.1 (fun y hy => (he y hy.1).neg) (fun y hy => by
        have := drift (e := fun y => -e y) (p := fun y => -p y) (r := fun y => -r y) (M := M) (B := B) hx0 hy.1 (fun z hz => (he z hz.1).neg)
          (fun z hz => ((hp z hz.1).neg).congr_deriv (by ring)) (fun z hz => by rw [abs_neg]; exact hr z hz.1)
          (fun z hz => by rw [abs_neg]; exact hMb z (hsub y hy hz))
        have h1 := (abs_le.1 hF).1
        linarith) (by have := (abs_le.1 hE).1; linarith)
      linarith
    · refine follow hm.1 (fun y hy => he y hy.1) (fun y hy => ?_) (by have := (abs_le.1 hE).2; linarith)
      have := drift hx0 hy.1 (fun z hz => he z hz.1) (fun z hz => hp z hz.1) (fun z hz => hr z hz.1) (fun z hz => hMb z (hsub y hy hz))
      have h1 := (abs_le.1 hF).2
      linarith
  have h1 := hMb x (right_mem_Icc.2 hx)
  have h2 : 0 ≤ 1 - 1 / (8 * x0) := by
    rw [sub_nonneg, div_le_one (by linarith)]
    exact h0.le
  have h3 : M * (1 - 1 / (8 * x0)) ≤ E + B / (2 * x0) := by
    rw [← hM] at key
    have e1 : (M / 8 + B / 2) / x0 = M * (1 / (8 * x0)) + B / (2 * x0) := by field_simp
    rw [e1] at key
    linarith
  exact (mul_le_mul_of_nonneg_right h1 h2).trans h3

end Verif.Bessel
