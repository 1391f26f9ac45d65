import Verif.Bessel.Shift

/-! The slope of `evaluatePnebi0Polynom` is nearly at least the one of the exact function. -/
namespace Verif.Bessel
open Bern Functions

/-! ### Certificates -/

theorem slope_small (u : ℝ) (h0 : 0 ≤ u) (h1 : u ≤ 1) : 0 ≤ eval [5504809869692264737407680643072000000, -43138033983735916391921809883136000000,
  421215496237225771674784411680768000000, -1753614440926528058450218839965696000000, 3492592893361080944109680716677120000000,
  -3231369385222755975928629581316096000000, 1048880149954560000000000000000000000000, 65847665664000000000000000000000000000,
  3215218050000000000000000000000000000, 125594455078125000000000000000000000, 4014027328491210937500000000000000, 106907688081264495849609375000000] u :=
  checks_sound _ 2 (by norm_num) 0 [1, 2] (by decide +kernel) u (by simpa using h0) (by simpa using h1) (by simp)

theorem slope_big (u : ℝ) (h0 : 0 ≤ u) (h1 : u ≤ 1) : 0 ≤ eval [1999960427, -3646912983, 129256769760, -1490165600091, 7963902833985, -20549631913965,
  3517267698100, 224528216485815, -1293579915461251, 4538173975656768, -10847014429113492, 17906084402875111, -20361844992625500, 15668319472499187,
  -7802653877118253, 2272973227286750, -294552864099219] u :=
  checks_sound _ 2 (by norm_num) 0 [1, 2] (by decide +kernel) u (by simpa using h0) (by simpa using h1) (by simp)

theorem slope_pos (u : ℝ) (h0 : 0 ≤ u) (h1 : u ≤ 1) : 0 ≤ eval [1328592, 450638, -472695, 3665124, -10288530, 15813222, -11533431, 3139016] u :=
  checks_sound _ 1 (by norm_num) 0 [1] (by decide +kernel) u (by simpa using h0) (by simpa using h1) (by simp)

/-! ### Small arguments -/

/-- The coefficients of the first polynomial, functions.cpp:151, times 10^7. -/
def smc : List ℤ := [10000000, 35156229, 30899424, 12067492, 2659732, 360768, 45813]

theorem small_eq (t : ℝ) : small t = eval smc t / 10000000 := by
  simp only [small, smc, eval_cons, eval_nil]
  push_cast
  ring

theorem hasDerivAt_small (t : ℝ) : HasDerivAt small (evalD smc t / 10000000) t := by
  have : small = fun t => eval smc t / 10000000 := funext small_eq
  rw [this]
  exact (hasDerivAt_eval smc t).div_const _

/-- The first branch. -/
noncomputable def P1 (x : ℝ) : ℝ := 2 * Real.exp (-x) * small ((x / (15 / 4)) ^ 2)

theorem hasDerivAt_P1 (x : ℝ) :
    HasDerivAt P1 (-(2 * Real.exp (-x) * (small ((x / (15 / 4)) ^ 2) - x / (15 / 4) * (8 / 15 * (evalD smc ((x / (15 / 4)) ^ 2) / 10000000))))) x := by
  have h1 : HasDerivAt (fun x : ℝ => 2 * Real.exp (-x)) (-(2 * Real.exp (-x))) x := by
    refine ((hasDerivAt_id x).neg.exp.const_mul 2).congr_deriv ?_
    simp
  have h2 : HasDerivAt (fun x : ℝ => (x / (15 / 4)) ^ 2) (x / (15 / 4) * (8 / 15)) x := by
    refine (((hasDerivAt_id x).div_const (15 / 4)).pow 2).congr_deriv ?_
    simp
    ring
  refine (h1.mul ((hasDerivAt_small _).comp x h2)).congr_deriv ?_
  simp only [Function.comp]
  ring

theorem slope_one (x : ℝ) (h0 : 0 ≤ x) (h1 : x ≤ 15 / 4) :
    x / (15 / 4) * (8 / 15 * (evalD smc ((x / (15 / 4)) ^ 2) / 10000000)) ≤ besselI 1 x + 4 / 1000000 := by
  have hu0 : 0 ≤ x / (15 / 4) := by positivity
  have hu1 : x / (15 / 4) ≤ 1 := by rw [div_le_one (by norm_num)]; exact h1
  have hI : besselI 1 x = x / (15 / 4) * (15 / 8 * J 1 (225 / 64 * (x / (15 / 4)) ^ 2)) := by
    rw [besselI_eq, pow_one, show 225 / 64 * (x / (15 / 4)) ^ 2 = x ^ 2 / 4 by ring]
    ring
  rw [hI]
  have ht0 : 0 ≤ (x / (15 / 4)) ^ 2 := by positivity
  have ht1 : (x / (15 / 4)) ^ 2 ≤ 1 := by rwa [sq_le_one_iff₀ hu0]
  generalize (x / (15 / 4)) ^ 2 = t at ht0 ht1
  generalize x / (15 / 4) = u at hu0 hu1
  have hJ := J_ge 1 12 (y := 225 / 64 * t) (by positivity)
  have hc := slope_small t ht0 ht1
  have key : 8 / 15 * (evalD smc t / 10000000) ≤ 15 / 8 * partialJ 1 12 (225 / 64 * t) + 4 / 1000000 := by
    simp only [eval_cons, eval_nil] at hc
    simp only [partialJ, Finset.sum_range_succ, Finset.sum_range_zero, Nat.factorial, mul_pow, smc, evalD, eval_cons, eval_nil]
    push_cast at hc ⊢
    linarith
  nlinarith

theorem slope_start : 6 / 100 ≤ pnebi 0 (15 / 4) - pnebi 1 (15 / 4) := by
  obtain ⟨w1, -⟩ := wt_bounds
  obtain ⟨i0, i1⟩ := besselI_bounds
  rw [abs_le] at i0 i1
  have s2 : √(15 / 4) ≤ (19364916732 : ℝ) / 10000000000 := Real.sqrt_le_iff.2 (by norm_num)
  have hs : 0 < √(15 / 4 : ℝ) := Real.sqrt_pos.2 (by norm_num)
  have he : 23 / 1000 ≤ Real.exp (-(15 / 4)) := by
    rw [wt] at w1
    by_contra h
    have := Real.exp_pos (-(15 / 4 : ℝ))
    nlinarith
  rw [pnebi, pnebi]
  nlinarith

theorem slope_P1 {x y : ℝ} (h0 : 0 ≤ x) (hxy : x ≤ y) (h1 : y ≤ 15 / 4) : 999 / 1000 * (pnebi 0 x - pnebi 0 y) ≤ P1 x - P1 y := by
  have := le_of_deriv_nonneg hxy (f := fun z => 999 / 1000 * pnebi 0 z - P1 z)
    (fun z _ => ((hasDerivAt_pnebi_zero z).const_mul _).sub (hasDerivAt_P1 z)) fun z hz => by
      have hz0 : 0 ≤ z := h0.trans hz.1
      have hz1 : z ≤ 15 / 4 := hz.2.trans h1
      have a := slope_one z hz0 hz1
      have b := (abs_le.1 (small_bessel z hz0 hz1)).1
      have c := slope_start.trans (pnebi_slope_anti hz1)
      have he := Real.exp_pos (-z)
      have he1 : Real.exp (-z) ≤ 1 := Real.exp_le_one_iff.2 (by linarith)
      rw [pnebi, pnebi] at c ⊢
      generalize small ((z / (15 / 4)) ^ 2) = s at *
      generalize z / (15 / 4) * (8 / 15 * (evalD smc ((z / (15 / 4)) ^ 2) / 10000000)) = d at *
      generalize besselI 0 z = i0 at *
      generalize besselI 1 z = i1 at *
      generalize Real.exp (-z) = e at *
      have h2 : e * ((i0 - i1) - 5 / 1000000) ≤ e * (s - d) := mul_le_mul_of_nonneg_left (by linarith) he.le
      nlinarith
  linarith

/-! ### Large arguments -/

theorem exp_pos_two (x : ℝ) : 0 < Real.exp (2 * x) := Real.exp_pos _

theorem hasDerivAt_exp_two (x : ℝ) : HasDerivAt (fun x : ℝ => Real.exp (2 * x)) (2 * Real.exp (2 * x)) x := by
  refine ((hasDerivAt_id x).const_mul 2).exp.congr_deriv ?_
  simp
  ring

theorem gB_pos {x : ℝ} (hx : 0 < x) : 0 < gB x :=
  mul_pos (mul_pos (Real.sqrt_pos.2 hx) (Real.exp_pos _)) (besselI_pos 0 hx)

/-- √x exp(-x) I₀(x) decreases. -/
theorem gB'_neg {x : ℝ} (hx : 15 / 4 ≤ x) : gB' x ≤ 0 := by
  have h := le_of_deriv_nonneg hx (f := fun z => -(Real.exp (2 * z) * gB' z)) (f' := fun z => Real.exp (2 * z) * (gB z / (4 * z ^ 2)))
    (fun z hz => by
      have hz0 : 0 < z := by linarith [hz.1]
      refine ((hasDerivAt_exp_two z).mul (hasDerivAt_gB' hz0)).neg.congr_deriv ?_
      ring)
    fun z hz => by
      have hz0 : 0 < z := by linarith [hz.1]
      have := gB_pos hz0
      have := exp_pos_two z
      positivity
  have h0 : gB' (15 / 4) ≤ 0 := by
    obtain ⟨w1, -⟩ := wt_bounds
    obtain ⟨i0, i1⟩ := besselI_bounds
    rw [abs_le] at i0 i1
    rw [gB']
    have : 0 ≤ wt (15 / 4) := by linarith
    refine mul_nonpos_of_nonneg_of_nonpos this ?_
    norm_num
    linarith
  have a := exp_pos_two x
  have b := exp_pos_two (15 / 4)
  by_contra hc
  rw [not_le] at hc
  nlinarith [mul_pos a hc]

theorem gB_le {x : ℝ} (hx : 15 / 4 ≤ x) : gB x ≤ 416 / 1000 := by
  have h := le_of_deriv_nonneg hx (f := fun z => -gB z) (fun z hz => (hasDerivAt_gB (by linarith [hz.1])).neg) fun z hz => by
    have := gB'_neg hz.1
    linarith
  have h0 : gB (15 / 4) ≤ 416 / 1000 := by
    obtain ⟨w1, w2⟩ := wt_bounds
    obtain ⟨i0, -⟩ := besselI_bounds
    rw [abs_le] at i0
    rw [gB]
    nlinarith
  linarith

theorem gB'_lower {x : ℝ} (hx : 15 / 4 ≤ x) : -(1 / 10 * (x⁻¹) ^ 2) ≤ gB' x := by
  have h := le_of_deriv_nonneg hx (f := fun z => Real.exp (2 * z) * (1 / 10 * (z⁻¹) ^ 2 + gB' z))
    (f' := fun z => Real.exp (2 * z) * ((z⁻¹) ^ 2 * (2 / 10 - 2 / 10 * z⁻¹ - gB z / 4)))
    (fun z hz => by
      have hz0 : 0 < z := by linarith [hz.1]
      have h1 : HasDerivAt (fun x : ℝ => 1 / 10 * (x⁻¹) ^ 2) (-(2 / 10 * (z⁻¹) ^ 3)) z := by
        refine (((hasDerivAt_inv hz0.ne').pow 2).const_mul (1 / 10)).congr_deriv ?_
        simp only [inv_pow, Nat.cast_ofNat, Nat.add_one_sub_one, pow_one]
        field_simp
      refine ((hasDerivAt_exp_two z).mul (h1.add (hasDerivAt_gB' hz0))).congr_deriv ?_
      simp only [Pi.add_apply]
      field_simp
      ring)
    fun z hz => by
      have hz0 : 0 < z := by linarith [hz.1]
      have a := gB_le hz.1
      have b : z⁻¹ ≤ 4 / 15 := by
        rw [inv_le_comm₀ hz0 (by norm_num)]
        norm_num
        exact hz.1
      have := exp_pos_two z
      have c : 0 ≤ 2 / 10 - 2 / 10 * z⁻¹ - gB z / 4 := by linarith
      positivity
  have h0 : 0 ≤ 1 / 10 * ((15 / 4 : ℝ)⁻¹) ^ 2 + gB' (15 / 4) := by
    obtain ⟨w1, w2⟩ := wt_bounds
    obtain ⟨i0, i1⟩ := besselI_bounds
    rw [abs_le] at i0 i1
    rw [gB']
    norm_num
    nlinarith
  have a := exp_pos_two x
  have b := exp_pos_two (15 / 4)
  by_contra hc
  rw [not_le] at hc
  have h2 : 1 / 10 * (x⁻¹) ^ 2 + gB' x < 0 := by linarith
  nlinarith [mul_neg_of_pos_of_neg a h2, mul_nonneg b.le h0]

/-- The distance of `qB` from the exact function and of their derivatives. -/
theorem qB_near {x : ℝ} (hx : 15 / 4 ≤ x) : |qB x - gB x| ≤ 5 / 1000000000 ∧ qB' x - gB' x ≤ 2 / 100000000 := by
  have hu : ∀ y : ℝ, 15 / 4 ≤ y → 0 ≤ 15 / 4 * y⁻¹ ∧ 15 / 4 * y⁻¹ ≤ 1 := fun y hy => by
    have : 0 < y := by linarith
    refine ⟨by positivity, ?_⟩
    rw [← div_eq_mul_inv, div_le_one this]
    exact hy
  have hr : ∀ y : ℝ, 15 / 4 ≤ y → |eval rc (15 / 4 * y⁻¹) / 400000000000000 / y ^ 2| ≤ 26 / 1000000000 / y ^ 2 := fun y hy => by
    have hb := rc_bound _ (hu y hy).1 (hu y hy).2
    rw [abs_div, abs_of_nonneg (sq_nonneg y), abs_div, abs_of_pos (show (0 : ℝ) < 400000000000000 by norm_num)]
    refine div_le_div_of_nonneg_right ?_ (sq_nonneg y)
    rw [div_le_iff₀ (by norm_num)]
    refine hb.trans ?_
    norm_num
  have hM : ∀ y : ℝ, 15 / 4 ≤ y → |qB y - gB y| ≤ 5 / 1000000000 := fun y hy => by
    have h2 := ode_bound (e := fun y => qB y - gB y) (p := fun y => qB' y - gB' y) (r := fun y => eval rc (15 / 4 * y⁻¹) / 400000000000000 / y ^ 2)
      (x0 := 15 / 4) (B := 26 / 1000000000) (E := 1 / 1000000000) (by norm_num)
      (fun y hy => (hasDerivAt_qB (by linarith)).sub (hasDerivAt_gB (by linarith)))
      (fun y hy => ((hasDerivAt_qB' (by linarith)).sub (hasDerivAt_gB' (by linarith))).congr_deriv (by ring))
      hr start.1 start.2 y hy
    norm_num at h2
    linarith
  refine ⟨hM x hx, ?_⟩
  have h3 := drift (e := fun y => qB y - gB y) (p := fun y => qB' y - gB' y) (r := fun y => eval rc (15 / 4 * y⁻¹) / 400000000000000 / y ^ 2)
    (x0 := 15 / 4) (X := x) (B := 26 / 1000000000) (M := 5 / 1000000000) (by norm_num) hx
    (fun y hy => (hasDerivAt_qB (by linarith [hy.1])).sub (hasDerivAt_gB (by linarith [hy.1])))
    (fun y hy => ((hasDerivAt_qB' (by linarith [hy.1])).sub (hasDerivAt_gB' (by linarith [hy.1]))).congr_deriv (by ring))
    (fun y hy => hr y hy.1) (fun y hy => hM y hy.1)
  have h4 := (abs_le.1 start.2).2
  have h5 := (abs_le.1 (hM x hx)).1
  norm_num at h3
  linarith

/-- The coefficients of the second polynomial, functions.cpp:155-156, times 10^8. -/
def bgc : List ℤ := [39894228, 1328592, 225319, -157565, 916281, -2057706, 2635537, -1647633, 392377]

theorem big_eq (t : ℝ) : big t = eval bgc t / 100000000 := by
  simp only [big, bgc, eval_cons, eval_nil]
  push_cast
  ring

theorem hasDerivAt_big (t : ℝ) : HasDerivAt big (evalD bgc t / 100000000) t := by
  have : big = fun t => eval bgc t / 100000000 := funext big_eq
  rw [this]
  exact (hasDerivAt_eval bgc t).div_const _

/-- The second branch. -/
noncomputable def P2 (x : ℝ) : ℝ := 2 * big (15 / 4 * x⁻¹) / √x

theorem hasDerivAt_div_sqrt {g : ℝ → ℝ} {g' x : ℝ} (hx : 0 < x) (h : HasDerivAt g g' x) :
    HasDerivAt (fun x => 2 * g x / √x) (-(2 / (x * √x) * (g x / 2 - x * g'))) x := by
  have hs : 0 < √x := Real.sqrt_pos.2 hx
  refine ((h.const_mul 2).div (Real.hasDerivAt_sqrt hx.ne') hs.ne').congr_deriv ?_
  have e : x = √x * √x := (Real.mul_self_sqrt hx.le).symm
  have e2 : √x ^ 2 = x := Real.sq_sqrt hx.le
  field_simp
  rw [e2]
  ring

theorem hasDerivAt_P2 {x : ℝ} (hx : 0 < x) : HasDerivAt P2
    (-(2 / (x * √x) * (big (15 / 4 * x⁻¹) / 2 + 15 / 4 * x⁻¹ * (evalD bgc (15 / 4 * x⁻¹) / 100000000)))) x := by
  refine (hasDerivAt_div_sqrt hx ((hasDerivAt_big _).comp x (hasDerivAt_arg hx))).congr_deriv ?_
  simp only [Function.comp]
  field_simp
  ring

theorem pnebi_gB {x : ℝ} (hx : 0 < x) : pnebi 0 x = 2 * gB x / √x := by
  have hs : 0 < √x := Real.sqrt_pos.2 hx
  rw [pnebi, gB, wt]
  field_simp

theorem slope_gB {x : ℝ} (hx : 0 < x) : pnebi 0 x - pnebi 1 x = 2 / (x * √x) * (gB x / 2 - x * gB' x) := by
  have hs : 0 < √x := Real.sqrt_pos.2 hx
  rw [pnebi, pnebi, gB, gB', wt]
  field_simp
  ring

theorem slope_two {x : ℝ} (hx : 15 / 4 ≤ x) :
    999 / 1000 * (gB x / 2 - x * gB' x) ≤ big (15 / 4 * x⁻¹) / 2 + 15 / 4 * x⁻¹ * (evalD bgc (15 / 4 * x⁻¹) / 100000000) := by
  have hx0 : 0 < x := by linarith
  have hu0 : 0 ≤ 15 / 4 * x⁻¹ := by positivity
  have hu1 : 15 / 4 * x⁻¹ ≤ 1 := by rw [← div_eq_mul_inv, div_le_one hx0]; exact hx
  have hb := big_lower _ hu0 hu1
  by_cases hc : x ≤ 1000
  · obtain ⟨h1, h2⟩ := qB_near hx
    have h3 := (abs_le.1 h1).1
    have h4 : x * (qB' x - gB' x) ≤ 2 / 100000 := by nlinarith
    have e1 : x * qB' x = -(15 / 4 * x⁻¹ * (evalD qc (15 / 4 * x⁻¹) / 100000000000000)) := by
      rw [qB']
      field_simp
    have e2 : qB x = eval qc (15 / 4 * x⁻¹) / 100000000000000 := rfl
    have hp := slope_big _ hu0 hu1
    have h5 : eval qc (15 / 4 * x⁻¹) / 100000000000000 / 2 + 15 / 4 * x⁻¹ * (evalD qc (15 / 4 * x⁻¹) / 100000000000000) ≤
        big (15 / 4 * x⁻¹) / 2 + 15 / 4 * x⁻¹ * (evalD bgc (15 / 4 * x⁻¹) / 100000000) + 1 / 100000 := by
      generalize 15 / 4 * x⁻¹ = u at *
      rw [big_eq]
      simp only [eval_cons, eval_nil] at hp
      simp only [bgc, qc, evalD, eval_cons, eval_nil]
      push_cast at hp ⊢
      linarith
    have h6 : 0 ≤ 15 / 4 * x⁻¹ * (evalD bgc (15 / 4 * x⁻¹) / 100000000) := by
      refine mul_nonneg hu0 (div_nonneg ?_ (by norm_num))
      have := slope_pos _ hu0 hu1
      generalize 15 / 4 * x⁻¹ = u at *
      simp only [eval_cons, eval_nil] at this
      simp only [bgc, evalD, eval_cons, eval_nil]
      push_cast at this ⊢
      linarith
    rw [e2] at h3
    linarith
  · rw [not_le] at hc
    have h1 := gB'_lower hx
    have h2 : -(x * gB' x) ≤ 1 / 10000 := by
      have e : x * (1 / 10 * (x⁻¹) ^ 2) = 1 / 10 * x⁻¹ := by field_simp
      have h3 : x⁻¹ ≤ 1 / 1000 := by
        rw [inv_le_comm₀ hx0 (by norm_num)]
        norm_num
        exact hc.le
      nlinarith
    have h3 := (abs_le.1 (big_bessel x hx)).1
    have h6 : 0 ≤ 15 / 4 * x⁻¹ * (evalD bgc (15 / 4 * x⁻¹) / 100000000) := by
      refine mul_nonneg hu0 (div_nonneg ?_ (by norm_num))
      have := slope_pos _ hu0 hu1
      generalize 15 / 4 * x⁻¹ = u at *
      simp only [eval_cons, eval_nil] at this
      simp only [bgc, evalD, eval_cons, eval_nil]
      push_cast at this ⊢
      linarith
    linarith

theorem slope_P2 {x y : ℝ} (h0 : 15 / 4 ≤ x) (hxy : x ≤ y) : 999 / 1000 * (pnebi 0 x - pnebi 0 y) ≤ P2 x - P2 y := by
  have := le_of_deriv_nonneg hxy (f := fun z => 999 / 1000 * pnebi 0 z - P2 z)
    (fun z hz => ((hasDerivAt_pnebi_zero z).const_mul _).sub (hasDerivAt_P2 (by linarith [hz.1]))) fun z hz => by
      have hz1 : 15 / 4 ≤ z := h0.trans hz.1
      have hz0 : 0 < z := by linarith
      have h1 := slope_gB hz0
      have h2 := mul_le_mul_of_nonneg_left (slope_two hz1) (show 0 ≤ 2 / (z * √z) by positivity)
      have h3 : pnebi 1 z - pnebi 0 z = -(2 / (z * √z) * (gB z / 2 - z * gB' z)) := by rw [← h1]; ring
      rw [h3]
      linarith
  linarith

/-! ### Both -/

theorem jump : P2 (15 / 4) ≤ P1 (15 / 4) + 1 / 100000000 := by
  obtain ⟨w1, -⟩ := wt_bounds
  have s2 : √(15 / 4) ≤ (19364916732 : ℝ) / 10000000000 := Real.sqrt_le_iff.2 (by norm_num)
  have s1 : (19364916731 : ℝ) / 10000000000 ≤ √(15 / 4) := Real.le_sqrt_of_sq_le (by norm_num)
  have hs : 0 < √(15 / 4 : ℝ) := Real.sqrt_pos.2 (by norm_num)
  rw [P2, P1, div_le_iff₀ hs]
  have e1 : (15 : ℝ) / 4 * (15 / 4)⁻¹ = 1 := by norm_num
  have e2 : (15 / 4 / (15 / 4) : ℝ) ^ 2 = 1 := by norm_num
  rw [e1, e2]
  have e3 : (2 * Real.exp (-(15 / 4)) * small 1 + 1 / 100000000) * √(15 / 4) = 2 * wt (15 / 4) * small 1 + 1 / 100000000 * √(15 / 4) := by
    rw [wt]
    ring
  rw [e3]
  have e4 : small 1 = 91189458 / 10000000 := by norm_num [small]
  have e5 : big 1 = 41529430 / 100000000 := by norm_num [big]
  rw [e4, e5]
  linarith

theorem poly_P1 {x : ℝ} (h0 : 0 ≤ x) (h : x < 15 / 4) : evaluatePnebi0Polynom Spec.real x = P1 x := by
  have := poly_small x (by rwa [abs_of_nonneg h0])
  rw [this, abs_of_nonneg h0]
  rfl

theorem poly_P2 {x : ℝ} (h : 15 / 4 ≤ x) : evaluatePnebi0Polynom Spec.real x = P2 x := by
  have h0 : 0 ≤ x := by linarith
  have := poly_big x (by rwa [abs_of_nonneg h0])
  rw [this, abs_of_nonneg h0]
  rfl

/-- The drop of the polynomial is nearly at least the one of the exact function; across 3.75 the polynomial may rise by 1e-8. -/
theorem poly_drop {x y : ℝ} (h0 : 0 ≤ x) (hxy : x ≤ y) :
    999 / 1000 * (pnebi 0 x - pnebi 0 y) - 1 / 100000000 ≤ evaluatePnebi0Polynom Spec.real x - evaluatePnebi0Polynom Spec.real y ∧
    (y < 15 / 4 ∨ 15 / 4 ≤ x → 999 / 1000 * (pnebi 0 x - pnebi 0 y) ≤ evaluatePnebi0Polynom Spec.real x - evaluatePnebi0Polynom Spec.real y) := by
  rcases lt_or_ge y (15 / 4) with hy | hy
  · have h := slope_P1 h0 hxy hy.le
    rw [poly_P1 h0 (lt_of_le_of_lt hxy hy), poly_P1 (h0.trans hxy) hy]
    exact ⟨by linarith, fun _ => h⟩
  · rcases lt_or_ge x (15 / 4) with hx | hx
    · have h1 := slope_P1 h0 hx.le le_rfl
      have h2 := slope_P2 le_rfl hy
      have h3 := jump
      rw [poly_P1 h0 hx, poly_P2 hy]
      refine ⟨by linarith, fun h => ?_⟩
      rcases h with h | h <;> linarith
    · have h := slope_P2 hx hxy
      rw [poly_P2 hx, poly_P2 hy]
      exact ⟨by linarith, fun _ => h⟩

end Verif.Bessel
