import Verif.FunctionsFp.Pnebi
import Verif.FunctionsFp.LuCos
import Verif.Bessel.Slope
import Verif.TlsFp.Lemmas
import Mathlib.Analysis.Complex.ExponentialBounds

/-! Property theorem C114 (see properties.jsonl): `evaluatePnebi0Polynom` in `double` arithmetic. -/
namespace Verif.FunctionsFp
open Ieee Fp Float.Model

/-- The exponential function of the C library on [-4, 0] has a relative error of at most `δ`. -/
def ExpErr (exp : Dbl → Dbl) (δ : ℝ) : Prop := ∀ y : Dbl, y.Fin → -4 ≤ y.val → y.val ≤ 0 → (exp y).Fin ∧ |(exp y).val - Real.exp y.val| ≤ δ * Real.exp y.val

/-- Full statement of C114: for every finite argument the relative error is at most 5e-7, plus that of `exp`. -/
def C114_statement : Prop := ∀ (exp : Dbl → Dbl) (δ : ℝ), ExpErr exp δ → δ ≤ 1 → ∀ x : Dbl, x.Fin →
  (evaluatePnebi0Polynom exp x).Fin ∧ |(evaluatePnebi0Polynom exp x).val - Bessel.pnebi 0 (|x.val|)| ≤ (5 / 10000000 + 11 / 10 * δ) * Bessel.pnebi 0 (|x.val|)

theorem two_is : (d 20 1).Fin ∧ (d 20 1).val = 2 := by
  have h1 : (d 20 1).x = .finite .positive (2 ^ 52) (-51) (by decide) := by decide +kernel
  unfold Fp.Fin Fp.val
  rw [h1]
  refine ⟨trivial, ?_⟩
  simp only [Ieee.val, sgn]
  norm_num

theorem bound_is : (d 375 2).Fin ∧ (d 375 2).val = 15 / 4 := by
  have h1 : (d 375 2).x = .finite .positive (15 * 2 ^ 49) (-51) (by decide) := by decide +kernel
  unfold Fp.Fin Fp.val
  rw [h1]
  refine ⟨trivial, ?_⟩
  simp only [Ieee.val, sgn]
  norm_num

theorem fabs_is {x : Dbl} (hx : x.Fin) : (if x < d 0 1 then -x else x).Fin ∧ (if x < d 0 1 then -x else x).val = |x.val| := by
  have h := lt_iff hx zero_lit.1
  rw [zero_lit.2] at h
  split
  · rename_i h1
    exact ⟨neg_fin.2 hx, by rw [neg_val, abs_of_neg (h.1 h1)]⟩
  · rename_i h1
    rw [h] at h1
    exact ⟨hx, by rw [abs_of_nonneg (not_lt.1 h1)]⟩

theorem quot_is {y : Dbl} (hy : y.Fin) (h0 : 0 ≤ y.val) : (y / d 375 2).Is (y.val / (15 / 4)) := by
  have hyt : y.val < 2 ^ (top .binary64 + 1) := (le_abs_self _).trans_lt (val_lt y)
  have hw0 : 0 ≤ y.val / (15 / 4) := by positivity
  rw [two_pow_add, zpow_one] at hyt
  have := div_is hy bound_is.1 (by rw [bound_is.2]; norm_num) (by
    rw [bound_is.2, abs_of_nonneg hw0, div_le_iff₀ (by norm_num)]
    have := two_pow_pos (top .binary64)
    linarith)
  rwa [bound_is.2] at this

theorem exp_lower {y : ℝ} (h : y ≤ 15 / 4) : 1 / 100 ≤ Real.exp (-y) := by
  have h1 := Bessel.exp_bounds.2
  have h2 : Real.exp (15 / 4) = Real.exp (15 / 16) ^ 4 := by rw [← Real.exp_nat_mul]; norm_num
  have h3 : Real.exp (15 / 4) ≤ 100 := by
    rw [h2]
    calc Real.exp (15 / 16) ^ 4 ≤ (25535894580630 / 10000000000000) ^ 4 := by gcongr
      _ ≤ 100 := by norm_num
  have h4 : Real.exp y ≤ 100 := (Real.exp_le_exp.2 h).trans h3
  rw [Real.exp_neg, one_div]
  exact inv_anti₀ (Real.exp_pos _) h4

/-- The errors of the last two products. -/
theorem small_arith {E I e p v r δ τ : ℝ} (hE : 1 / 100 ≤ E) (hI : 1 ≤ I) (hδ0 : 0 ≤ δ) (hδ : δ ≤ 1) (hτ : τ ≤ 1 / 2 ^ 70) (h1 : |e - E| ≤ δ * E)
    (h2 : |p - 2 * e| ≤ |2 * e| / 2 ^ 53 + τ) (h3 : |v - I| ≤ 162 / 1000000000) (h4 : |r - p * v| ≤ |p * v| / 2 ^ 53 + τ) :
    |r - 2 * E * I| ≤ (5 / 10000000 + 11 / 10 * δ) * (2 * E * I) := by
  have E0 : 0 < E := by linarith
  have hdE : δ * E ≤ E := by nlinarith
  have k0 : 0 ≤ δ * E := by positivity
  have e1 : |e| ≤ 2 * E := by
    have := abs_sub_abs_le_abs_sub e E
    rw [abs_of_pos E0] at this
    linarith
  rw [abs_mul, abs_of_pos (show (0 : ℝ) < 2 by norm_num)] at h2
  have k1 : |p - 2 * E| ≤ 2 * (δ * E) + 1 / 2 ^ 50 * E := by
    have : p - 2 * E = (p - 2 * e) + 2 * (e - E) := by ring
    rw [this]
    refine (abs_add_le _ _).trans ?_
    rw [abs_mul, abs_of_pos (show (0 : ℝ) < 2 by norm_num)]
    norm_num at h2 hτ ⊢
    linarith
  have k2 : |p| ≤ 5 * E := by
    have := abs_sub_abs_le_abs_sub p (2 * E)
    rw [abs_of_pos (show (0 : ℝ) < 2 * E by linarith)] at this
    norm_num at k1
    linarith
  have k3 : |v| ≤ (1 + 162 / 1000000000) * I := by
    have := abs_sub_abs_le_abs_sub v I
    rw [abs_of_pos (show (0 : ℝ) < I by linarith)] at this
    linarith
  have EI : E ≤ E * I := by nlinarith
  have k4 : |p * v| ≤ 6 * (E * I) := by
    rw [abs_mul]
    calc |p| * |v| ≤ 5 * E * ((1 + 162 / 1000000000) * I) := mul_le_mul k2 k3 (abs_nonneg _) (by positivity)
      _ ≤ _ := by nlinarith
  have k5 : |p * v - 2 * E * I| ≤ (2 * δ + 1 / 2 ^ 50) * (1 + 162 / 1000000000) * (E * I) + 2 * (162 / 1000000000) * (E * I) := by
    have : p * v - 2 * E * I = (p - 2 * E) * v + 2 * E * (v - I) := by ring
    rw [this]
    refine (abs_add_le _ _).trans (add_le_add ?_ ?_)
    · rw [abs_mul]
      calc |p - 2 * E| * |v| ≤ (2 * (δ * E) + 1 / 2 ^ 50 * E) * ((1 + 162 / 1000000000) * I) := mul_le_mul k1 k3 (abs_nonneg _) (by positivity)
        _ = _ := by ring
    · rw [abs_mul, abs_of_pos (show (0 : ℝ) < 2 * E by linarith)]
      calc 2 * E * |v - I| ≤ 2 * E * (162 / 1000000000) := by gcongr
        _ ≤ _ := by linarith
  have k6 : |r - 2 * E * I| ≤ |r - p * v| + |p * v - 2 * E * I| := by
    have := abs_add_le (r - p * v) (p * v - 2 * E * I)
    rwa [sub_add_sub_cancel] at this
  have k7 : 0 ≤ δ * (E * I) := by positivity
  have h5 : |r - p * v| ≤ 6 * (E * I) / 2 ^ 53 + τ := h4.trans (by gcongr)
  have g1 : (2 * δ + 1 / 2 ^ 50) * (1 + 162 / 1000000000) * (E * I) = 2 * (1 + 162 / 1000000000) * (δ * (E * I)) + 1 / 2 ^ 50 * (1 + 162 / 1000000000) * (E * I) := by ring
  have g2 : (5 / 10000000 + 11 / 10 * δ) * (2 * E * I) = 10 / 10000000 * (E * I) + 22 / 10 * (δ * (E * I)) := by ring
  rw [g1] at k5
  rw [g2]
  have k8 : 1 / 100 ≤ E * I := by linarith
  generalize δ * (E * I) = a at *
  generalize E * I = b at *
  norm_num at h5 k5 hτ
  linarith

theorem small_case {exp : Dbl → Dbl} {δ : ℝ} (he : ExpErr exp δ) (hδ : δ ≤ 1) {y : Dbl} (hy : y.Fin) (h0 : 0 ≤ y.val) (h1 : y.val < 15 / 4) :
    (d 20 1 * exp (-y) * pnebiSmall (y / d 375 2 * (y / d 375 2))).Fin ∧
    |(d 20 1 * exp (-y) * pnebiSmall (y / d 375 2 * (y / d 375 2))).val - Bessel.pnebi 0 y.val| ≤ (5 / 10000000 + 11 / 10 * δ) * Bessel.pnebi 0 y.val := by
  have ht := (div_unit hy bound_is.1 h0 (by rw [bound_is.2]; norm_num) (by rw [bound_is.2]; exact h1.le) (by decide) (by decide)).1
  rw [bound_is.2] at ht
  have hv0 : 0 ≤ y.val / (15 / 4) := by positivity
  have hv1 : y.val / (15 / 4) ≤ 1 := (div_le_one (by norm_num)).2 h1.le
  have hv : |y.val / (15 / 4)| ≤ 1 := by rw [abs_of_nonneg hv0]; exact hv1
  have ht2 : Approx (y / d 375 2 * (y / d 375 2)) (y.val / (15 / 4) * (y.val / (15 / 4))) (1 / 2 ^ 50) :=
    ht.mul ht 1 (by decide) (by decide) hv hv (by norm_num [mb]) (by norm_num [mb])
  have hs := pnebiSmall_near ⟨ht2, by rw [abs_mul]; nlinarith [abs_nonneg (y.val / (15 / 4))]⟩
  rw [← sq] at hs
  have hb := Bessel.small_bessel y.val h0 h1.le
  have hI : 1 ≤ Bessel.besselI 0 y.val := by
    rw [Bessel.besselI_eq, pow_zero, one_mul]
    have := Bessel.J_ge 0 1 (y := y.val ^ 2 / 4) (by positivity)
    simpa [Bessel.partialJ] using this
  have hex := he (-y) (neg_fin.2 hy) (by rw [neg_val]; linarith) (by rw [neg_val]; linarith)
  rw [neg_val] at hex
  have hE := exp_lower h1.le
  have hE1 : Real.exp (-y.val) ≤ 1 := by rw [Real.exp_le_one_iff]; linarith
  have hδ0 : 0 ≤ δ := by
    by_contra hc
    have := (abs_nonneg _).trans hex.2
    nlinarith
  have he1 : |(exp (-y)).val| ≤ 2 := by
    have := abs_sub_abs_le_abs_sub (exp (-y)).val (Real.exp (-y.val))
    rw [abs_of_pos (Real.exp_pos _)] at this
    have h3 : δ * Real.exp (-y.val) ≤ 1 * 1 := mul_le_mul hδ hE1 (Real.exp_pos _).le (by norm_num)
    linarith [hex.2]
  have hp := mul_rel two_is.1 hex.1 (by
    rw [two_is.2, abs_mul, abs_of_pos (show (0 : ℝ) < 2 by norm_num)]
    exact le_trans (by norm_num; linarith : _ ≤ (2 : ℝ) ^ (2 : ℤ)) (two_pow_le (by decide)))
  have hp1 : |(d 20 1 * exp (-y)).val| ≤ 8 := by
    have := abs_sub_abs_le_abs_sub (d 20 1 * exp (-y)).val ((d 20 1).val * (exp (-y)).val)
    have h5 : |(d 20 1).val * (exp (-y)).val| ≤ 4 := by
      rw [two_is.2, abs_mul, abs_of_pos (show (0 : ℝ) < 2 by norm_num)]
      linarith
    have h6 : |(d 20 1).val * (exp (-y)).val| / 2 ^ (Format.binary64.mantissaBits : ℤ) ≤ 1 := by
      rw [mb.1, div_le_one (by positivity)]
      exact h5.trans (by norm_num)
    have h7 : (2 : ℝ) ^ (Format.binary64.minExponent - 1) ≤ 2 ^ (0 : ℤ) := two_pow_le (by decide)
    rw [zpow_zero] at h7
    linarith [hp.2]
  have hs1 := hs.1.abs_le hs.2
  have hr := mul_rel hp.1 hs.1.1 (by
    rw [abs_mul]
    refine le_trans (mul_le_mul hp1 hs1 (abs_nonneg _) (by norm_num)) (le_trans ?_ (two_pow_le (show (10 : ℤ) ≤ top .binary64 by decide)))
    norm_num)
  refine ⟨hr.1, ?_⟩
  unfold Bessel.pnebi
  refine small_arith (e := (exp (-y)).val) (p := (d 20 1 * exp (-y)).val) (v := (pnebiSmall (y / d 375 2 * (y / d 375 2))).val)
    (τ := 2 ^ (Format.binary64.minExponent - 1)) hE hI hδ0 hδ ?_ hex.2 ?_ ?_ ?_
  · calc (2 : ℝ) ^ (Format.binary64.minExponent - 1) ≤ 2 ^ (-70 : ℤ) := two_pow_le (by decide)
      _ = 1 / 2 ^ 70 := by norm_num
  · have := hp.2
    rw [two_is.2, mb.1] at this
    exact_mod_cast this
  · have := abs_add_le ((pnebiSmall (y / d 375 2 * (y / d 375 2))).val - Bessel.small ((y.val / (15 / 4)) ^ 2)) (Bessel.small ((y.val / (15 / 4)) ^ 2) - Bessel.besselI 0 y.val)
    rw [sub_add_sub_cancel] at this
    have h8 := hs.1.2
    norm_num at h8 ⊢
    linarith
  · have := hr.2
    rw [mb.1] at this
    exact_mod_cast this

/-- Close to 3.75 the function varies little. -/
theorem gB_close {y : ℝ} (h0 : 3 ≤ y) (h1 : 15 / 4 - 1 / 2 ^ 50 ≤ y) : |Bessel.gB (max y (15 / 4)) - Bessel.gB y| ≤ 1 / 2 ^ 47 := by
  rcases le_total (15 / 4) y with h | h
  · rw [max_eq_left h, sub_self, abs_zero]
    positivity
  · rw [max_eq_right h]
    have hd := Bessel.pnebi_drop h
    have ha := Bessel.pnebi_slope_anti (show (0 : ℝ) ≤ y by linarith)
    have hp0 : Bessel.pnebi 0 0 = 2 := by
      rw [Bessel.pnebi, Bessel.besselI_eq, Bessel.J, tsum_eq_single 0 (by intro m hm; simp [hm])]
      norm_num
    have hp1 : 0 ≤ Bessel.pnebi 1 0 := by
      unfold Bessel.pnebi Bessel.besselI
      have : 0 ≤ ∑' m : ℕ, ((0 : ℝ) / 2) ^ (2 * m + 1) / (m.factorial * (m + 1).factorial : ℝ) := tsum_nonneg fun m => by positivity
      positivity
    have hs := Bessel.pnebi_slope_nonneg y
    have hm : Bessel.pnebi 0 y ≤ 2 := by
      have := Bessel.pnebi_change 0 (show (0 : ℝ) ≤ y by linarith)
      rw [hp0] at this
      linarith [(abs_nonneg _).trans this]
    have hq : Bessel.pnebi 0 y - Bessel.pnebi 0 (15 / 4) ≤ 2 / 2 ^ 50 := by
      refine hd.2.trans ?_
      calc (Bessel.pnebi 0 y - Bessel.pnebi 1 y) * (15 / 4 - y) ≤ 2 * (1 / 2 ^ 50) := mul_le_mul (by linarith) (by linarith) (by linarith) (by norm_num)
        _ = _ := by ring
    have hq0 : 0 ≤ Bessel.pnebi 0 y - Bessel.pnebi 0 (15 / 4) := (abs_nonneg _).trans (Bessel.pnebi_change 0 h)
    have hy0 : 0 < y := by linarith
    have e1 : Bessel.gB y = √y * Bessel.pnebi 0 y / 2 := by
      have := Real.sqrt_pos.2 hy0
      rw [Bessel.pnebi_gB hy0]
      field_simp
    have e2 : Bessel.gB (15 / 4) = √(15 / 4) * Bessel.pnebi 0 (15 / 4) / 2 := by
      have := Real.sqrt_pos.2 (show (0 : ℝ) < 15 / 4 by norm_num)
      rw [Bessel.pnebi_gB (by norm_num)]
      field_simp
    rw [e1, e2]
    have s1 : √y ≤ √(15 / 4) := Real.sqrt_le_sqrt h
    have s2 : 1 ≤ √y := Real.one_le_sqrt.2 (by linarith)
    have s3 : √(15 / 4) ≤ 2 := by
      rw [Real.sqrt_le_left (by norm_num)]
      norm_num
    have s4 : √(15 / 4) - √y ≤ 1 / 2 ^ 50 := by
      have a1 := Real.sq_sqrt (show (0 : ℝ) ≤ 15 / 4 by norm_num)
      have a2 := Real.sq_sqrt hy0.le
      nlinarith
    have hm0 : 0 ≤ Bessel.pnebi 0 (15 / 4) := by
      unfold Bessel.pnebi Bessel.besselI
      have : 0 ≤ ∑' m : ℕ, ((15 / 4 : ℝ) / 2) ^ (2 * m + 0) / (m.factorial * (m + 0).factorial : ℝ) := tsum_nonneg fun m => by positivity
      positivity
    generalize √(15 / 4 : ℝ) = S at *
    generalize √y = T at *
    generalize Bessel.pnebi 0 (15 / 4) = P at *
    generalize Bessel.pnebi 0 y = Q at *
    have b1 : S * P / 2 - T * Q / 2 = (S - T) * P / 2 - T * (Q - P) / 2 := by ring
    rw [b1, abs_le]
    have b2 : (S - T) * P ≤ 1 / 2 ^ 50 * 2 := mul_le_mul s4 (by linarith) hm0 (by positivity)
    have b3 : T * (Q - P) ≤ 2 * (2 / 2 ^ 50) := mul_le_mul (by linarith) hq hq0 (by norm_num)
    have b4 : 0 ≤ (S - T) * P := mul_nonneg (by linarith) hm0
    have b5 : 0 ≤ T * (Q - P) := mul_nonneg (by linarith) hq0
    constructor <;> norm_num at b2 b3 ⊢ <;> linarith

/-- The errors of the quotient by the root. -/
theorem big_arith {g S q s r τ : ℝ} (hg : 39879 / 100000 ≤ g) (hS : 0 < S) (hq : |q - 2 * g| ≤ 389 / 1000000000) (hs : |s - S| ≤ S / 2 ^ 53)
    (hr : |r - q / s| ≤ |q / s| / 2 ^ 53 + τ) (hτ : τ ≤ 1 / 2 ^ 50 * (2 * g / S)) : |r - 2 * g / S| ≤ 5 / 10000000 * (2 * g / S) := by
  have hs0 : (1 - 1 / 2 ^ 53) * S ≤ s := by
    have := (abs_le.1 hs).1
    linarith
  have s0 : 0 < s := lt_of_lt_of_le (by norm_num; exact hS) hs0
  have hR : 0 < 2 * g / S := by positivity
  have e1 : q / s - 2 * g / S = ((q - 2 * g) + 2 * g * ((S - s) / S)) / s := by
    field_simp
    ring
  have e2 : |(S - s) / S| ≤ 1 / 2 ^ 53 := by
    rw [abs_div, abs_of_pos hS, div_le_iff₀ hS, abs_sub_comm]
    linarith
  have e3 : |(q - 2 * g) + 2 * g * ((S - s) / S)| ≤ 2 * g * (4878 / 10000000000) := by
    refine (abs_add_le _ _).trans ?_
    rw [abs_mul, abs_of_pos (show (0 : ℝ) < 2 * g by linarith)]
    have : 2 * g * |(S - s) / S| ≤ 2 * g * (1 / 2 ^ 53) := by gcongr
    norm_num at this
    linarith
  have e4 : |q / s - 2 * g / S| ≤ 4879 / 10000000000 * (2 * g / S) := by
    rw [e1, abs_div, abs_of_pos s0, div_le_iff₀ s0]
    refine e3.trans ?_
    have : 2 * g / S * ((1 - 1 / 2 ^ 53) * S) ≤ 2 * g / S * s := by gcongr
    have h2 : 2 * g / S * ((1 - 1 / 2 ^ 53) * S) = 2 * g * (1 - 1 / 2 ^ 53) := by field_simp
    rw [h2] at this
    norm_num at this
    linarith
  have e5 : |q / s| ≤ 2 * (2 * g / S) := by
    have := abs_sub_abs_le_abs_sub (q / s) (2 * g / S)
    rw [abs_of_pos hR] at this
    linarith
  have e6 : |r - 2 * g / S| ≤ |r - q / s| + |q / s - 2 * g / S| := by
    have := abs_add_le (r - q / s) (q / s - 2 * g / S)
    rwa [sub_add_sub_cancel] at this
  have e7 : |r - q / s| ≤ 2 * (2 * g / S) / 2 ^ 53 + τ := hr.trans (by gcongr)
  norm_num at e7 hτ
  generalize 2 * g / S = R at *
  linarith

theorem big_case {y : Dbl} (hy : y.Fin) (h0 : 0 ≤ y.val) (h1 : ¬ y / d 375 2 < d 10 1) :
    (d 20 1 * pnebiBig (d 10 1 / (y / d 375 2)) / Fp.sqrt y).Fin ∧
    |(d 20 1 * pnebiBig (d 10 1 / (y / d 375 2)) / Fp.sqrt y).val - Bessel.pnebi 0 y.val| ≤ 5 / 10000000 * Bessel.pnebi 0 y.val := by
  have hyt : y.val < 2 ^ (1024 : ℤ) := (le_abs_self _).trans_lt (val_lt y)
  have hw0 : 0 ≤ y.val / (15 / 4) := by positivity
  have ht := quot_is hy h0
  rw [lt_iff ht.1 one_is.1, one_is.2, not_lt] at h1
  generalize y / d 375 2 = t at *
  have tiny : ∀ k : ℕ, k ≤ 1000 → (2 : ℝ) ^ (Format.binary64.minExponent - 1) ≤ 1 / 2 ^ k := by
    intro k hk
    calc (2 : ℝ) ^ (Format.binary64.minExponent - 1) ≤ 2 ^ (-(k : ℤ)) := two_pow_le (by
          have : Format.binary64.minExponent - 1 = -1075 := rfl
          omega)
      _ = 1 / 2 ^ k := by rw [zpow_neg, zpow_natCast, one_div]
  -- the quotient
  have hrel : |t.val - y.val / (15 / 4)| ≤ 1 / 2 ^ 52 * (y.val / (15 / 4)) := by
    rcases ht.2.rel with h | h
    · rw [abs_of_nonneg hw0, mb.1] at h
      refine h.trans ?_
      rw [show (2 : ℝ) ^ (53 : ℤ) = 2 ^ 53 by norm_cast, div_eq_mul_inv, mul_comm]
      refine mul_le_mul_of_nonneg_right (by norm_num) hw0
    · have h2 := h.trans (tiny 60 (by norm_num))
      have h2' : |t.val - y.val / (15 / 4)| ≤ 1 / 2 ^ 60 := h2
      have h3 := (abs_le.1 h2').2
      norm_num at h3 h2' ⊢
      linarith
  obtain ⟨w, hw⟩ : ∃ w, w = y.val / (15 / 4) := ⟨_, rfl⟩
  have hyw : y.val = 15 / 4 * w := by rw [hw]; ring
  rw [← hw] at hrel hw0
  have hw1 : 1 - 1 / 2 ^ 52 ≤ w := by
    have := (abs_le.1 hrel).2
    norm_num at this ⊢
    linarith
  have hy3 : 3 ≤ y.val := by
    rw [hyw]
    norm_num at hw1
    linarith
  have hyc : 15 / 4 - 1 / 2 ^ 50 ≤ y.val := by
    rw [hyw]
    norm_num at hw1 ⊢
    linarith
  -- its inverse
  have hi := (div_unit (a := d 10 1) (b := t) one_is.1 ht.1 (by rw [one_is.2]; norm_num) (by linarith) (by rw [one_is.2]; exact h1) (by decide) (by decide)).1
  rw [one_is.2] at hi
  have hmax : (1 : ℝ) ≤ max w 1 := le_max_right _ _
  have hm : |1 / t.val - 1 / max w 1| ≤ 1 / 2 ^ 52 := by
    have t0 : 0 < t.val := by linarith
    have m0 : 0 < max w 1 := by linarith
    have h2 : |max w 1 - t.val| ≤ 1 / 2 ^ 52 * max w 1 := by
      have := abs_max_sub_max_le_abs w t.val 1
      rw [max_eq_left h1, abs_sub_comm w] at this
      refine this.trans (hrel.trans ?_)
      gcongr
      exact le_max_left _ _
    rw [div_sub_div _ _ t0.ne' m0.ne', abs_div, abs_of_pos (mul_pos t0 m0), div_le_iff₀ (mul_pos t0 m0), one_mul, mul_one]
    refine h2.trans ?_
    have : max w 1 ≤ t.val * max w 1 := by nlinarith
    gcongr
  have hu : Near (d 10 1 / t) (1 / max w 1) (1 / 2 ^ 50) 1 := by
    refine ⟨(hi.trans hm).weaken (by norm_num [mb]), ?_⟩
    rw [abs_of_pos (by positivity), div_le_one (by linarith)]
    exact hmax
  have hb := pnebiBig_near hu
  generalize pnebiBig (d 10 1 / t) = v at *
  have hx' : max y.val (15 / 4) = 15 / 4 * max w 1 := by
    rw [hyw, mul_max_of_nonneg _ _ (by norm_num), mul_one]
  have hbb := Bessel.big_bessel (max y.val (15 / 4)) (le_max_right _ _)
  have hinv : 15 / 4 * (max y.val (15 / 4))⁻¹ = 1 / max w 1 := by
    rw [hx']
    field_simp
  rw [hinv] at hbb
  have hlow := Bessel.big_lower (1 / max w 1) (by positivity) (by rw [div_le_one (by linarith)]; exact hmax)
  have hgc := gB_close hy3 hyc
  have hvg : |v.val - Bessel.gB y.val| ≤ 1942 / 10000000000 := by
    have a1 := abs_le.1 hb.1.2
    have a2 := abs_le.1 hbb
    have a3 := abs_le.1 hgc
    rw [abs_le]
    norm_num at a1 a2 a3 ⊢
    constructor <;> linarith [a1.1, a1.2, a2.1, a2.2, a3.1, a3.2]
  have hg : 39879 / 100000 ≤ Bessel.gB y.val := by
    have a2 := abs_le.1 hbb
    have a3 := abs_le.1 hgc
    norm_num at a2 a3 hlow ⊢
    linarith [a2.1, a2.2, a3.1, a3.2]
  -- the result
  have hv1 : |v.val| ≤ 2 := (hb.1.abs_le hb.2).trans (by norm_num)
  have hq := mul_is two_is.1 hb.1.1 (by
    rw [two_is.2, abs_mul, abs_of_pos (show (0 : ℝ) < 2 by norm_num)]
    exact le_trans (by norm_num; linarith : _ ≤ (2 : ℝ) ^ (2 : ℤ)) (two_pow_le (by decide)))
  rw [two_is.2] at hq
  have hq2 : |(d 20 1 * v).val - 2 * v.val| ≤ 1 / 2 ^ 52 := by
    have := hq.2.err (k := 2) (by decide) (by
      rw [abs_mul, abs_of_pos (show (0 : ℝ) < 2 by norm_num)]
      norm_num
      linarith)
    rw [mb.1] at this
    exact this.trans (by norm_num)
  have hq3 : |(d 20 1 * v).val - 2 * Bessel.gB y.val| ≤ 389 / 1000000000 := by
    have a1 := abs_le.1 hq2
    have a2 := abs_le.1 hvg
    rw [abs_le]
    norm_num at a1 a2 ⊢
    constructor <;> linarith [a1.1, a1.2, a2.1, a2.2]
  generalize d 20 1 * v = q at *
  have hS1 : 1 ≤ √y.val := Real.one_le_sqrt.2 (by linarith)
  have hS2 : √y.val ≤ 2 ^ (512 : ℤ) := by
    rw [Real.sqrt_le_left (by positivity), ← zpow_natCast, ← zpow_mul]
    exact hyt.le
  have hs := sqrt_is hy h0 (hS2.trans (two_pow_le (by decide)))
  have hs2 : |(Fp.sqrt y).val - √y.val| ≤ √y.val / 2 ^ 53 := by
    rcases hs.2.rel with h | h
    · rw [abs_of_nonneg (Real.sqrt_nonneg _), mb.1] at h
      exact_mod_cast h
    · refine h.trans ((tiny 53 (by norm_num)).trans ?_)
      gcongr
  have hsl : 1 / 2 ≤ (Fp.sqrt y).val := by
    have := (abs_le.1 hs2).1
    norm_num at this
    linarith
  have hqa : |q.val| ≤ 5 := by
    have a2 := abs_le.1 hvg
    have a3 := abs_le.1 hv1
    have a1 := abs_le.1 hq3
    rw [abs_le]
    constructor <;> linarith [a1.1, a1.2, a2.1, a2.2, a3.1, a3.2]
  have hr := div_is hq.1 hs.1 (by linarith) (by
    rw [abs_div, abs_of_pos (show 0 < (Fp.sqrt y).val by linarith), div_le_iff₀ (by linarith)]
    have : (2 : ℝ) ^ (4 : ℤ) ≤ 2 ^ top .binary64 := two_pow_le (by decide)
    norm_num at this
    nlinarith)
  refine ⟨hr.1, ?_⟩
  rw [Bessel.pnebi_gB (by linarith)]
  have hR : (2 : ℝ) ^ (-600 : ℤ) ≤ 2 * Bessel.gB y.val / √y.val := by
    rw [le_div_iff₀ (by linarith)]
    calc (2 : ℝ) ^ (-600 : ℤ) * √y.val ≤ 2 ^ (-600 : ℤ) * 2 ^ (512 : ℤ) := by gcongr
      _ = 2 ^ (-88 : ℤ) := by rw [← two_pow_add]; norm_num
      _ ≤ 2 * Bessel.gB y.val := by norm_num; linarith
  refine big_arith (q := q.val) (s := (Fp.sqrt y).val) (τ := 2 ^ (Format.binary64.minExponent - 1)) hg (by linarith) hq3 hs2 ?_ ?_
  · rcases hr.2.rel with h | h
    · rw [mb.1] at h
      refine (le_of_eq_of_le rfl h).trans ?_
      have := two_pow_pos (Format.binary64.minExponent - 1)
      rw [show (2 : ℝ) ^ (53 : ℤ) = 2 ^ 53 by norm_cast]
      linarith
    · refine (le_of_eq_of_le rfl h).trans ?_
      have : 0 ≤ |q.val / (Fp.sqrt y).val| / 2 ^ 53 := by positivity
      linarith
  · calc (2 : ℝ) ^ (Format.binary64.minExponent - 1) ≤ 2 ^ (-50 + -600 : ℤ) := two_pow_le (by decide)
      _ = 1 / 2 ^ 50 * 2 ^ (-600 : ℤ) := by rw [two_pow_add]; norm_num
      _ ≤ _ := by gcongr

theorem pnebi_pos (y : ℝ) (h : 0 ≤ y) : 0 ≤ Bessel.pnebi 0 y := by
  unfold Bessel.pnebi Bessel.besselI
  have : 0 ≤ ∑' m : ℕ, (y / 2) ^ (2 * m + 0) / (m.factorial * (m + 0).factorial : ℝ) := tsum_nonneg fun m => by positivity
  positivity

/-- C114. -/
theorem C114_accuracy : C114_statement := by
  intro exp δ he hδ x hx
  obtain ⟨hy, hv⟩ := fabs_is hx
  unfold evaluatePnebi0Polynom
  dsimp only
  generalize (if x < d 0 1 then -x else x) = y at hy hv
  have h0 : 0 ≤ y.val := by rw [hv]; positivity
  rw [← hv]
  split_ifs with h
  · refine small_case he hδ hy h0 ?_
    by_contra hc
    rw [not_lt] at hc
    have ht := quot_is hy h0
    rw [lt_iff ht.1 one_is.1, one_is.2] at h
    have := ht.2.mono_ge (grid_two_pow (spec := .binary64) (k := 0) (by decide)) (by rw [zpow_zero, le_div_iff₀ (by norm_num)]; linarith)
    rw [zpow_zero] at this
    exact absurd h (not_lt.2 this)
  · obtain ⟨h1, h2⟩ := big_case hy h0 h
    refine ⟨h1, h2.trans ?_⟩
    have hp := pnebi_pos y.val h0
    have hδ0 : 0 ≤ δ := by
      have := he (d 0 1) zero_lit.1 (by rw [zero_lit.2]; norm_num) (by rw [zero_lit.2])
      have := (abs_nonneg _).trans this.2
      rw [zero_lit.2, Real.exp_zero, mul_one] at this
      exact this
    gcongr
    linarith

/-- C114: a NaN gives a NaN. -/
theorem C114_nan (exp : Dbl → Dbl) (x : Dbl) (hx : x.NaN) : (evaluatePnebi0Polynom exp x).NaN := by
  unfold evaluatePnebi0Polynom
  dsimp only
  have h1 : (x / d 375 2).NaN := NaN.div (Or.inl hx)
  rw [if_neg (NaN.not_lt (Or.inl hx)), if_neg (NaN.not_lt (Or.inl h1))]
  have h2 : (d 10 1 / (x / d 375 2)).NaN := NaN.div (Or.inr h1)
  exact NaN.div (Or.inl (NaN.mul (Or.inr (NaN.add (Or.inr (NaN.mul (Or.inl h2)))))))

/-- C114: an infinite argument gives the limit 0. -/
theorem C114_inf (exp : Dbl → Dbl) (x : Dbl) (hx : Inf x) : evaluatePnebi0Polynom exp x = d 0 1 := by
  have key : ∀ y : Dbl, y.x = .infinity .positive → ¬ y / d 375 2 < d 10 1 ∧ d 20 1 * pnebiBig (d 10 1 / (y / d 375 2)) / Fp.sqrt y = d 0 1 := by
    intro y hy
    obtain rfl : y = ⟨.infinity .positive, trivial⟩ := Fp.ext hy
    constructor <;> decide +kernel
  unfold evaluatePnebi0Polynom
  dsimp only
  obtain ⟨s, hs⟩ := hx
  have hy : (if x < d 0 1 then -x else x).x = .infinity .positive := by
    obtain rfl : x = ⟨.infinity s, trivial⟩ := Fp.ext hs
    cases s <;> decide +kernel
  generalize (if x < d 0 1 then -x else x) = y at hy
  obtain ⟨h1, h2⟩ := key y hy
  rw [if_neg h1, h2]

/-- There are functions `exp` as required. -/
theorem expErr_exists : ∃ exp : Dbl → Dbl, ExpErr exp (1 / 10 ^ 12) := by
  refine ⟨fun y => d ⌊Real.exp y.val * 10 ^ 15⌋₊ 15, fun y hy h0 h1 => ?_⟩
  dsimp only
  have e1 : Real.exp y.val ≤ 1 := Real.exp_le_one_iff.2 h1
  have e2 : 1 / 100 ≤ Real.exp y.val := by
    have h2 : Real.exp (-4) = Real.exp (-1) ^ 4 := by rw [← Real.exp_nat_mul]; norm_num
    have h3 := Real.exp_neg_one_gt_d9
    calc (1 / 100 : ℝ) ≤ (0.36787944116 : ℝ) ^ 4 := by norm_num
      _ ≤ Real.exp (-1) ^ 4 := by gcongr
      _ = Real.exp (-4) := h2.symm
      _ ≤ _ := Real.exp_le_exp.2 h0
  generalize Real.exp y.val = E at *
  have f1 := Nat.floor_le (show 0 ≤ E * 10 ^ 15 by positivity)
  have f2 := Nat.lt_floor_add_one (E * 10 ^ 15)
  generalize ⌊E * 10 ^ 15⌋₊ = n at *
  have hn : n ≠ 0 := by
    rintro rfl
    norm_num at f2
    linarith
  have := approx_lit (spec := .binary64) (m := n) (k := 15) 0 hn (by norm_num) (by decide) (by decide) (by decide) (by
    rw [div_le_iff₀ (by positivity)]
    rw [zpow_zero]
    refine f1.trans ?_
    gcongr)
  refine ⟨this.1, ?_⟩
  have h3 : |(d n 15).val - n / 10 ^ 15| ≤ _ := this.2
  rw [mb.1, abs_le] at h3
  rw [abs_le]
  generalize (d n 15).val = r at *
  have h4 : (n : ℝ) = n / 10 ^ 15 * 10 ^ 15 := by field_simp
  generalize (n : ℝ) / 10 ^ 15 = q at *
  norm_num at h3 f1 f2 h4 ⊢
  constructor <;> linarith [h3.1, h3.2]

-- the value at 4, in the branch of the large arguments, the exact value is 0.414003842…
example (exp : Dbl → Dbl) : d 4140038504 10 < evaluatePnebi0Polynom exp (-d 40 1) ∧ evaluatePnebi0Polynom exp (-d 40 1) < d 4140038505 10 := by
  have h : -d 40 1 < d 0 1 := by decide +kernel
  have h1 : ¬ - -d 40 1 / d 375 2 < d 10 1 := by decide +kernel
  unfold evaluatePnebi0Polynom
  dsimp only
  rw [if_pos h, if_neg h1]
  decide +kernel

end Verif.FunctionsFp
