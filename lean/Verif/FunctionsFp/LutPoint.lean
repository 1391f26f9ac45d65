import Verif.FunctionsFp.LutModel
import Verif.FunctionsFp.PnebiVectorProps
import Verif.Bessel.LutProps

/-! The points of the look-up table of PNEBI in `double` arithmetic. -/
namespace Verif.FunctionsFp
open Verif Ieee Fp Float.Model

theorem derivMax_is : derivMax.Fin ∧ derivMax.val = -(10 * 2 ^ (-1022 : ℤ)) := by
  have h1 : derivMax.x = .finite .negative (5 * 2 ^ 50) (-1071) (by decide) := by decide +kernel
  unfold Fp.Fin Fp.val
  rw [h1]
  refine ⟨trivial, ?_⟩
  simp only [Ieee.val, sgn]
  rw [show (-1022 : ℤ) = 49 + -1071 by norm_num, two_pow_add]
  norm_num
  ring

/-! ### The polynomial -/

/-- The numbers of the format between 2 and 4 are multiples of 2^-51. -/
theorem below_bound {y : Dbl} (h0 : 2 ≤ y.val) (h1 : y.val < 15 / 4) : y.val ≤ 15 / 4 - 1 / 2 ^ 51 := by
  obtain ⟨q, u, hq, hu, e⟩ := y.grid
  rw [mb.1] at hq
  have hp := two_pow_pos u
  have hu1 : -52 ≤ u := by
    by_contra hc
    have h2 : (2 : ℝ) ^ u ≤ 2 ^ (-53 : ℤ) := two_pow_le (by omega)
    have h3 : y.val ≤ 2 ^ (53 : ℤ) * 2 ^ (-53 : ℤ) := by
      rw [e]
      exact mul_le_mul ((le_abs_self _).trans hq) h2 hp.le (two_pow_pos _).le
    rw [← two_pow_add] at h3
    norm_num at h3
    linarith
  have key : ∃ z : ℤ, y.val * 2 ^ 51 = z := by
    rcases eq_or_lt_of_le hu1 with h | h
    · -- the largest mantissa is the power of two
      subst_vars
      have h2 : (2 : ℝ) ^ (53 : ℤ) ≤ q := by
        rw [e, show (-52 : ℤ) = 1 - 53 by norm_num, two_pow_sub] at h0
        norm_num at h0 ⊢
        linarith
      have h3 : (q : ℝ) = 2 ^ (53 : ℤ) := le_antisymm ((le_abs_self _).trans hq) h2
      refine ⟨2 ^ 52, ?_⟩
      rw [e, h3]
      norm_num
    · refine ⟨q * 2 ^ (u + 51).toNat, ?_⟩
      rw [e]
      push_cast
      rw [mul_assoc]
      congr 1
      rw [← zpow_natCast, ← zpow_natCast, Int.toNat_of_nonneg (by omega), ← two_pow_add]
      norm_num
  obtain ⟨z, hz⟩ := key
  have h2 : (z : ℝ) < 15 * 2 ^ 49 := by
    rw [← hz]
    norm_num
    linarith
  have h3 : z ≤ 15 * 2 ^ 49 - 1 := by
    have : z < 15 * 2 ^ 49 := by exact_mod_cast h2
    omega
  have h4 : (z : ℝ) ≤ 15 * 2 ^ 49 - 1 := by exact_mod_cast h3
  rw [← hz] at h4
  norm_num at h4 ⊢
  linarith

/-- The branch is the one of the exact polynomial. -/
theorem branch_iff {y : Dbl} (hy : y.Fin) (h0 : 0 ≤ y.val) : y / d 375 2 < d 10 1 ↔ y.val < 15 / 4 := by
  have ht := quot_is hy h0
  rw [lt_iff ht.1 one_is.1, one_is.2]
  constructor
  · intro h
    by_contra hc
    rw [not_lt] at hc
    have := ht.2.mono_ge (grid_two_pow (spec := .binary64) (k := 0) (by decide)) (by rw [zpow_zero, le_div_iff₀ (by norm_num)]; linarith)
    rw [zpow_zero] at this
    exact absurd h (not_lt.2 this)
  · intro h
    have hb : y.val ≤ 15 / 4 - 1 / 2 ^ 51 := by
      rcases le_or_gt 2 y.val with h2 | h2
      · exact below_bound h2 h
      · norm_num
        linarith
    have := ht.2.mono_le (z := 1 - 1 / 2 ^ 53) ⟨2 ^ 53 - 1, -53, by rw [mb.1]; norm_num, by decide, by norm_num⟩ (by
      rw [div_le_iff₀ (by norm_num)]
      norm_num at hb ⊢
      linarith)
    refine lt_of_le_of_lt this ?_
    norm_num

theorem small_arith2 {E I e p v r τ : ℝ} (hE : 1 / 100 ≤ E) (hI : 1 ≤ I) (hτ : τ ≤ 1 / 2 ^ 70) (h1 : |e - E| ≤ 1 / 10 ^ 12 * E)
    (h2 : |p - 2 * e| ≤ |2 * e| / 2 ^ 53 + τ) (h3 : |v - I| ≤ 1 / 2 ^ 42) (h4 : |r - p * v| ≤ |p * v| / 2 ^ 53 + τ) :
    |r - 2 * E * I| ≤ 2 / 10 ^ 12 * (2 * E * I) := by
  have e1 := abs_le.1 h1
  have he : 0 ≤ 2 * e := by norm_num at e1; linarith
  rw [abs_of_nonneg he] at h2
  have a1 : |p - 2 * E| ≤ 2 * E * (10005 / 10 ^ 16) := by
    have := abs_le.1 h2
    rw [abs_le]
    norm_num at this e1 hτ ⊢
    constructor <;> linarith
  have v1 := abs_le.1 h3
  have p1 := abs_le.1 a1
  have hp : 0 ≤ p := by norm_num at p1; linarith
  have hv : 0 ≤ v := by norm_num at v1; linarith
  have hvI : v ≤ I * (1 + 1 / 2 ^ 42) := by norm_num at v1 ⊢; linarith
  have hpE : p ≤ 2 * E * (1 + 10005 / 10 ^ 16) := by linarith
  have hEI : 0 ≤ 2 * E * I := by nlinarith
  have k1 : |p * v - 2 * E * I| ≤ 2 * E * I * (124 / 10 ^ 14) := by
    have : p * v - 2 * E * I = (p - 2 * E) * v + 2 * E * (v - I) := by ring
    rw [this]
    refine (abs_add_le _ _).trans ?_
    rw [abs_mul, abs_mul, abs_of_nonneg hv, abs_of_nonneg (show 0 ≤ 2 * E by linarith)]
    have b1 : |p - 2 * E| * v ≤ 2 * E * (10005 / 10 ^ 16) * (I * (1 + 1 / 2 ^ 42)) := mul_le_mul a1 hvI hv (by positivity)
    have b2 : 2 * E * |v - I| ≤ 2 * E * (1 / 2 ^ 42 * I) := mul_le_mul_of_nonneg_left (h3.trans (by norm_num; linarith)) (by linarith)
    refine (add_le_add b1 b2).trans ?_
    rw [show 2 * E * (10005 / 10 ^ 16) * (I * (1 + 1 / 2 ^ 42)) + 2 * E * (1 / 2 ^ 42 * I) = 2 * E * I * (10005 / 10 ^ 16 * (1 + 1 / 2 ^ 42) + 1 / 2 ^ 42) by ring]
    exact mul_le_mul_of_nonneg_left (by norm_num) hEI
  have k2 : |p * v| ≤ 2 * (2 * E * I) := by
    have := abs_sub_abs_le_abs_sub (p * v) (2 * E * I)
    rw [abs_of_nonneg hEI] at this
    norm_num at k1
    linarith
  have k3 : |r - p * v| ≤ 2 * (2 * E * I) / 2 ^ 53 + τ := h4.trans (by gcongr)
  have k4 := abs_add_le (r - p * v) (p * v - 2 * E * I)
  rw [sub_add_sub_cancel] at k4
  have k5 : 2 / 100 ≤ 2 * E * I := by nlinarith
  generalize 2 * E * I = W at *
  norm_num at k1 k3 hτ ⊢
  linarith

theorem big_arith2 {g S q s r τ : ℝ} (hg : 3989 / 10000 ≤ g) (hS : 0 < S) (hq : |q - 2 * g| ≤ 11 / 10 ^ 13) (hs : |s - S| ≤ S / 2 ^ 53)
    (hr : |r - q / s| ≤ |q / s| / 2 ^ 53 + τ) (hτ : τ ≤ 1 / 2 ^ 50 * (2 * g / S)) : |r - 2 * g / S| ≤ 2 / 10 ^ 12 * (2 * g / S) := by
  have hs0 : (1 - 1 / 2 ^ 53) * S ≤ s := by
    have := (abs_le.1 hs).1
    linarith
  have s0 : 0 < s := lt_of_lt_of_le (by norm_num; exact hS) hs0
  have hR : 0 < 2 * g / S := by positivity
  have e1 : q / s - 2 * g / S = ((q - 2 * g) + 2 * g * ((S - s) / S)) / s := by
    field_simp
    ring
  have e2 : |(S - s) / S| ≤ 1 / 2 ^ 53 := by
    rw [abs_div, abs_of_pos hS, div_le_iff₀ hS, abs_sub_comm]
    linarith
  have e3 : |(q - 2 * g) + 2 * g * ((S - s) / S)| ≤ 2 * g * (14 / 10 ^ 13) := by
    refine (abs_add_le _ _).trans ?_
    rw [abs_mul, abs_of_pos (show (0 : ℝ) < 2 * g by linarith)]
    have : 2 * g * |(S - s) / S| ≤ 2 * g * (1 / 2 ^ 53) := by gcongr
    norm_num at this hq ⊢
    linarith
  have e4 : |q / s - 2 * g / S| ≤ 15 / 10 ^ 13 * (2 * g / S) := by
    rw [e1, abs_div, abs_of_pos s0, div_le_iff₀ s0]
    refine e3.trans ?_
    have : 2 * g / S * ((1 - 1 / 2 ^ 53) * S) ≤ 2 * g / S * s := by gcongr
    have h2 : 2 * g / S * ((1 - 1 / 2 ^ 53) * S) = 2 * g * (1 - 1 / 2 ^ 53) := by field_simp
    rw [h2] at this
    norm_num at this ⊢
    linarith
  have e5 : |q / s| ≤ 2 * (2 * g / S) := by
    have := abs_sub_abs_le_abs_sub (q / s) (2 * g / S)
    rw [abs_of_pos hR] at this
    norm_num at e4
    linarith
  have e6 : |r - 2 * g / S| ≤ |r - q / s| + |q / s - 2 * g / S| := by
    have := abs_add_le (r - q / s) (q / s - 2 * g / S)
    rwa [sub_add_sub_cancel] at this
  have e7 : |r - q / s| ≤ 2 * (2 * g / S) / 2 ^ 53 + τ := hr.trans (by gcongr)
  norm_num at e7 hτ e4 ⊢
  generalize 2 * g / S = R at *
  linarith

/-- The exact polynomial. -/
noncomputable def poly (x : ℝ) : ℝ := Functions.evaluatePnebi0Polynom Functions.Spec.real x

theorem poly_near_small {exp : Dbl → Dbl} (he : ExpErr exp (1 / 10 ^ 12)) {y : Dbl} (hy : y.Fin) (h0 : 0 ≤ y.val) (h1 : y.val < 15 / 4) :
    |(d 20 1 * exp (-y) * pnebiSmall (y / d 375 2 * (y / d 375 2))).val - poly y.val| ≤ 2 / 10 ^ 12 * poly y.val := by
  have hP : poly y.val = 2 * Real.exp (-y.val) * Bessel.small ((y.val / (15 / 4)) ^ 2) := Bessel.poly_P1 h0 h1
  rw [hP]
  have ht := (div_unit hy bound_is.1 h0 (by rw [bound_is.2]; norm_num) (by rw [bound_is.2]; exact h1.le) (by decide) (by decide)).1
  rw [bound_is.2] at ht
  have hv0 : 0 ≤ y.val / (15 / 4) := by positivity
  have hv1 : y.val / (15 / 4) ≤ 1 := (div_le_one (by norm_num)).2 h1.le
  have hv : |y.val / (15 / 4)| ≤ 1 := by rw [abs_of_nonneg hv0]; exact hv1
  have ht2 : Approx (y / d 375 2 * (y / d 375 2)) (y.val / (15 / 4) * (y.val / (15 / 4))) (1 / 2 ^ 50) :=
    ht.mul ht 1 (by decide) (by decide) hv hv (by norm_num [mb]) (by norm_num [mb])
  have hs := pnebiSmall_near ⟨ht2, by rw [abs_mul]; nlinarith [abs_nonneg (y.val / (15 / 4))]⟩
  rw [← sq] at hs
  have hI : 1 ≤ Bessel.small ((y.val / (15 / 4)) ^ 2) := by
    unfold Bessel.small
    have : 0 ≤ (y.val / (15 / 4)) ^ 2 := by positivity
    generalize (y.val / (15 / 4)) ^ 2 = t at *
    have : 0 ≤ t * (35156229 / 10000000 + t * (30899424 / 10000000 + t * (12067492 / 10000000 + t * (2659732 / 10000000 + t * (360768 / 10000000 + t * (45813 / 10000000)))))) := by
      positivity
    linarith
  have hex := he (-y) (neg_fin.2 hy) (by rw [neg_val]; linarith) (by rw [neg_val]; linarith)
  rw [neg_val] at hex
  have hE := exp_lower h1.le
  have hE1 : Real.exp (-y.val) ≤ 1 := by rw [Real.exp_le_one_iff]; linarith
  have he1 : |(exp (-y)).val| ≤ 2 := by
    have := abs_sub_abs_le_abs_sub (exp (-y)).val (Real.exp (-y.val))
    rw [abs_of_pos (Real.exp_pos _)] at this
    have h3 := hex.2
    norm_num at h3
    linarith
  have hp := mul_rel two_is.1 hex.1 (by
    rw [two_is.2, abs_mul, abs_of_pos (show (0 : ℝ) < 2 by norm_num)]
    exact le_trans (by norm_num; linarith : _ ≤ (2 : ℝ) ^ (2 : ℤ)) (two_pow_le (by decide)))
  have hp1 : |(d 20 1 * exp (-y)).val| ≤ 8 := by
    have := abs_sub_abs_le_abs_sub (d 20 1 * exp (-y)).val ((d 20 1).val * (exp (-y)).val)
    have h5 : |(d 20 1).val * (exp (-y)).val| ≤ 4 := by
      rw [two_is.2, abs_mul, abs_of_pos (show (0 : ℝ) < 2 by norm_num)]
      linarith
    have h6 : |(d 20 1).val * (exp (-y)).val| / 2 ^ (Format.binary64.mantissaBits : ℤ) ≤ 1 := by
      rw [mb.1, div_le_one (by positivity)]
      exact h5.trans (by norm_num)
    have h7 : (2 : ℝ) ^ (Format.binary64.minExponent - 1) ≤ 2 ^ (0 : ℤ) := two_pow_le (by decide)
    rw [zpow_zero] at h7
    linarith [hp.2]
  have hs1 := hs.1.abs_le hs.2
  have hr := mul_rel hp.1 hs.1.1 (by
    rw [abs_mul]
    refine le_trans (mul_le_mul hp1 hs1 (abs_nonneg _) (by norm_num)) (le_trans ?_ (two_pow_le (show (10 : ℤ) ≤ top .binary64 by decide)))
    norm_num)
  refine small_arith2 (e := (exp (-y)).val) (p := (d 20 1 * exp (-y)).val) (v := (pnebiSmall (y / d 375 2 * (y / d 375 2))).val)
    (τ := 2 ^ (Format.binary64.minExponent - 1)) hE hI ?_ hex.2 ?_ hs.1.2 ?_
  · calc (2 : ℝ) ^ (Format.binary64.minExponent - 1) ≤ 2 ^ (-70 : ℤ) := two_pow_le (by decide)
      _ = 1 / 2 ^ 70 := by norm_num
  · have := hp.2
    rw [two_is.2, mb.1] at this
    exact_mod_cast this
  · have := hr.2
    rw [mb.1] at this
    exact_mod_cast this

theorem poly_near_big {y : Dbl} (hy : y.Fin) (h1 : 15 / 4 ≤ y.val) :
    |(d 20 1 * pnebiBig (d 10 1 / (y / d 375 2)) / Fp.sqrt y).val - poly y.val| ≤ 2 / 10 ^ 12 * poly y.val := by
  have h0 : 0 ≤ y.val := by linarith
  have hP : poly y.val = 2 * Bessel.big (15 / 4 * y.val⁻¹) / √y.val := Bessel.poly_P2 h1
  rw [hP]
  have hyt : y.val < 2 ^ (1024 : ℤ) := (le_abs_self _).trans_lt (val_lt y)
  have ht := quot_is hy h0
  have h1' : 1 ≤ (y / d 375 2).val := by
    have := (branch_iff hy h0).not.2 (not_lt.2 h1)
    rwa [lt_iff ht.1 one_is.1, one_is.2, not_lt] at this
  have tiny : ∀ k : ℕ, k ≤ 1000 → (2 : ℝ) ^ (Format.binary64.minExponent - 1) ≤ 1 / 2 ^ k := by
    intro k hk
    calc (2 : ℝ) ^ (Format.binary64.minExponent - 1) ≤ 2 ^ (-(k : ℤ)) := two_pow_le (by
          have : Format.binary64.minExponent - 1 = -1075 := rfl
          omega)
      _ = 1 / 2 ^ k := by rw [zpow_neg, zpow_natCast, one_div]
  obtain ⟨w, hw⟩ : ∃ w, w = y.val / (15 / 4) := ⟨_, rfl⟩
  have hw1 : 1 ≤ w := by rw [hw, le_div_iff₀ (by norm_num)]; linarith
  have hinv : 15 / 4 * y.val⁻¹ = 1 / w := by rw [hw]; field_simp
  rw [← hw] at ht
  generalize y / d 375 2 = t at *
  have hrel : |t.val - w| ≤ 1 / 2 ^ 52 * w := by
    rcases ht.2.rel with h | h
    · rw [abs_of_nonneg (show 0 ≤ w by linarith), mb.1] at h
      refine h.trans ?_
      rw [show (2 : ℝ) ^ (53 : ℤ) = 2 ^ 53 by norm_cast, div_eq_mul_inv, mul_comm]
      exact mul_le_mul_of_nonneg_right (by norm_num) (by linarith)
    · have h2' : |t.val - w| ≤ 1 / 2 ^ 60 := h.trans (tiny 60 (by norm_num))
      norm_num at h2' ⊢
      linarith
  have hi := (div_unit (a := d 10 1) (b := t) one_is.1 ht.1 (by rw [one_is.2]; norm_num) (by linarith) (by rw [one_is.2]; exact h1') (by decide) (by decide)).1
  rw [one_is.2] at hi
  have hm : |1 / t.val - 1 / w| ≤ 1 / 2 ^ 52 := by
    have t0 : 0 < t.val := by linarith
    have m0 : 0 < w := by linarith
    rw [div_sub_div _ _ t0.ne' m0.ne', abs_div, abs_of_pos (mul_pos t0 m0), div_le_iff₀ (mul_pos t0 m0), one_mul, mul_one, abs_sub_comm]
    refine hrel.trans ?_
    have : w ≤ t.val * w := by nlinarith
    gcongr
  have hu0 : 0 ≤ 1 / w := by positivity
  have hu1 : 1 / w ≤ 1 := by rw [div_le_one (by linarith)]; exact hw1
  have hu : Near (d 10 1 / t) (1 / w) (1 / 2 ^ 50) 1 := by
    refine ⟨(hi.trans hm).weaken (by norm_num [mb]), ?_⟩
    rw [abs_of_nonneg hu0]
    exact hu1
  have hb := pnebiBig_near hu
  have hlow := Bessel.big_lower (1 / w) hu0 hu1
  rw [hinv]
  generalize pnebiBig (d 10 1 / t) = v at *
  have hv1 : |v.val| ≤ 2 := (hb.1.abs_le hb.2).trans (by norm_num)
  have hq := mul_is two_is.1 hb.1.1 (by
    rw [two_is.2, abs_mul, abs_of_pos (show (0 : ℝ) < 2 by norm_num)]
    exact le_trans (by norm_num; linarith : _ ≤ (2 : ℝ) ^ (2 : ℤ)) (two_pow_le (by decide)))
  rw [two_is.2] at hq
  have hq2 : |(d 20 1 * v).val - 2 * v.val| ≤ 1 / 2 ^ 51 := by
    have := hq.2.err (k := 2) (by decide) (by
      rw [abs_mul, abs_of_pos (show (0 : ℝ) < 2 by norm_num)]
      norm_num
      linarith)
    rw [mb.1] at this
    exact this.trans (by norm_num)
  have hq3 : |(d 20 1 * v).val - 2 * Bessel.big (1 / w)| ≤ 11 / 10 ^ 13 := by
    have a1 := abs_le.1 hq2
    have a2 := abs_le.1 hb.1.2
    rw [abs_le]
    norm_num at a1 a2 ⊢
    constructor <;> linarith [a1.1, a1.2, a2.1, a2.2]
  generalize d 20 1 * v = q at *
  have hS1 : 1 ≤ √y.val := Real.one_le_sqrt.2 (by linarith)
  have hS2 : √y.val ≤ 2 ^ (512 : ℤ) := by
    rw [Real.sqrt_le_left (by positivity), ← zpow_natCast, ← zpow_mul]
    exact hyt.le
  have hs := sqrt_is hy h0 (hS2.trans (two_pow_le (by decide)))
  have hs2 : |(Fp.sqrt y).val - √y.val| ≤ √y.val / 2 ^ 53 := by
    rcases hs.2.rel with h | h
    · rw [abs_of_nonneg (Real.sqrt_nonneg _), mb.1] at h
      exact_mod_cast h
    · refine h.trans ((tiny 53 (by norm_num)).trans ?_)
      gcongr
  have hsl : 1 / 2 ≤ (Fp.sqrt y).val := by
    have := (abs_le.1 hs2).1
    norm_num at this
    linarith
  have hqa : |q.val| ≤ 5 := by
    have a1 := abs_le.1 hq2
    have a3 := abs_le.1 hv1
    rw [abs_le]
    norm_num at a1
    constructor <;> linarith [a1.1, a1.2, a3.1, a3.2]
  have hr := div_is hq.1 hs.1 (by linarith) (by
    rw [abs_div, abs_of_pos (show 0 < (Fp.sqrt y).val by linarith), div_le_iff₀ (by linarith)]
    have : (2 : ℝ) ^ (4 : ℤ) ≤ 2 ^ top .binary64 := two_pow_le (by decide)
    norm_num at this
    nlinarith)
  have hR : (2 : ℝ) ^ (-600 : ℤ) ≤ 2 * Bessel.big (1 / w) / √y.val := by
    rw [le_div_iff₀ (by linarith)]
    calc (2 : ℝ) ^ (-600 : ℤ) * √y.val ≤ 2 ^ (-600 : ℤ) * 2 ^ (512 : ℤ) := by gcongr
      _ = 2 ^ (-88 : ℤ) := by rw [← two_pow_add]; norm_num
      _ ≤ 1 / 2 := by norm_num
      _ ≤ 2 * Bessel.big (1 / w) := by linarith
  refine big_arith2 (q := q.val) (s := (Fp.sqrt y).val) (τ := 2 ^ (Format.binary64.minExponent - 1)) hlow (by linarith) hq3 hs2 ?_ ?_
  · rcases hr.2.rel with h | h
    · rw [mb.1] at h
      refine (le_of_eq_of_le rfl h).trans ?_
      have := two_pow_pos (Format.binary64.minExponent - 1)
      rw [show (2 : ℝ) ^ (53 : ℤ) = 2 ^ 53 by norm_cast]
      linarith
    · refine (le_of_eq_of_le rfl h).trans ?_
      have : 0 ≤ |q.val / (Fp.sqrt y).val| / 2 ^ 53 := by positivity
      linarith
  · calc (2 : ℝ) ^ (Format.binary64.minExponent - 1) ≤ 2 ^ (-50 + -600 : ℤ) := two_pow_le (by decide)
      _ = 1 / 2 ^ 50 * 2 ^ (-600 : ℤ) := by rw [two_pow_add]; norm_num
      _ ≤ _ := by gcongr

/-- The polynomial of a nonnegative number, up to a relative error of 2e-12. -/
theorem poly_near {exp : Dbl → Dbl} (he : ExpErr exp (1 / 10 ^ 12)) {x : Dbl} (hx : x.Fin) (h0 : 0 ≤ x.val) :
    (evaluatePnebi0Polynom exp x).Fin ∧ |(evaluatePnebi0Polynom exp x).val - poly x.val| ≤ 2 / 10 ^ 12 * poly x.val := by
  refine ⟨(C114_accuracy exp _ he (by norm_num) x hx).1, ?_⟩
  have hn : ¬ x < d 0 1 := by rw [lt_iff hx zero_lit.1, zero_lit.2]; exact not_lt.2 h0
  unfold evaluatePnebi0Polynom
  rw [if_neg hn]
  dsimp only
  split_ifs with h
  · exact poly_near_small he hx h0 ((branch_iff hx h0).1 h)
  · exact poly_near_big hx (not_lt.1 ((branch_iff hx h0).not.1 h))

end Verif.FunctionsFp
