import Verif.GisFp.Model
import Verif.Gis.Props
import Verif.FunctionsFp.AtanProps
import Verif.Geometry2Fp.Angle

/-!
The lengths of a degree, `meterPerDegLat` and `meterPerDegLon` of geometry/src/gis.cpp, in floating point arithmetic.
-/
namespace Verif.GisFp
open Ieee Fp Float.Model FunctionsFp Geometry2Fp Real

/-- The assumption on the C library: for arguments up to 32 the relative errors are at most 2^-40 for `double` and 2^-23 for `float` (a unit in the last place), up to 2^-100. -/
structure Accurate (T : Trig) : Prop where
  cos : ∀ y : Dbl, y.Fin → |y.val| ≤ 32 → Approx (T.cos y) (Real.cos y.val) (|Real.cos y.val| / 2 ^ 40 + 1 / 2 ^ 100)
  sin : ∀ y : Dbl, y.Fin → |y.val| ≤ 32 → Approx (T.sin y) (Real.sin y.val) (|Real.sin y.val| / 2 ^ 40 + 1 / 2 ^ 100)
  cosf : ∀ y : Flt, y.Fin → |y.val| ≤ 32 → Approx (T.cosf y) (Real.cos y.val) (|Real.cos y.val| / 2 ^ 23 + 1 / 2 ^ 100)
  sinf : ∀ y : Flt, y.Fin → |y.val| ≤ 32 → Approx (T.sinf y) (Real.sin y.val) (|Real.sin y.val| / 2 ^ 23 + 1 / 2 ^ 100)

/-- A literal with an integral value. -/
theorem int_lit {n : ℕ} (h0 : n ≠ 0) (h : n ≤ 2 ^ 20) : (d (10 * n) 1).Fin ∧ (d (10 * n) 1).val = n := by
  have hn : (n : ℝ) ≤ 2 ^ 20 := by exact_mod_cast h
  have e : ((10 * n : ℕ) : ℝ) / 10 ^ 1 = n := by push_cast; ring
  have h1 := lit_is (spec := .binary64) (m := 10 * n) (k := 1) (by omega) (by norm_num) (by decide) (by
    rw [e]
    refine hn.trans ?_
    rw [show (2 : ℝ) ^ 20 = 2 ^ (20 : ℤ) by norm_num]
    exact two_pow_le (by decide))
  rw [e] at h1
  refine ⟨h1.1, h1.2.exact ?_⟩
  have := grid_int (spec := .binary64) Fmt.good (n := (n : ℤ)) (by
    rw [Int.cast_natCast, abs_of_nonneg (by positivity), mb.1]
    refine hn.trans ?_
    norm_num)
  exact_mod_cast this

/-- The conversion to radians. -/
theorem rad_is {a : Flt} (ha : a.Fin) (h : |a.val| ≤ 180) : Approx (rad a) (a.val / 180 * π) (1193 / 10 ^ 10) := by
  obtain ⟨w1, w2⟩ := wide_is ha
  obtain ⟨l1, l2⟩ := int_lit (n := 180) (by norm_num) (by norm_num)
  have hq : |a.val / 180| ≤ 1 := by rw [abs_div, abs_of_pos (by norm_num : (0 : ℝ) < 180), div_le_one (by norm_num)]; exact h
  have l2' : (d 1800 1).val = 180 := l2.trans (by norm_num)
  have hd := div_is (a := wide a) (b := d 1800 1) w1 l1 (by rw [l2']; norm_num) (by
    rw [w2, l2']
    exact hq.trans (by rw [← zpow_zero (2 : ℝ)]; exact two_pow_le (by decide)))
  rw [w2, l2'] at hd
  have h1 := hd.approx (v := a.val / 180) (e := 0) 0 (by decide) (by rw [zpow_zero]; exact hq) (by simp)
  have hpi : |π| ≤ 315 / 100 := by rw [abs_of_pos pi_pos]; linarith [pi_lt_d2]
  have h2 := h1.mul mPi_approx 2 (by decide) (by decide) hq hpi (E := 1 / 2 ^ 48) (by norm_num [mb]) (by norm_num [mb])
  have hv : |a.val / 180 * π| ≤ 315 / 100 := by
    rw [abs_mul]
    calc _ ≤ 1 * (315 / 100) := mul_le_mul hq hpi (abs_nonneg _) (by norm_num)
      _ = _ := by ring
  exact h2.conv (spec := .binary32) 2 (by decide) (by decide) hv (by norm_num) (by norm_num [mb])

theorem rad_bound {a : Flt} (ha : a.Fin) (h : |a.val| ≤ 180) : (rad a).Fin ∧ |(rad a).val| ≤ 316 / 100 := by
  have h1 := rad_is ha h
  have hv : |a.val / 180 * π| ≤ 315 / 100 := by
    rw [abs_mul, abs_div, abs_of_pos (by norm_num : (0 : ℝ) < 180), abs_of_pos pi_pos]
    have := pi_lt_d2
    have h0 := abs_nonneg a.val
    have : |a.val| / 180 ≤ 1 := by rw [div_le_one (by norm_num)]; exact h
    have := pi_pos
    nlinarith
  exact ⟨h1.1, (h1.abs_le hv).trans (by norm_num)⟩

theorem cos_lip (a b : ℝ) : |Real.cos a - Real.cos b| ≤ |a - b| := abs_cos_sub_cos_le a b

/-- The cosine of a small integral multiple. -/
theorem cosmul {T : Trig} (hT : Accurate T) {r : Flt} (hr : r.Fin) (hb : |r.val| ≤ 316 / 100) {n : ℕ} (h0 : n ≠ 0) (hn : n ≤ 6) :
    Approx (T.cos (d (10 * n) 1 * wide r)) (Real.cos (n * r.val)) (1 / 2 ^ 39) := by
  obtain ⟨w1, w2⟩ := wide_is hr
  obtain ⟨l1, l2⟩ := int_lit h0 (hn.trans (by norm_num))
  have hn' : (n : ℝ) ≤ 6 := by exact_mod_cast hn
  have hp : |(n : ℝ) * r.val| ≤ 19 := by
    rw [abs_mul, abs_of_nonneg (by positivity : (0 : ℝ) ≤ n)]
    have := abs_nonneg r.val
    nlinarith
  have hm := mul_is (a := d (10 * n) 1) (b := wide r) l1 w1 (by
    rw [l2, w2]
    refine hp.trans ((show (19 : ℝ) ≤ 2 ^ (5 : ℤ) by norm_num).trans (two_pow_le (by decide))))
  rw [l2, w2] at hm
  have h1 := hm.approx (v := n * r.val) (e := 0) 5 (by decide) (hp.trans (by norm_num)) (by simp)
  have h2 := hT.cos _ h1.1 ((h1.abs_le hp).trans (by norm_num [mb]))
  have h3 := h2.trans (w := Real.cos (n * r.val)) ((cos_lip _ _).trans h1.2)
  refine h3.weaken ?_
  have := abs_cos_le_one (d (10 * n) 1 * wide r).val
  norm_num [mb]
  linarith

/-- A product of a literal and a cosine. -/
theorem coef {m k : ℕ} (j : ℤ) {c : Dbl} {v e E : ℝ} (hc : Approx c v e) (hv : |v| ≤ 1) (he : e ≤ 1 / 2 ^ 20) (hm : m ≠ 0) (hk : 0 < k) (hk' : k ≤ 10) (hj : 0 ≤ j) (hj' : j ≤ 20)
    (h : (m : ℝ) / 10 ^ k ≤ 2 ^ j) (hE : 3 * 2 ^ j / 2 ^ 53 + m / 10 ^ k * e ≤ E) : Approx (d m k * c) (m / 10 ^ k * v) E := by
  have h1 := approx_lit (spec := .binary64) (m := m) (k := k) j hm hk (le_trans (by exact_mod_cast hk') (by decide : (10 : ℤ) ≤ _)) (le_trans (by decide : _ ≤ (0 : ℤ)) hj) (hj'.trans (by decide)) h
  have e1 : (2 : ℝ) ^ (j - 53 - 1) = 2 ^ j / 2 ^ 54 := by
    rw [show j - 53 - 1 = j - 54 by ring, two_pow_sub]
    norm_num
  have e2 : (2 : ℝ) ^ (j + 1 - 53 - 1) = 2 ^ j / 2 ^ 53 := by
    rw [show j + 1 - 53 - 1 = j - 53 by ring, two_pow_sub]
    norm_num
  have e3 : (2 : ℝ) ^ (j + 1) = 2 * 2 ^ j := by rw [two_pow_add]; norm_num; ring
  have hP : 0 < (2 : ℝ) ^ j := two_pow_pos j
  have hv0 : (0 : ℝ) ≤ m / 10 ^ k := by positivity
  have he0 : 0 ≤ e := (abs_nonneg _).trans hc.2
  rw [mb.1, e1] at h1
  refine h1.mul hc (j + 1) (le_trans (by decide : _ ≤ (0 : ℤ)) (by omega)) (le_trans (show j + 1 ≤ 21 by omega) (by decide)) (V := m / 10 ^ k) (by rw [abs_of_nonneg hv0]) hv ?_ ?_
  · rw [e3]
    have : (m : ℝ) / 10 ^ k + 2 ^ j / 2 ^ 54 ≤ 2 ^ j * (1 + 1 / 2 ^ 54) := by linarith
    calc _ ≤ (2 ^ j * (1 + 1 / 2 ^ 54)) * (1 + 1 / 2 ^ 20) := mul_le_mul this (by linarith) (by linarith) (by positivity)
      _ ≤ _ := by nlinarith
  · rw [mb.1, e2]
    refine le_trans ?_ hE
    have : 2 ^ j / 2 ^ 54 * e ≤ 2 ^ j / 2 ^ 54 := by
      have : 2 ^ j / 2 ^ 54 * e ≤ (2 : ℝ) ^ j / 2 ^ 54 * 1 := mul_le_mul_of_nonneg_left (by linarith [show (1 : ℝ) / 2 ^ 20 ≤ 1 by norm_num]) (by positivity)
      linarith
    generalize (2 : ℝ) ^ j = J at *
    generalize (m : ℝ) / 10 ^ k * e = z at *
    generalize J / 2 ^ 54 * e = w at *
    linarith

end Verif.GisFp
