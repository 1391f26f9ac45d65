import Verif.FunctionsFp.Normalize

/-!
C87: `fastCosSin` in floating point arithmetic.
-/
namespace Verif.FunctionsFp
open Ieee Fp Float.Model Real

theorem litHalf : Approx (d 5 1) (1 / 2) 0 := by
  have h1 : (d 5 1).x = .finite .positive 4503599627370496 (-53) (by decide) := by decide +kernel
  refine ⟨by decide +kernel, ?_⟩
  unfold Fp.val
  rw [h1]
  simp only [Ieee.val, sgn]
  norm_num

theorem litQuarter : Approx (d 25 2) (1 / 4) 0 := by
  have h1 : (d 25 2).x = .finite .positive 4503599627370496 (-54) (by decide) := by decide +kernel
  refine ⟨by decide +kernel, ?_⟩
  unfold Fp.val
  rw [h1]
  simp only [Ieee.val, sgn]
  norm_num

theorem litSixteen : Approx (d 160 1) 16 0 := by
  have h1 : (d 160 1).x = .finite .positive 4503599627370496 (-48) (by decide) := by decide +kernel
  refine ⟨by decide +kernel, ?_⟩
  unfold Fp.val
  rw [h1]
  simp only [Ieee.val, sgn]
  norm_num

theorem litOne : Approx (d 10 1) 1 0 := by
  have h1 : (d 10 1).x = .finite .positive 4503599627370496 (-52) (by decide) := by decide +kernel
  refine ⟨by decide +kernel, ?_⟩
  unfold Fp.val
  rw [h1]
  simp only [Ieee.val, sgn]
  norm_num

theorem lit225 : Approx (d 225 3) (225 / 1000) (1 / 2 ^ 56) := by
  have := approx_lit (spec := .binary64) (m := 225) (k := 3) (-2) (by decide) (by decide) (by decide) (by decide) (by decide) (by norm_num)
  norm_num [mb] at this ⊢
  exact this

theorem factor_val : factor.Fin ∧ factor.val = 5734161139222659 / 2 ^ 55 := by
  have h1 : factor.x = .finite .positive 5734161139222659 (-55) (by decide) := by decide +kernel
  refine ⟨by decide +kernel, ?_⟩
  unfold Fp.val
  rw [h1]
  simp only [Ieee.val, sgn]
  norm_num

theorem factor_err : |2 * π * factor.val - 1| ≤ 1 / 2 ^ 52 := by
  rw [factor_val.2, abs_le]
  have h1 := pi_gt_d20
  have h2 := pi_lt_d20
  constructor <;> norm_num at h1 h2 ⊢ <;> linarith

/-- The last two lines of each part, of a number near [-1/2, 1/2]. -/
theorem parab {y : Dbl} {v : ℝ} (hy : Approx y v (3 / 2 ^ 51)) (hv : |v| ≤ 9 / 8) :
    Approx (y + d 225 3 * y * (abs y - d 10 1)) (v + 225 / 1000 * v * (|v| - 1)) (1 / 2 ^ 48) := by
  have e : |(|v| - 1)| ≤ 1 := by
    rw [abs_le] at hv ⊢
    constructor <;> cases _root_.abs_cases v <;> linarith
  have h1 := lit225.mul hy (E := 1 / 2 ^ 51) (V := 225 / 1000) (W := 9 / 8) (-1) (by decide) (by decide) (by rw [abs_le]; constructor <;> norm_num) hv (by norm_num) (by norm_num [mb])
  have h2 := hy.abs.sub' litOne (E := 2 / 2 ^ 50) (V := 1) 1 (by decide) (by decide) e (by norm_num) (by norm_num [mb])
  have h3 : |225 / 1000 * v| ≤ 1 / 3 := by
    rw [abs_mul, abs_of_pos (by norm_num)]
    linarith
  have h4 := h1.mul h2 (E := 3 / 2 ^ 51) (V := 1 / 3) (W := 1) (-1) (by decide) (by decide) h3 e (by norm_num) (by norm_num [mb])
  have h5 : |225 / 1000 * v * (|v| - 1)| ≤ 1 / 3 := by
    rw [abs_mul]
    have := mul_le_mul h3 e (abs_nonneg _) (by norm_num)
    linarith
  exact hy.add h4 1 (by decide) (by decide) hv h5 (by norm_num) (by norm_num [mb])

theorem abs_half {p : ℝ} (hp : |p| ≤ 9 / 16) : |p * (16 * (1 / 2 - |p|))| ≤ 9 / 8 ∧ |16 * (1 / 2 - |p|)| ≤ 8 ∧ |(1 / 2 - |p|)| ≤ 1 / 2 := by
  have h0 := abs_nonneg p
  have h1 : |(1 / 2 - |p|)| ≤ 1 / 2 := by rw [abs_le]; constructor <;> linarith
  refine ⟨?_, ?_, h1⟩
  · rw [abs_mul, abs_mul, abs_of_pos (by norm_num : (0 : ℝ) < 16)]
    cases _root_.abs_cases (1 / 2 - |p|) <;> nlinarith [mul_self_nonneg (|p| - 1 / 4)]
  · rw [abs_mul, abs_of_pos (by norm_num : (0 : ℝ) < 16)]
    linarith

/-- The sine part after the reduction. -/
theorem sinShape {s : Dbl} (hs : s.Fin) (hp : |s.val| ≤ 9 / 16) :
    Approx (let s := s * (d 160 1 * (d 5 1 - abs s)); s + d 225 3 * s * (abs s - d 10 1)) (Functions.shape s.val) (1 / 2 ^ 48) := by
  obtain ⟨h1, h2, h3⟩ := abs_half hp
  have a0 := approx_self hs
  have a1 := litHalf.sub' a0.abs (E := 1 / 2 ^ 55) (V := 1 / 2) (-1) (by decide) (by decide) h3 (by norm_num) (by norm_num [mb])
  have a2 := litSixteen.mul a1 (E := 3 / 2 ^ 51) (V := 16) (W := 1 / 2) 4 (by decide) (by decide) (by norm_num) h3 (by norm_num) (by norm_num [mb])
  have a3 := a0.mul a2 (E := 3 / 2 ^ 51) (V := 9 / 16) (W := 8) 3 (by decide) (by decide) hp h2 (by norm_num) (by norm_num [mb])
  exact parab a3 h1

/-- The cosine part after the reduction. -/
theorem cosShape {s : Dbl} (hs : s.Fin) (hp : |s.val| ≤ 9 / 16) :
    Approx (let c := s * (d 160 1 * (abs s - d 5 1)); c + d 225 3 * c * (abs c - d 10 1)) (Functions.shape (-s.val)) (1 / 2 ^ 48) := by
  obtain ⟨h1, h2, h3⟩ := abs_half hp
  have a0 := approx_self hs
  rw [abs_sub_comm] at h3
  have a1 := a0.abs.sub' litHalf (E := 1 / 2 ^ 55) (V := 1 / 2) (-1) (by decide) (by decide) h3 (by norm_num) (by norm_num [mb])
  have a2 := litSixteen.mul a1 (E := 3 / 2 ^ 51) (V := 16) (W := 1 / 2) 4 (by decide) (by decide) (by norm_num) h3 (by norm_num) (by norm_num [mb])
  have h4 : |16 * (|s.val| - 1 / 2)| ≤ 8 := by
    rw [abs_mul, abs_of_pos (by norm_num : (0 : ℝ) < 16)]
    linarith
  have a3 := a0.mul a2 (E := 3 / 2 ^ 51) (V := 9 / 16) (W := 8) 3 (by decide) (by decide) hp h4 (by norm_num) (by norm_num [mb])
  have e : s.val * (16 * (|s.val| - 1 / 2)) = -s.val * (16 * (1 / 2 - |-s.val|)) := by
    rw [abs_neg]
    ring
  rw [e] at a3
  rw [← abs_neg] at hp
  exact parab a3 (abs_half hp).1

/-- The parabolas a little beyond [-1/2, 1/2]. -/
theorem shape_ext {p δ : ℝ} (hp : |p| ≤ 1 / 2 + δ) (hδ : 0 ≤ δ) (hδ' : δ ≤ 1 / 16) : |Functions.shape p - sin (2 * π * p)| ≤ 12 / 10000 + 17 * δ := by
  wlog h0 : 0 ≤ p generalizing p
  · have := this (p := -p) (by rwa [abs_neg]) (by linarith)
    rw [Functions.shape_neg, mul_neg, sin_neg, neg_sub_neg, abs_sub_comm] at this
    exact this
  rw [abs_of_nonneg h0] at hp
  rcases le_or_gt p (1 / 2) with h | h
  · have := Functions.wave_error p
    rw [Functions.wave_eq (v := p) 0 (by simp) (by rwa [abs_of_nonneg h0])] at this
    linarith
  · -- beyond one half
    have h1 : |sin (2 * π * p)| ≤ 2 * π * δ := by
      rw [show 2 * π * p = 2 * π * (p - 1 / 2) + π by ring, sin_add_pi, abs_neg]
      refine (abs_sin_le_abs).trans ?_
      rw [abs_of_nonneg (by have := pi_pos; apply mul_nonneg <;> linarith)]
      apply mul_le_mul_of_nonneg_left (by linarith)
      have := pi_pos
      linarith
    have h2 : |Functions.shape p| ≤ 9 * δ := by
      unfold Functions.shape
      rw [abs_of_nonneg h0]
      obtain ⟨y, hy⟩ : ∃ y, y = p * (16 * (1 / 2 - p)) := ⟨_, rfl⟩
      rw [← hy]
      have y0 : y ≤ 0 := by rw [hy]; nlinarith
      have y1 : -(9 * δ) ≤ y := by rw [hy]; nlinarith
      rw [abs_of_nonpos y0, abs_le]
      constructor <;> nlinarith
    have h3 := abs_add_le (Functions.shape p) (-sin (2 * π * p))
    rw [← sub_eq_add_neg, abs_neg] at h3
    have := pi_lt_d2
    nlinarith

theorem abs_sin_sub (x y : ℝ) : |sin x - sin y| ≤ |x - y| := by
  rw [sin_sub_sin, abs_mul, abs_mul, abs_of_pos (by norm_num : (0 : ℝ) < 2)]
  have h1 := abs_sin_le_abs (x := (x - y) / 2)
  rw [abs_div, abs_of_pos (by norm_num : (0 : ℝ) < 2)] at h1
  have h2 := abs_cos_le_one ((x + y) / 2)
  have h3 := abs_nonneg (sin ((x - y) / 2))
  nlinarith [abs_nonneg (cos ((x + y) / 2))]

theorem abs_cos_sub (x y : ℝ) : |cos x - cos y| ≤ |x - y| := by
  have := abs_sin_sub (π / 2 - x) (π / 2 - y)
  rw [sin_pi_div_two_sub, sin_pi_div_two_sub, show π / 2 - x - (π / 2 - y) = -(x - y) by ring, abs_neg] at this
  exact this

/-- The number of turns. -/
theorem turns {x : Dbl} (hx : x.Fin) {k : ℤ} (hk : 0 ≤ k) (hk' : k ≤ 46) (hb : |x.val| ≤ 2 ^ k) :
    (x * factor).Fin ∧ |(x * factor).val| ≤ 2 ^ k / 4 ∧ |2 * π * (x * factor).val - x.val| ≤ 2 ^ k / 2 ^ 51 := by
  have htop : top Format.binary64 = 1023 := by decide
  have hmin : Format.binary64.minExponent + Format.binary64.mantissaBits = -1021 := by decide
  have hmin' : Format.binary64.minExponent = -1074 := by decide
  have hP := two_pow_pos k
  have e1 : (2 : ℝ) ^ (k - 2) = 2 ^ k / 4 := by rw [two_pow_sub]; norm_num
  have e2 : (2 : ℝ) ^ (k - 2 - (Format.binary64.mantissaBits : ℤ) - 1) = 2 ^ k / 2 ^ 56 := by
    rw [two_pow_sub, two_pow_sub, e1, mb.1]
    norm_num
    ring
  have h1 : |x.val * factor.val| ≤ 2 ^ (k - 2) := by
    rw [abs_mul, e1, factor_val.2, abs_of_pos (by norm_num : (0 : ℝ) < 5734161139222659 / 2 ^ 55)]
    norm_num
    linarith
  have h2 := mul_is hx factor_val.1 (h1.trans (two_pow_le (by omega)))
  have h3 := h2.2.err (k := k - 2) (by omega) h1
  have h4 := h2.2.abs_le (k := k - 2) (by omega) h1
  rw [e2] at h3
  rw [e1] at h4
  change |(x * factor).val - _| ≤ _ at h3
  refine ⟨h2.1, h4, ?_⟩
  have h5 := pi_lt_d2
  have h6 := pi_pos
  have h7 : |2 * π * ((x * factor).val - x.val * factor.val)| ≤ 7 * (2 ^ k / 2 ^ 56) := by
    rw [abs_mul, abs_of_pos (by linarith)]
    apply mul_le_mul (by linarith) h3 (abs_nonneg _) (by norm_num)
  have h8 : |x.val * (2 * π * factor.val - 1)| ≤ 2 ^ k * (1 / 2 ^ 52) := by
    rw [abs_mul]
    exact mul_le_mul hb factor_err (abs_nonneg _) hP.le
  have h9 := abs_add_le (2 * π * ((x * factor).val - x.val * factor.val)) (x.val * (2 * π * factor.val - 1))
  rw [show 2 * π * ((x * factor).val - x.val * factor.val) + x.val * (2 * π * factor.val - 1) = 2 * π * (x * factor).val - x.val by ring] at h9
  have h10 : 7 * ((2 : ℝ) ^ k / 2 ^ 56) + 2 ^ k * (1 / 2 ^ 52) ≤ 2 ^ k / 2 ^ 51 := by
    norm_num
    linarith
  linarith

/-- The remainder of the sine part. -/
theorem sinRed {t : Dbl} (ht : t.Fin) {k : ℤ} (hk : 0 ≤ k) (hk' : k ≤ 46) (hb : |t.val| ≤ 2 ^ k / 4) :
    (t - floor (t + d 5 1)).Fin ∧ ∃ n : ℤ, |t.val - n| ≤ 1 / 2 + 2 ^ k / 2 ^ 54 ∧ |(t - floor (t + d 5 1)).val - (t.val - n)| ≤ 2 ^ k / 2 ^ 52 := by
  have htop : top Format.binary64 = 1023 := by decide
  have hmin : Format.binary64.minExponent + Format.binary64.mantissaBits = -1021 := by decide
  have hmin' : Format.binary64.minExponent = -1074 := by decide
  have hP := two_pow_pos k
  have hP1 : (1 : ℝ) ≤ 2 ^ k := by have := two_pow_le hk; rwa [zpow_zero] at this
  have hP2 : (2 : ℝ) ^ k ≤ 2 ^ 46 := by have := two_pow_le hk'; norm_num at this ⊢; exact this
  have e2 : (2 : ℝ) ^ (k - (Format.binary64.mantissaBits : ℤ) - 1) = 2 ^ k / 2 ^ 54 := by
    rw [two_pow_sub, two_pow_sub, mb.1]
    norm_num
    ring
  have hh : (d 5 1).val = 1 / 2 := by
    have := litHalf.2
    rw [abs_nonpos_iff, sub_eq_zero] at this
    exact this
  have h1 : |t.val + (d 5 1).val| ≤ 2 ^ k := by
    rw [hh]
    rw [abs_le] at hb ⊢
    constructor <;> linarith
  have h2 := add_is ht litHalf.1 (h1.trans (two_pow_le (by omega)))
  have h3 := h2.2.err (k := k) (by omega) h1
  rw [e2, hh] at h3
  have h3' := h2.2.abs_le (k := k) (by omega) h1
  change |(t + d 5 1).val - _| ≤ _ at h3
  change |(t + d 5 1).val| ≤ _ at h3'
  obtain ⟨u, hu⟩ : ∃ u, u = (t + d 5 1).val := ⟨_, rfl⟩
  rw [← hu] at h3 h3'
  have n1 := Int.floor_le u
  have n2 := Int.lt_floor_add_one u
  have hf := floor_is h2.1 (by
    rw [← hu]
    refine le_trans ?_ (two_pow_le (j := k + 1) (by omega))
    rw [two_pow_add, zpow_one]
    rw [abs_le] at h3' ⊢
    constructor <;> linarith)
  rw [← hu] at hf
  obtain ⟨n, hn⟩ : ∃ n, n = ⌊u⌋ := ⟨_, rfl⟩
  rw [← hn] at n1 n2 hf
  rw [abs_le] at h3
  have h4 : |t.val - n| ≤ 1 / 2 + 2 ^ k / 2 ^ 54 := by
    rw [abs_le]
    constructor <;> linarith
  have h5 : (2 : ℝ) ^ k / 2 ^ 54 ≤ 1 / 2 ^ 8 := by
    rw [div_le_iff₀ (by norm_num)]
    norm_num at hP2 ⊢
    exact hP2
  have h6 : |t.val - (floor (t + d 5 1)).val| ≤ 2 ^ (0 : ℤ) := by
    rw [hf.2, zpow_zero]
    norm_num at h5
    linarith
  have h7 := sub_is ht hf.1 (h6.trans (two_pow_le (by decide)))
  have h8 := h7.2.err (k := 0) (by decide) h6
  rw [hf.2] at h8
  refine ⟨h7.1, n, h4, ?_⟩
  change |(t - floor (t + d 5 1)).val - _| ≤ _ at h8
  refine h8.trans ?_
  rw [mb.1]
  norm_num
  linarith

/-- The remainder of the cosine part. -/
theorem cosRed {t : Dbl} (ht : t.Fin) {k : ℤ} (hk : 0 ≤ k) (hk' : k ≤ 46) (hb : |t.val| ≤ 2 ^ k / 4) :
    (t - (d 25 2 + floor (t + d 25 2))).Fin ∧ ∃ n : ℤ, |t.val - 1 / 4 - n| ≤ 1 / 2 + 2 ^ k / 2 ^ 54 ∧
      |(t - (d 25 2 + floor (t + d 25 2))).val - (t.val - 1 / 4 - n)| ≤ 2 ^ k / 2 ^ 52 := by
  have htop : top Format.binary64 = 1023 := by decide
  have hmin : Format.binary64.minExponent + Format.binary64.mantissaBits = -1021 := by decide
  have hmin' : Format.binary64.minExponent = -1074 := by decide
  have hP := two_pow_pos k
  have hP1 : (1 : ℝ) ≤ 2 ^ k := by have := two_pow_le hk; rwa [zpow_zero] at this
  have hP2 : (2 : ℝ) ^ k ≤ 2 ^ 46 := by have := two_pow_le hk'; norm_num at this ⊢; exact this
  have e2 : (2 : ℝ) ^ (k - (Format.binary64.mantissaBits : ℤ) - 1) = 2 ^ k / 2 ^ 54 := by
    rw [two_pow_sub, two_pow_sub, mb.1]
    norm_num
    ring
  have e3 : (2 : ℝ) ^ (k + 1 - (Format.binary64.mantissaBits : ℤ) - 1) = 2 * (2 ^ k / 2 ^ 54) := by
    rw [show k + 1 - (Format.binary64.mantissaBits : ℤ) - 1 = 1 + (k - (Format.binary64.mantissaBits : ℤ) - 1) by ring, two_pow_add, e2, zpow_one]
  have hh : (d 25 2).val = 1 / 4 := by
    have := litQuarter.2
    rw [abs_nonpos_iff, sub_eq_zero] at this
    exact this
  have h1 : |t.val + (d 25 2).val| ≤ 2 ^ k := by
    rw [hh]
    rw [abs_le] at hb ⊢
    constructor <;> linarith
  have h2 := add_is ht litQuarter.1 (h1.trans (two_pow_le (by omega)))
  have h3 := h2.2.err (k := k) (by omega) h1
  rw [e2, hh] at h3
  have h3' := h2.2.abs_le (k := k) (by omega) h1
  change |(t + d 25 2).val - _| ≤ _ at h3
  change |(t + d 25 2).val| ≤ _ at h3'
  obtain ⟨u, hu⟩ : ∃ u, u = (t + d 25 2).val := ⟨_, rfl⟩
  rw [← hu] at h3 h3'
  have n1 := Int.floor_le u
  have n2 := Int.lt_floor_add_one u
  have hf := floor_is h2.1 (by
    rw [← hu]
    refine le_trans ?_ (two_pow_le (j := k + 1) (by omega))
    rw [two_pow_add, zpow_one]
    rw [abs_le] at h3' ⊢
    constructor <;> linarith)
  rw [← hu] at hf
  obtain ⟨n, hn⟩ : ∃ n, n = ⌊u⌋ := ⟨_, rfl⟩
  rw [← hn] at n1 n2 hf
  rw [abs_le] at h3
  have h5 : (2 : ℝ) ^ k / 2 ^ 54 ≤ 1 / 2 ^ 8 := by
    rw [div_le_iff₀ (by norm_num)]
    norm_num at hP2 ⊢
    exact hP2
  have h4 : |t.val - 1 / 4 - n| ≤ 1 / 2 + 2 ^ k / 2 ^ 54 := by
    rw [abs_le]
    constructor <;> linarith
  have g1 : |(d 25 2).val + (floor (t + d 25 2)).val| ≤ 2 ^ (k + 1) := by
    rw [hf.2, hh, two_pow_add, zpow_one]
    rw [abs_le] at h4 hb ⊢
    norm_num at h5
    constructor <;> linarith
  have g2 := add_is litQuarter.1 hf.1 (g1.trans (two_pow_le (by omega)))
  have g3 := g2.2.err (k := k + 1) (by omega) g1
  rw [e3, hf.2, hh] at g3
  change |(d 25 2 + floor (t + d 25 2)).val - _| ≤ _ at g3
  obtain ⟨w, hw⟩ : ∃ w, w = (d 25 2 + floor (t + d 25 2)).val := ⟨_, rfl⟩
  rw [← hw, abs_le] at g3
  have h6 : |t.val - w| ≤ 2 ^ (0 : ℤ) := by
    rw [zpow_zero]
    rw [abs_le] at h4 ⊢
    norm_num at h5
    constructor <;> linarith
  have h7 := sub_is ht g2.1 (by rw [← hw]; exact h6.trans (two_pow_le (by decide)))
  rw [← hw] at h7
  have h8 := h7.2.err (k := 0) (by decide) h6
  refine ⟨h7.1, n, h4, ?_⟩
  change |(t - (d 25 2 + floor (t + d 25 2))).val - _| ≤ _ at h8
  rw [mb.1] at h8
  rw [abs_le] at h8 ⊢
  norm_num at h8 g3 ⊢
  constructor <;> linarith

/-- C87, partial: for every `double` up to 2^k, k ≤ 46, the results are finite and differ from the cosine and the sine by at most 0.0012 + 2^k/2^46. Missing: larger arguments,
where it fails. -/
theorem C87_cosSin_partial (x : Dbl) (hx : x.Fin) (k : ℤ) (hk : 0 ≤ k) (hk' : k ≤ 46) (hb : |x.val| ≤ 2 ^ k) :
    ((fastCosSin x).1.Fin ∧ |(fastCosSin x).1.val - cos x.val| ≤ 12 / 10000 + 2 ^ k / 2 ^ 46) ∧
    ((fastCosSin x).2.Fin ∧ |(fastCosSin x).2.val - sin x.val| ≤ 12 / 10000 + 2 ^ k / 2 ^ 46) := by
  have hP1 : (1 : ℝ) ≤ 2 ^ k := by have := two_pow_le hk; rwa [zpow_zero] at this
  have hP2 : (2 : ℝ) ^ k ≤ 2 ^ 46 := by have := two_pow_le hk'; norm_num at this ⊢; exact this
  obtain ⟨t0, t1, t2⟩ := turns hx hk hk' hb
  have h5 := pi_lt_d2
  have h6 := pi_pos
  obtain ⟨t, ht⟩ : ∃ t, t = x * factor := ⟨_, rfl⟩
  rw [← ht] at t0 t1 t2
  -- a remainder close to that of the exact number of turns
  have key : ∀ p v : ℝ, |v| ≤ 1 / 2 + 2 ^ k / 2 ^ 54 → |p - v| ≤ 2 ^ k / 2 ^ 52 → |p| ≤ 9 / 16 ∧ |Functions.shape p - sin (2 * π * v)| ≤ 12 / 10000 + 30 * (2 ^ k / 2 ^ 52) := by
    intro p v hv hp
    have h1 : |p| ≤ 1 / 2 + 5 / 4 * (2 ^ k / 2 ^ 52) := by
      have := abs_add_le (p - v) v
      rw [sub_add_cancel] at this
      norm_num at hv hp ⊢
      linarith
    have h2 : (5 : ℝ) / 4 * (2 ^ k / 2 ^ 52) ≤ 1 / 16 := by
      norm_num at hP2 ⊢
      linarith
    refine ⟨h1.trans (by norm_num at h2 ⊢; linarith), ?_⟩
    have h3 := shape_ext h1 (by positivity) h2
    have h4 := abs_sin_sub (2 * π * p) (2 * π * v)
    rw [← mul_sub, abs_mul, abs_of_pos (by linarith : 0 < 2 * π)] at h4
    have h7 : 2 * π * |p - v| ≤ 7 * (2 ^ k / 2 ^ 52) := mul_le_mul (by linarith) hp (abs_nonneg _) (by norm_num)
    have h8 := abs_add_le (Functions.shape p - sin (2 * π * p)) (sin (2 * π * p) - sin (2 * π * v))
    rw [sub_add_sub_cancel] at h8
    norm_num at h3 h7 ⊢
    linarith
  have fin : ∀ (a : Dbl) (p v y : ℝ), Approx a p (1 / 2 ^ 48) → |p - v| ≤ 12 / 10000 + 30 * (2 ^ k / 2 ^ 52) → |v - y| ≤ 2 ^ k / 2 ^ 51 → a.Fin ∧ |a.val - y| ≤ 12 / 10000 + 2 ^ k / 2 ^ 46 := by
    intro a p v y h1 h2 h3
    refine ⟨h1.1, ?_⟩
    have h4 := (h1.trans h2).trans h3
    refine h4.2.trans ?_
    norm_num
    linarith
  constructor
  · obtain ⟨r0, n, r1, r2⟩ := cosRed t0 hk hk' t1
    have hk1 := key (-(t - (d 25 2 + floor (t + d 25 2))).val) (-(t.val - 1 / 4 - n)) (by rwa [abs_neg]) (by rwa [neg_sub_neg, abs_sub_comm])
    rw [abs_neg] at hk1
    have e : sin (2 * π * -(t.val - 1 / 4 - n)) = cos (2 * π * t.val) := by
      rw [show 2 * π * -(t.val - 1 / 4 - n) = π / 2 - 2 * π * t.val + n * (2 * π) by ring, sin_add_int_mul_two_pi, sin_pi_div_two_sub]
    rw [e] at hk1
    have := fin _ _ _ (cos x.val) (cosShape r0 hk1.1) hk1.2 ((abs_cos_sub _ _).trans t2)
    rw [ht] at this
    exact this
  · obtain ⟨r0, n, r1, r2⟩ := sinRed t0 hk hk' t1
    have hk1 := key _ _ r1 r2
    have e : sin (2 * π * (t.val - n)) = sin (2 * π * t.val) := by
      rw [show 2 * π * (t.val - n) = 2 * π * t.val - n * (2 * π) by ring, sin_sub_int_mul_two_pi]
    rw [e] at hk1
    have := fin _ _ _ (sin x.val) (sinShape r0 hk1.1) hk1.2 ((abs_sin_sub _ _).trans t2)
    rw [ht] at this
    exact this

/-- The declared property: cosine and sine up to 0.0012 for every finite `double`, up to a rounding of one part in a million. -/
def C87_statement : Prop := ∀ x : Dbl, x.Fin → |(fastCosSin x).1.val - cos x.val| ≤ 12 / 10000 + 1 / 10 ^ 6 ∧ |(fastCosSin x).2.val - sin x.val| ≤ 12 / 10000 + 1 / 10 ^ 6

/-- C87 fails for large arguments: 10^18 gives the pair (0, 0), which is the cosine and the sine of no angle. -/
theorem C87_violated : fastCosSin (d (10 ^ 19) 1) = (d 0 0, d 0 0) ∧ ¬ C87_statement := by
  have h : fastCosSin (d (10 ^ 19) 1) = (d 0 0, d 0 0) := by decide +kernel
  refine ⟨h, fun hs => ?_⟩
  obtain ⟨h1, h2⟩ := hs (d (10 ^ 19) 1) (by decide +kernel)
  rw [h] at h1 h2
  have h0 : (d 0 0).val = 0 := by
    have : (d 0 0).x = .zero .positive := by decide +kernel
    unfold Fp.val
    rw [this]
    rfl
  dsimp only at h1 h2
  rw [h0, zero_sub, abs_neg] at h1 h2
  have h3 := sin_sq_add_cos_sq (d (10 ^ 19) 1).val
  rw [← sq_abs, ← sq_abs (cos _)] at h3
  generalize hd : |sin (d (10 ^ 19) 1).val| = a at *
  generalize hc : |cos (d (10 ^ 19) 1).val| = b at *
  have : 0 ≤ b := by rw [← hc]; exact abs_nonneg _
  have : 0 ≤ a := by rw [← hd]; exact abs_nonneg _
  norm_num at h1 h2
  nlinarith

/-- C87, infinite and NaN arguments: both results are NaN. -/
theorem C87_inf (x : Dbl) (hx : ¬ x.Fin) : (fastCosSin x).1.NaN ∧ (fastCosSin x).2.NaN := by
  rcases x with ⟨u, h⟩
  cases u with
  | infinity s =>
    cases s
    · show (fastCosSin ⟨.infinity .negative, trivial⟩).1.NaN ∧ (fastCosSin ⟨.infinity .negative, trivial⟩).2.NaN
      decide +kernel
    · show (fastCosSin ⟨.infinity .positive, trivial⟩).1.NaN ∧ (fastCosSin ⟨.infinity .positive, trivial⟩).2.NaN
      decide +kernel
  | notANumber =>
    show (fastCosSin ⟨.notANumber, trivial⟩).1.NaN ∧ (fastCosSin ⟨.notANumber, trivial⟩).2.NaN
    decide +kernel
  | zero s => exact absurd trivial hx
  | finite s m e hm => exact absurd trivial hx

-- one radian: 0.5397..., 0.8417... (the cosine is 0.5403..., the sine 0.8414...)
example : (fastCosSin (d 10 1)).1.Fin ∧ (fastCosSin (d 10 1)).2.Fin := by decide +kernel

end Verif.FunctionsFp
