import Verif.FunctionsFp.AtanProps

/-!
C88: the normalisation of angles in floating point arithmetic.
-/
namespace Verif.FunctionsFp
open Ieee Fp Float.Model Real

/-- The common form of the two functions, with the turn `T`. -/
def norm (T a : Dbl) : Dbl := a - T * floor (a / T)

theorem normalize360_norm (a : Dbl) : normalize360 a = norm k2pi a := rfl

theorem normalize180_norm (a : Dbl) : normalize180 a = norm mPi a := rfl

theorem norm_near {T a : Dbl} (hT : T.Fin) (h3 : 3 ≤ T.val) (h7 : T.val ≤ 7) (ha : a.Fin) {k : ℤ} (hk : 3 ≤ k) (hk' : k ≤ 50) (hb : |a.val| ≤ 2 ^ k) :
    (norm T a).Fin ∧ (∃ n : ℤ, |(norm T a).val - (a.val - n * T.val)| ≤ 2 ^ k / 2 ^ 52) ∧ -(2 ^ k / 2 ^ 51) ≤ (norm T a).val ∧ (norm T a).val ≤ T.val + 2 ^ k / 2 ^ 51 := by
  have hT0 : 0 < T.val := by linarith
  obtain ⟨P, hP⟩ : ∃ P : ℝ, P = 2 ^ k := ⟨_, rfl⟩
  have hP8 : 8 ≤ P := by
    have := two_pow_le hk
    rw [← hP] at this
    norm_num at this
    exact this
  have hP50 : P ≤ 2 ^ 50 := by
    have := two_pow_le hk'
    rw [← hP] at this
    norm_num at this ⊢
    exact this
  have e1 : (2 : ℝ) ^ (k - 1) = P / 2 := by rw [two_pow_sub, zpow_one, hP]
  have e2 : (2 : ℝ) ^ (k - 1 - (Format.binary64.mantissaBits : ℤ) - 1) = P / 2 ^ 55 := by
    rw [two_pow_sub, two_pow_sub, e1, mb.1]
    norm_num
    ring
  have e3 : (2 : ℝ) ^ (k + 1) = P * 2 := by rw [two_pow_add, zpow_one, hP]
  have e4 : (2 : ℝ) ^ (k + 1 - (Format.binary64.mantissaBits : ℤ) - 1) = P / 2 ^ 53 := by
    rw [two_pow_sub, two_pow_sub, e3, mb.1]
    norm_num
    ring
  have htop : top Format.binary64 = 1023 := by decide
  have hmin : Format.binary64.minExponent + Format.binary64.mantissaBits = -1021 := by decide
  rw [← hP] at hb ⊢
  -- the quotient
  have hq1 : |a.val / T.val| ≤ 2 ^ (k - 1) := by
    rw [abs_div, abs_of_pos hT0, div_le_iff₀ hT0, e1]
    nlinarith
  have hq := div_is ha hT hT0.ne' (hq1.trans (two_pow_le (by omega)))
  have hqe := hq.2.err (k := k - 1) (by omega) hq1
  rw [e2] at hqe
  have hqa := hq.2.abs_le (k := k - 1) (by rw [show Format.binary64.minExponent = -1074 by decide]; omega) hq1
  change |(a / T).val - a.val / T.val| ≤ _ at hqe
  change |(a / T).val| ≤ _ at hqa
  obtain ⟨q, hqq⟩ : ∃ q, q = (a / T).val := ⟨_, rfl⟩
  rw [← hqq] at hqe hqa
  rw [e1] at hqa
  -- the floor
  have hf0 : |(⌊q⌋ : ℝ)| ≤ P := by
    have h1 := Int.floor_le q
    have h2 := Int.lt_floor_add_one q
    rw [abs_le] at hqa ⊢
    constructor <;> linarith
  have hf := floor_is hq.1 (by rw [← hqq]; exact hf0.trans (by rw [hP]; exact two_pow_le (by omega)))
  rw [← hqq] at hf
  obtain ⟨n, hn⟩ : ∃ n, n = ⌊q⌋ := ⟨_, rfl⟩
  rw [← hn] at hf hf0
  have n1 : (n : ℝ) ≤ q := by rw [hn]; exact Int.floor_le q
  have n2 : q < n + 1 := by rw [hn]; exact Int.lt_floor_add_one q
  obtain ⟨r, hr⟩ : ∃ r, r = a.val / T.val := ⟨_, rfl⟩
  have hrT : a.val = r * T.val := by rw [hr]; field_simp
  rw [← hr] at hqe
  rw [abs_le] at hqe
  have hrn1 : -(P / 2 ^ 55) ≤ r - n := by linarith
  have hrn2 : r - n ≤ 1 + P / 2 ^ 55 := by linarith
  have hPs : P / 2 ^ 55 ≤ 1 / 32 := by
    rw [div_le_iff₀ (by norm_num)]
    norm_num at hP50 ⊢
    linarith
  have hPp : 0 ≤ P / 2 ^ 55 := by positivity
  have d1 : -(7 * (P / 2 ^ 55)) ≤ a.val - n * T.val := by
    rw [hrT, ← sub_mul]
    nlinarith
  have d2 : a.val - n * T.val ≤ T.val + 7 * (P / 2 ^ 55) := by
    rw [hrT, ← sub_mul]
    nlinarith
  -- the product
  have hm1 : |T.val * (floor (a / T)).val| ≤ 2 ^ (k + 1) := by
    rw [hf.2, e3]
    rw [abs_le] at hb ⊢
    constructor <;> linarith
  have hm := mul_is hT hf.1 (hm1.trans (two_pow_le (by omega)))
  have hme := hm.2.err (k := k + 1) (by omega) hm1
  rw [e4] at hme
  change |(T * floor (a / T)).val - _| ≤ _ at hme
  rw [hf.2] at hme
  obtain ⟨w, hw⟩ : ∃ w, w = (T * floor (a / T)).val := ⟨_, rfl⟩
  rw [← hw, abs_le] at hme
  have e5 : P / 2 ^ 53 = 4 * (P / 2 ^ 55) := by norm_num; ring
  have e6 : P / 2 ^ 52 = 8 * (P / 2 ^ 55) := by norm_num; ring
  have e7 : P / 2 ^ 51 = 16 * (P / 2 ^ 55) := by norm_num; ring
  have e8 : (1 / 2 ^ 51 : ℝ) ≤ 2 * (P / 2 ^ 55) := by norm_num; linarith
  rw [e5] at hme
  -- the difference
  have hs1 : |a.val - w| ≤ 2 ^ (3 : ℤ) := by
    rw [show (2 : ℝ) ^ (3 : ℤ) = 8 by norm_num, abs_le]
    constructor <;> linarith
  have hs := sub_is ha hm.1 (by rw [← hw]; exact hs1.trans (two_pow_le (by decide)))
  rw [← hw] at hs
  have hse := hs.2.err (k := 3) (by decide) hs1
  rw [show (2 : ℝ) ^ (3 - (Format.binary64.mantissaBits : ℤ) - 1) = 1 / 2 ^ 51 by rw [mb.1]; norm_num] at hse
  change |(norm T a).val - (a.val - w)| ≤ _ at hse
  rw [abs_le] at hse
  refine ⟨hs.1, ⟨n, ?_⟩, ?_, ?_⟩
  · rw [abs_le, e6]
    constructor <;> linarith
  · rw [e7]
    linarith
  · rw [e7]
    linarith

/-- Numbers in [0, T) are not changed. -/
theorem norm_fix {T a : Dbl} (hT : T.Fin) (h3 : 3 ≤ T.val) (h7 : T.val ≤ 7) (ha : a.Fin) (h0 : 0 ≤ a.val) (h1 : a.val < T.val)
    (hgap : a.val ≤ T.val * (1 - 1 / 2 ^ 53)) : (norm T a).Fin ∧ (norm T a).val = a.val := by
  have hT0 : 0 < T.val := by linarith
  have hq0 : 0 ≤ a.val / T.val := div_nonneg h0 hT0.le
  have hq1 : a.val / T.val ≤ 1 - 1 / 2 ^ 53 := by rw [div_le_iff₀ hT0]; linarith
  have hq : (a / T).Is (a.val / T.val) := div_is ha hT hT0.ne' (by
    refine le_trans ?_ (two_pow_le (j := 0) (by decide))
    rw [abs_of_nonneg hq0, zpow_zero]
    norm_num at hq1
    linarith)
  have hg : Grid .binary64 ((1 : ℝ) - 1 / 2 ^ 53) := by
    refine ⟨2 ^ 53 - 1, -53, ?_, by decide, ?_⟩
    · rw [mb.1]
      norm_num
    · norm_num
  have hq2 : 0 ≤ (a / T).val := hq.2.mono_ge grid_zero hq0
  have hq3 : (a / T).val ≤ 1 - 1 / 2 ^ 53 := hq.2.mono_le hg hq1
  have hfl : ⌊(a / T).val⌋ = 0 := by
    rw [Int.floor_eq_iff]
    norm_num at hq3 ⊢
    exact ⟨hq2, by linarith⟩
  have hf := floor_is hq.1 (by rw [hfl, Int.cast_zero, abs_zero]; exact (two_pow_pos _).le)
  rw [hfl, Int.cast_zero] at hf
  have hm := mul_is hT hf.1 (by rw [hf.2, mul_zero, abs_zero]; exact (two_pow_pos _).le)
  rw [hf.2, mul_zero] at hm
  have hm0 : (T * floor (a / T)).val = 0 := hm.2.exact grid_zero
  have hs := sub_is ha hm.1 (by
    rw [hm0, sub_zero, abs_of_nonneg h0]
    refine le_trans ?_ (two_pow_le (j := 3) (by decide))
    norm_num
    linarith)
  rw [hm0, sub_zero] at hs
  exact ⟨hs.1, hs.2.exact a.grid⟩

theorem k2pi_val : k2pi.val = 3537118876014453 / 2 ^ 49 := by
  have h1 : k2pi.x = .finite .positive 7074237752028906 (-50) (by decide) := by decide +kernel
  unfold Fp.val
  rw [h1]
  simp only [Ieee.val, sgn]
  norm_num

theorem k2pi_fin : k2pi.Fin := by decide +kernel

theorem mPi_fin : mPi.Fin := by decide +kernel

/-- The declared property: the result is in [0, 2π[ and [0, π[. -/
def C88_statement : Prop := ∀ a : Dbl, a.Fin → (0 ≤ (normalize360 a).val ∧ (normalize360 a).val < 2 * π) ∧ (0 ≤ (normalize180 a).val ∧ (normalize180 a).val < π)

/-- C88, partial: for angles up to 2^50 the results are, up to 2^k/2^51, in the interval, and differ from the angle, up to 2^k/2^52, by a multiple of the turn
used by the code (K_2PI or M_PI). Missing: the exact interval, which fails, and larger angles. -/
theorem C88_normalize_partial (a : Dbl) (ha : a.Fin) (k : ℤ) (hk : 3 ≤ k) (hk' : k ≤ 50) (hb : |a.val| ≤ 2 ^ k) :
    ((normalize360 a).Fin ∧ (∃ n : ℤ, |(normalize360 a).val - (a.val - n * k2pi.val)| ≤ 2 ^ k / 2 ^ 52) ∧
      -(2 ^ k / 2 ^ 51) ≤ (normalize360 a).val ∧ (normalize360 a).val ≤ k2pi.val + 2 ^ k / 2 ^ 51) ∧
    ((normalize180 a).Fin ∧ (∃ n : ℤ, |(normalize180 a).val - (a.val - n * mPi.val)| ≤ 2 ^ k / 2 ^ 52) ∧
      -(2 ^ k / 2 ^ 51) ≤ (normalize180 a).val ∧ (normalize180 a).val ≤ mPi.val + 2 ^ k / 2 ^ 51) :=
  ⟨norm_near k2pi_fin (by rw [k2pi_val]; norm_num) (by rw [k2pi_val]; norm_num) ha hk hk' hb,
    norm_near mPi_fin (by rw [mPi_val.1]; norm_num) (by rw [mPi_val.1]; norm_num) ha hk hk' hb⟩

/-- A double below the turn is below it by an ulp. -/
theorem gap {T a : Dbl} (h3 : 3 ≤ T.val) (h7 : T.val < 8) (h0 : 0 ≤ a.val) (h1 : a.val < T.val) {q : ℤ} {j : ℤ} (hT : T.val = q * 2 ^ j) (hq : (q : ℝ) ≤ 2 ^ 53) (hq' : 2 ^ 52 < (q : ℝ)) (hj : j = -50 ∨ j = -51) :
    a.val ≤ T.val * (1 - 1 / 2 ^ 53) := by
  have key : a.val ≤ T.val - 2 ^ j := by
    obtain ⟨p, u, hp, hu, he⟩ := a.grid
    have hju := two_pow_pos j
    -- the numbers of the format below T are at most its predecessor
    have hg : ∀ z : ℝ, Grid .binary64 z → z < q * 2 ^ j → z ≤ (q - 1) * 2 ^ j := by
      rintro z ⟨p, u, hp, hu, rfl⟩ hz
      rcases le_or_gt j u with hju' | hju'
      · obtain ⟨n, hn⟩ : ∃ n : ℕ, u = j + n := ⟨(u - j).toNat, by omega⟩
        have h9 : (p : ℝ) * 2 ^ u = ((p * 2 ^ n : ℤ) : ℝ) * 2 ^ j := by
          rw [hn, two_pow_add, zpow_natCast]
          push_cast
          ring
        rw [h9] at hz ⊢
        have h10 := lt_of_mul_lt_mul_right hz hju.le
        have h11 : p * 2 ^ n < q := by exact_mod_cast h10
        have h12 : p * 2 ^ n ≤ q - 1 := by omega
        apply mul_le_mul_of_nonneg_right _ hju.le
        exact_mod_cast h12
      · have h13 : (p : ℝ) * 2 ^ u ≤ 2 ^ 53 * 2 ^ u := by
          apply mul_le_mul_of_nonneg_right _ (two_pow_pos u).le
          have := (abs_le.1 hp).2
          rw [mb.1] at this
          norm_num at this ⊢
          exact this
        obtain ⟨n, hn⟩ : ∃ n : ℕ, j = u + n + 1 := ⟨(j - u - 1).toNat, by omega⟩
        have h14 : (2 : ℝ) ^ j = 2 ^ u * 2 ^ n * 2 := by rw [hn, two_pow_add, two_pow_add, zpow_natCast, zpow_one]
        have h15 : (1 : ℝ) ≤ 2 ^ n := one_le_pow₀ (by norm_num)
        have h16 := hq'
        · have h17 : (2 : ℝ) ^ 52 ≤ q - 1 := by
            have : (2 ^ 52 : ℤ) < q := by exact_mod_cast h16
            have : (2 ^ 52 : ℤ) ≤ q - 1 := by omega
            exact_mod_cast this
          have h18 : (2 : ℝ) ^ 53 * 2 ^ u ≤ 2 ^ 52 * 2 ^ j := by
            rw [h14]
            have := two_pow_pos u
            nlinarith
          calc _ ≤ _ := h13
            _ ≤ _ := h18
            _ ≤ _ := mul_le_mul_of_nonneg_right h17 hju.le
    have := hg _ a.grid (by rw [← hT]; exact h1)
    rw [hT]
    linarith
  have h2 : T.val / 2 ^ 53 ≤ 2 ^ j := by
    rw [hT, div_le_iff₀ (by norm_num)]
    have := two_pow_pos j
    nlinarith
  have : T.val * (1 - 1 / 2 ^ 53) = T.val - T.val / 2 ^ 53 := by ring
  rw [this]
  linarith

/-- C88, partial: an angle in [0, K_2PI) resp. [0, M_PI) is not changed. -/
theorem C88_fixed_partial (a : Dbl) (ha : a.Fin) (h0 : 0 ≤ a.val) : (a.val < k2pi.val → (normalize360 a).val = a.val) ∧ (a.val < mPi.val → (normalize180 a).val = a.val) := by
  constructor
  · intro h1
    have h3 : 3 ≤ k2pi.val := by rw [k2pi_val]; norm_num
    have h7 : k2pi.val ≤ 7 := by rw [k2pi_val]; norm_num
    exact (norm_fix k2pi_fin h3 h7 ha h0 h1 (gap h3 (by linarith) h0 h1 (q := 7074237752028906) (j := -50) (by rw [k2pi_val]; norm_num) (by norm_num) (by norm_num) (by decide))).2
  · intro h1
    have h3 : 3 ≤ mPi.val := by rw [mPi_val.1]; norm_num
    have h7 : mPi.val ≤ 7 := by rw [mPi_val.1]; norm_num
    exact (norm_fix mPi_fin h3 h7 ha h0 h1 (gap h3 (by linarith) h0 h1 (q := 7074237752028440) (j := -51) (by rw [mPi_val.1]; norm_num) (by norm_num) (by norm_num) (by decide))).2

/-- C88 fails above: a tiny negative angle gives K_2PI, greater than 2π, and M_PI: the upper end, which is excluded. -/
theorem C88_upper_violated : normalize360 (-d 1 20) = k2pi ∧ 2 * π < k2pi.val ∧ normalize180 (-d 1 20) = mPi := by
  refine ⟨by decide +kernel, ?_, by decide +kernel⟩
  rw [k2pi_val]
  have := pi_lt_d20
  norm_num at this ⊢
  linarith

/-- C88 fails below: 17 turns give a negative result. -/
theorem C88_lower_violated : (normalize360 (d 10681415022206 11)).val < 0 ∧ (normalize180 (d 5340707511102648 14)).val < 0 := by
  have h1 : (normalize360 (d 10681415022206 11)).x = .finite .negative 4503599627370496 (-98) (by decide) := by decide +kernel
  have h2 : (normalize180 (d 5340707511102648 14)).x = .finite .negative 4503599627370496 (-99) (by decide) := by decide +kernel
  unfold Fp.val
  rw [h1, h2]
  simp only [Ieee.val, sgn]
  constructor <;> norm_num

/-- C88 fails for large angles: 10^18 gives 128. -/
theorem C88_large_violated : normalize180 (d (10 ^ 19) 1) = d 1280 1 := by decide +kernel

theorem C88_violated : ¬ C88_statement := by
  intro h
  have h1 := (h (d 10681415022206 11) (by decide +kernel)).1.1
  linarith [C88_lower_violated.1]

-- three turns and one: 1.0000000000000002..., and an angle in the interval
example : normalize360 (d 5 1) = d 5 1 := by decide +kernel
example : (d 10681415022206 11).Fin ∧ (normalize360 (-d 10 1)).Fin := by decide +kernel

end Verif.FunctionsFp
