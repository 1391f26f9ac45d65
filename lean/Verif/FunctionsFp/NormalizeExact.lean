import Verif.FunctionsFp.Normalize

/-! Property theorem C88, exact condition on the first negative turn (see properties.jsonl). -/
namespace Verif.FunctionsFp
open Ieee Fp Float.Model Real

/-- On the first negative turn one turn is added and the sum is rounded once. -/
theorem norm_neg {T a : Dbl} (hT : T.Fin) (h3 : 3 ≤ T.val) (h7 : T.val ≤ 7) (ha : a.Fin) (h0 : -T.val ≤ a.val) (h1 : a.val ≤ -2 ^ (-1071 : ℤ)) :
    (norm T a).Is (T.val + a.val) := by
  have hT0 : 0 < T.val := by linarith
  have hp := two_pow_pos (-1071)
  have hq1 : -1 ≤ a.val / T.val := by rw [le_div_iff₀ hT0]; linarith
  have hq2 : a.val / T.val ≤ -2 ^ (-1074 : ℤ) := by
    rw [div_le_iff₀ hT0]
    have e : (2 : ℝ) ^ (-1071 : ℤ) = 8 * 2 ^ (-1074 : ℤ) := by
      rw [show (-1071 : ℤ) = 3 + (-1074) by norm_num, two_pow_add]
      norm_num
    have := two_pow_pos (-1074)
    nlinarith
  have hp' := two_pow_pos (-1074)
  have hq : (a / T).Is (a.val / T.val) := div_is ha hT hT0.ne' (by
    refine le_trans ?_ (two_pow_le (j := 0) (by decide))
    rw [zpow_zero, abs_le]
    constructor <;> linarith)
  have g1 : Grid .binary64 (-1 : ℝ) := by
    have := (grid_two_pow (spec := .binary64) (k := 0) (by decide)).neg
    rwa [zpow_zero] at this
  have g2 : Grid .binary64 (-2 ^ (-1074 : ℤ) : ℝ) := (grid_two_pow (spec := .binary64) (k := -1074) (by decide)).neg
  have q1 : -1 ≤ (a / T).val := hq.2.mono_ge g1 hq1
  have q2 : (a / T).val ≤ -2 ^ (-1074 : ℤ) := hq.2.mono_le g2 hq2
  have hfl : ⌊(a / T).val⌋ = -1 := by
    rw [Int.floor_eq_iff]
    push_cast
    exact ⟨q1, by linarith⟩
  have hf := floor_is hq.1 (by
    rw [hfl]
    refine le_trans ?_ (two_pow_le (j := 0) (by decide))
    norm_num)
  rw [hfl] at hf
  have hb : |T.val * (floor (a / T)).val| ≤ 2 ^ top .binary64 := by
    refine le_trans ?_ (two_pow_le (j := 3) (by decide))
    rw [hf.2, abs_le]
    push_cast
    norm_num
    constructor <;> linarith
  have hm := mul_is hT hf.1 hb
  rw [hf.2] at hm
  have hm0 : (T * floor (a / T)).val = -T.val := by
    have e : T.val * ((-1 : ℤ) : ℝ) = -T.val := by push_cast; ring
    rw [e] at hm
    exact hm.2.exact T.grid.neg
  have hs := sub_is ha hm.1 (by
    rw [hm0]
    refine le_trans ?_ (two_pow_le (j := 3) (by decide))
    rw [abs_le]
    norm_num
    constructor <;> linarith)
  rw [hm0, sub_neg_eq_add, add_comm] at hs
  exact hs

/-- A sum below an even number of the format is rounded up to it exactly when it is at most half an ulp below. -/
theorem round_up_iff {x d : ℝ} {y : UnpackedFloat} {q j : ℤ} (h : Rounded .binary64 x y) (he : Even q) (hq1 : 2 ^ 52 < q) (hq2 : q < 2 ^ 53) (hj : -1074 ≤ j)
    (hx : x = q * 2 ^ j + d) (hd : d < 0) (h0 : 0 ≤ x) : val y < q * 2 ^ j ↔ d < -(2 ^ j / 2) := by
  obtain ⟨t, r, t1, t2, t3, t4, t5, t6⟩ := h.even
  have hP := two_pow_pos j
  have hPt := two_pow_pos t
  have hq1' : (2 : ℝ) ^ 52 + 1 ≤ q := by exact_mod_cast hq1
  have hq2' : (q : ℝ) + 1 ≤ 2 ^ 53 := by exact_mod_cast hq2
  have hmin : Format.binary64.minExponent = -1074 := by decide
  have hle : val y ≤ q * 2 ^ j := h.mono_le ⟨q, j, by
    rw [mb.1, abs_of_pos (by linarith [show (0 : ℝ) < 2 ^ 52 by norm_num])]
    norm_num at hq2' ⊢
    linarith, by rw [hmin]; exact hj, rfl⟩ (by linarith)
  rw [abs_of_nonneg h0] at t2 t3
  have htj : t ≤ j := by
    rcases t3 with t3 | t3
    · rw [t3, hmin]; exact hj
    · by_contra hn
      have : (2 : ℝ) ^ (53 + j) ≤ x := le_trans (two_pow_le (by rw [mb.1]; omega)) t3
      rw [two_pow_add] at this
      norm_num at this hq2'
      nlinarith
  constructor
  · intro hlt
    by_contra hn
    rw [not_lt] at hn
    have hx1 : 2 ^ (52 + j) < x := by
      rw [two_pow_add, hx]
      norm_num at hq1' ⊢
      nlinarith
    have hjt : j ≤ t := by
      by_contra hn'
      have : x ≤ 2 ^ (52 + j) := le_trans t2 (two_pow_le (by rw [mb.1]; omega))
      linarith
    obtain rfl : t = j := le_antisymm htj hjt
    have ex : x / 2 ^ t = q + d / 2 ^ t := by rw [hx]; field_simp
    have hd1 : -(1 / 2) ≤ d / 2 ^ t := by rw [le_div_iff₀ hP]; linarith
    have hd2 : d / 2 ^ t < 0 := div_neg_of_neg_of_pos hd hP
    rw [ex] at t4 t5
    rw [t6] at hlt
    have hr : r < q := by exact_mod_cast lt_of_mul_lt_mul_right hlt hP.le
    have hr' : (r : ℝ) + 1 ≤ q := by exact_mod_cast hr
    have hb := abs_le.1 t4
    have e1 : (r : ℝ) = q - 1 := by linarith [hb.1]
    have hodd := t5 (by
      rw [e1]
      have e2 : d / 2 ^ t = -(1 / 2) := by rw [e1] at hb; linarith [hb.1]
      rw [e2, abs_of_nonpos] <;> linarith)
    have e3 : r = q - 1 := by exact_mod_cast e1
    rw [e3] at hodd
    exact (Int.even_sub_one.1 hodd) he
  · intro hlt
    refine lt_of_le_of_ne hle fun heq => ?_
    have hb := (abs_le.1 t4).2
    have h1 : (r : ℝ) * 2 ^ t - x ≤ 2 ^ t / 2 := by
      have := mul_le_mul_of_nonneg_right hb hPt.le
      rw [sub_mul, div_mul_cancel₀ _ hPt.ne'] at this
      linarith
    rw [← t6, heq, hx] at h1
    have := two_pow_le htj
    linarith

/-- C88 on the first negative turn, exact condition: the result is never negative, and it is below the turn used by the code if and only if the angle is below -2^-51 (for the full turn) or
-2^-52 (for half a turn); the angles between this bound and 0 give the excluded end of the interval. -/
theorem C88_turn_iff (a : Dbl) (ha : a.Fin) (h1 : a.val ≤ -2 ^ (-1071 : ℤ)) :
    (-k2pi.val ≤ a.val → 0 ≤ (normalize360 a).val ∧ (normalize360 a).val ≤ k2pi.val ∧ ((normalize360 a).val < k2pi.val ↔ a.val < -(1 / 2 ^ 51))) ∧
    (-mPi.val ≤ a.val → 0 ≤ (normalize180 a).val ∧ (normalize180 a).val ≤ mPi.val ∧ ((normalize180 a).val < mPi.val ↔ a.val < -(1 / 2 ^ 52))) := by
  have hp := two_pow_pos (-1071)
  constructor
  · intro h0
    have h := norm_neg k2pi_fin (by rw [k2pi_val]; norm_num) (by rw [k2pi_val]; norm_num) ha h0 h1
    rw [normalize360_norm]
    have e : k2pi.val = (7074237752028906 : ℤ) * 2 ^ (-50 : ℤ) := by rw [k2pi_val]; norm_num
    have hi := round_up_iff (q := 7074237752028906) (j := -50) (d := a.val) h.2 (by decide) (by norm_num) (by norm_num) (by norm_num) (by rw [e]) (by linarith) (by linarith)
    rw [← e, show (2 : ℝ) ^ (-50 : ℤ) / 2 = 1 / 2 ^ 51 by norm_num] at hi
    exact ⟨h.2.mono_ge grid_zero (by linarith), h.2.mono_le k2pi.grid (by linarith), hi⟩
  · intro h0
    have h := norm_neg mPi_fin (by rw [mPi_val.1]; norm_num) (by rw [mPi_val.1]; norm_num) ha h0 h1
    rw [normalize180_norm]
    have e : mPi.val = (7074237752028440 : ℤ) * 2 ^ (-51 : ℤ) := by rw [mPi_val.1]; norm_num
    have hi := round_up_iff (q := 7074237752028440) (j := -51) (d := a.val) h.2 (by decide) (by norm_num) (by norm_num) (by norm_num) (by rw [e]) (by linarith) (by linarith)
    rw [← e, show (2 : ℝ) ^ (-51 : ℤ) / 2 = 1 / 2 ^ 52 by norm_num] at hi
    exact ⟨h.2.mono_ge grid_zero (by linarith), h.2.mono_le mPi.grid (by linarith), hi⟩

/-- Examples: -1 is moved inside both intervals; -10^-20 is moved to the excluded ends; the quotient of the number nearest to 0 vanishes, so that it stays negative. -/
example : normalize360 (-d 1 0) ≠ k2pi ∧ normalize180 (-d 1 0) ≠ mPi ∧ normalize360 (-d 1 20) = k2pi ∧ normalize180 (-d 1 20) = mPi ∧
    normalize360 (-d 5 324) = -d 5 324 := by decide +kernel

end Verif.FunctionsFp
