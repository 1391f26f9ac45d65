import Verif.Geometry2Fp.Angle

/-! Property theorem C92, exact condition on the first negative turn (see properties.jsonl). -/
namespace Verif.Geometry2Fp
open Ieee Fp Float.Model FunctionsFp Real

/-- A sum below an odd number of the format is rounded up to it exactly when it is less than half an ulp below. -/
theorem round_up_odd {x d : ℝ} {y : UnpackedFloat} {q j : ℤ} (h : Rounded .binary32 x y) (he : Odd q) (hq1 : 2 ^ 23 < q) (hq2 : q < 2 ^ 24) (hj : -149 ≤ j)
    (hx : x = q * 2 ^ j + d) (hd : d ≤ 0) (h0 : 0 ≤ x) : val y < q * 2 ^ j ↔ d ≤ -(2 ^ j / 2) := by
  obtain ⟨t, r, t1, t2, t3, t4, t5, t6⟩ := h.even
  have hP := two_pow_pos j
  have hPt := two_pow_pos t
  have hq1' : (2 : ℝ) ^ 23 + 1 ≤ q := by exact_mod_cast hq1
  have hq2' : (q : ℝ) + 1 ≤ 2 ^ 24 := by exact_mod_cast hq2
  have hle : val y ≤ q * 2 ^ j := h.mono_le ⟨q, j, by
    rw [mb.2, abs_of_pos (by linarith [show (0 : ℝ) < 2 ^ 23 by norm_num])]
    norm_num at hq2' ⊢
    linarith, by rw [min32]; exact hj, rfl⟩ (by linarith)
  rw [abs_of_nonneg h0] at t2 t3
  have htj : t ≤ j := by
    rcases t3 with t3 | t3
    · rw [t3, min32]; exact hj
    · by_contra hn
      have : (2 : ℝ) ^ (24 + j) ≤ x := le_trans (two_pow_le (by rw [mb.2]; omega)) t3
      rw [two_pow_add] at this
      norm_num at this hq2'
      nlinarith
  constructor
  · intro hlt
    by_contra hn
    rw [not_le] at hn
    have hx1 : 2 ^ (23 + j) < x := by
      rw [two_pow_add, hx]
      norm_num at hq1' ⊢
      nlinarith
    have hjt : j ≤ t := by
      by_contra hn'
      have : x ≤ 2 ^ (23 + j) := le_trans t2 (two_pow_le (by rw [mb.2]; omega))
      linarith
    obtain rfl : t = j := le_antisymm htj hjt
    have ex : x / 2 ^ t = q + d / 2 ^ t := by rw [hx]; field_simp
    have hd1 : -(1 / 2) < d / 2 ^ t := by rw [lt_div_iff₀ hP]; linarith
    rw [ex] at t4
    rw [t6] at hlt
    have hr : r < q := by exact_mod_cast lt_of_mul_lt_mul_right hlt hP.le
    have hr' : (r : ℝ) + 1 ≤ q := by exact_mod_cast hr
    linarith [(abs_le.1 t4).1]
  · intro hlt
    refine lt_of_le_of_ne hle fun heq => ?_
    have hb := (abs_le.1 t4).2
    have h1 : (r : ℝ) * 2 ^ t - x ≤ 2 ^ t / 2 := by
      have := mul_le_mul_of_nonneg_right hb hPt.le
      rw [sub_mul, div_mul_cancel₀ _ hPt.ne'] at this
      linarith
    have hle2 := two_pow_le htj
    have heq' := heq
    rw [t6] at heq'
    rw [heq', hx] at h1
    have ej : t = j := by
      by_contra hne
      have h2 : (2 : ℝ) ^ (t + 1) ≤ 2 ^ j := two_pow_le (by omega)
      rw [two_pow_add, zpow_one] at h2
      linarith
    subst ej
    have hrq : r = q := by exact_mod_cast mul_right_cancel₀ hP.ne' heq'
    have hodd := t5 (by
      have ex : x / 2 ^ t = q + d / 2 ^ t := by rw [hx]; field_simp
      have e2 : d = -(2 ^ t / 2) := by linarith
      rw [hrq, ex, e2, show -((2 : ℝ) ^ t / 2) / 2 ^ t = -(1 / 2) by field_simp]
      rw [abs_of_nonneg] <;> linarith)
    rw [hrq] at hodd
    exact Int.not_even_iff_odd.2 he hodd

/-- A `float` above -2^-22 is above it by an ulp. -/
theorem gap_half {a : Flt} (h1 : -(1 / 2 ^ 22) < a.val) : -(16777215 / 2 ^ 46) ≤ a.val := by
  obtain ⟨p, u, hp, hu, he⟩ := a.grid
  rw [he] at h1 ⊢
  rcases le_or_gt (-46) u with hj | hj
  · obtain ⟨n, hn⟩ : ∃ n : ℕ, u = -46 + n := ⟨(u + 46).toNat, by omega⟩
    have h9 : (p : ℝ) * 2 ^ u = ((p * 2 ^ n : ℤ) : ℝ) / 2 ^ 46 := by
      rw [hn, two_pow_add, zpow_natCast]
      push_cast
      norm_num
      ring
    rw [h9] at h1 ⊢
    rw [lt_div_iff₀ (by norm_num)] at h1
    rw [le_div_iff₀ (by norm_num)]
    norm_num at h1 ⊢
    have h11 : -16777216 < p * 2 ^ n := by exact_mod_cast h1
    have h12 : -16777215 ≤ p * 2 ^ n := by omega
    exact_mod_cast h12
  · have h13 : -(2 ^ 24 * 2 ^ u) ≤ (p : ℝ) * 2 ^ u := by
      rw [← neg_mul]
      apply mul_le_mul_of_nonneg_right _ (two_pow_pos u).le
      have := (abs_le.1 hp).1
      rw [mb.2] at this
      exact_mod_cast this
    have h14 : (2 : ℝ) ^ u ≤ 2 ^ (-47 : ℤ) := two_pow_le (by omega)
    norm_num at h13 h14 ⊢
    linarith

/-- The quotient of an angle of the first negative turn is rounded down to -1. -/
theorem quot_neg {a : Flt} (ha : a.Fin) (h0 : -k2pif.val ≤ a.val) (h1 : a.val ≤ -2 ^ (-146 : ℤ)) : (a / k2pif).Fin ∧ ⌊(a / k2pif).val⌋ = -1 := by
  obtain ⟨hT, hTv⟩ := k2pif_val
  have hT0 : 0 < k2pif.val := by rw [hTv]; norm_num
  have h7 : k2pif.val ≤ 7 := by rw [hTv]; norm_num
  have hq1 : -1 ≤ a.val / k2pif.val := by rw [le_div_iff₀ hT0]; linarith
  have hp' := two_pow_pos (-149)
  have hq2 : a.val / k2pif.val ≤ -2 ^ (-149 : ℤ) := by
    rw [div_le_iff₀ hT0]
    have e : (2 : ℝ) ^ (-146 : ℤ) = 8 * 2 ^ (-149 : ℤ) := by
      rw [show (-146 : ℤ) = 3 + (-149) by norm_num, two_pow_add]
      norm_num
    nlinarith
  have hq : (a / k2pif).Is (a.val / k2pif.val) := div_is ha hT hT0.ne' (by
    refine le_trans ?_ (two_pow_le (j := 0) (by decide))
    rw [zpow_zero, abs_le]
    constructor <;> linarith)
  have g1 : Grid .binary32 (-1 : ℝ) := by
    have := (grid_two_pow (spec := .binary32) (k := 0) (by decide)).neg
    rwa [zpow_zero] at this
  have g2 : Grid .binary32 (-2 ^ (-149 : ℤ) : ℝ) := (grid_two_pow (spec := .binary32) (k := -149) (by decide)).neg
  have q1 : -1 ≤ (a / k2pif).val := hq.2.mono_ge g1 hq1
  have q2 : (a / k2pif).val ≤ -2 ^ (-149 : ℤ) := hq.2.mono_le g2 hq2
  refine ⟨hq.1, ?_⟩
  rw [Int.floor_eq_iff]
  push_cast
  exact ⟨q1, by linarith⟩

/-- C92 on the first negative turn, exact condition, for both forms of `floor`: the result is never negative, and it is below the turn used by the code if and only if the angle is at most -2^-22;
the angles between this bound and 0 give the excluded end of the interval, which is greater than 2π. -/
theorem C92_turn_iff (dbl : Bool) (a : Flt) (ha : a.Fin) (h0 : -k2pif.val ≤ a.val) (h1 : a.val ≤ -2 ^ (-146 : ℤ)) :
    0 ≤ (normalizeAngle2Pi dbl a).val ∧ (normalizeAngle2Pi dbl a).val ≤ k2pif.val ∧ ((normalizeAngle2Pi dbl a).val < k2pif.val ↔ a.val ≤ -(1 / 2 ^ 22)) := by
  obtain ⟨hT, hTv⟩ := k2pif_val
  obtain ⟨hqf, hfl⟩ := quot_neg ha h0 h1
  have hp := two_pow_pos (-146)
  have h7 : k2pif.val ≤ 7 := by rw [hTv]; norm_num
  have hT0 : 0 < k2pif.val := by rw [hTv]; norm_num
  have eT : k2pif.val = (13176795 : ℤ) * 2 ^ (-21 : ℤ) := by rw [hTv]; norm_num
  have eh : (2 : ℝ) ^ (-21 : ℤ) / 2 = 1 / 2 ^ 22 := by norm_num
  have eneg : k2pif.val * ((-1 : ℤ) : ℝ) = -k2pif.val := by push_cast; ring
  have b7 : |-k2pif.val| ≤ 2 ^ (3 : ℤ) := by
    rw [abs_neg, abs_of_pos hT0]
    norm_num
    linarith
  have bs : |a.val + k2pif.val| ≤ 2 ^ (3 : ℤ) := by
    rw [abs_le]
    norm_num
    constructor <;> linarith
  have b1 : |((-1 : ℤ) : ℝ)| ≤ 2 ^ (0 : ℤ) := by norm_num
  cases dbl with
  | false =>
    have hf := floor_is hqf (by rw [hfl]; exact b1.trans (two_pow_le (by decide)))
    rw [hfl] at hf
    have hm := mul_is hT hf.1 (by rw [hf.2, eneg]; exact b7.trans (two_pow_le (by decide)))
    rw [hf.2, eneg] at hm
    have hm0 : (k2pif * floor (a / k2pif)).val = -k2pif.val := hm.2.exact k2pif.grid.neg
    have hs := sub_is ha hm.1 (by rw [hm0, sub_neg_eq_add]; exact bs.trans (two_pow_le (by decide)))
    rw [hm0, sub_neg_eq_add] at hs
    have hi := round_up_odd (q := 13176795) (j := -21) (d := a.val) hs.2 (by decide) (by norm_num) (by norm_num) (by norm_num) (by rw [eT]; ring) (by linarith) (by linarith)
    rw [← eT, eh] at hi
    exact ⟨hs.2.mono_ge grid_zero (by linarith), hs.2.mono_le k2pif.grid (by linarith), hi⟩
  | true =>
    have wq := wide_is hqf
    have wa := wide_is ha
    have wT := wide_is hT
    have hf := floor_is wq.1 (by rw [wq.2, hfl]; exact b1.trans (two_pow_le (by decide)))
    rw [wq.2, hfl] at hf
    have hm := mul_is wT.1 hf.1 (by rw [hf.2, wT.2, eneg]; exact b7.trans (two_pow_le (by decide)))
    rw [hf.2, wT.2, eneg] at hm
    have gT : Grid .binary64 k2pif.val := by rw [← wT.2]; exact (wide k2pif).grid
    have hm0 : (wide k2pif * floor (wide (a / k2pif))).val = -k2pif.val := hm.2.exact gT.neg
    have hs := sub_is wa.1 hm.1 (by rw [hm0, sub_neg_eq_add, wa.2]; exact bs.trans (two_pow_le (by decide)))
    rw [hm0, sub_neg_eq_add, wa.2] at hs
    obtain ⟨v, hv⟩ : ∃ v, v = (wide a - wide k2pif * floor (wide (a / k2pif))).val := ⟨_, rfl⟩
    have v0 : 0 ≤ v := by rw [hv]; exact hs.2.mono_ge grid_zero (by linarith)
    have v1 : v ≤ k2pif.val := by rw [hv]; exact hs.2.mono_le gT (by linarith)
    have hc := conv_is (spec := .binary32) hs.1 (by
      rw [← hv]
      refine le_trans ?_ (two_pow_le (j := 3) (by decide))
      rw [abs_of_nonneg v0]
      norm_num
      linarith)
    rw [← hv] at hc
    have hi := round_up_odd (q := 13176795) (j := -21) (d := v - k2pif.val) hc.2 (by decide) (by norm_num) (by norm_num) (by norm_num) (by rw [← eT]; ring) (by linarith) v0
    rw [← eT, eh] at hi
    refine ⟨hc.2.mono_ge grid_zero v0, hc.2.mono_le k2pif.grid v1, hi.trans ⟨fun hle => ?_, fun hle => ?_⟩⟩
    · by_contra hn
      have hg := gap_half (not_le.1 hn)
      have g3 : Grid .binary64 (k2pif.val - 16777215 / 2 ^ 46) := ⟨13176795 * 2 ^ 25 - 16777215, -46, by
        rw [mb.1]
        norm_num, by decide, by
        rw [hTv]
        norm_num⟩
      have : k2pif.val - 16777215 / 2 ^ 46 ≤ v := by rw [hv]; exact hs.2.mono_ge g3 (by linarith)
      norm_num at this hle
      linarith
    · have g3 : Grid .binary64 (k2pif.val - 1 / 2 ^ 22) := ⟨13176795 * 2 - 1, -22, by
        rw [mb.1]
        norm_num, by decide, by
        rw [hTv]
        norm_num⟩
      have : v ≤ k2pif.val - 1 / 2 ^ 22 := by rw [hv]; exact hs.2.mono_le g3 (by linarith)
      linarith

/-- Examples: -1 is moved inside the interval, -10^-10 to the excluded end; the quotient of the number nearest to 0 vanishes, so that it stays negative. -/
example : normalizeAngle2Pi true (-f 1 0) < k2pif ∧ normalizeAngle2Pi true (-f 1 10) = k2pif ∧ normalizeAngle2Pi false (-f 1 10) = k2pif ∧
    normalizeAngle2Pi false (-f 14 46) = -f 14 46 := by decide +kernel

end Verif.Geometry2Fp
