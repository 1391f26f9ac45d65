import Verif.FunctionsFp.AtanProps

/-! Property theorem C89, the range of `fastAtan2f` (see properties.jsonl). -/
namespace Verif.FunctionsFp
open Ieee Fp Float.Model Real

theorem fastAtanf_range {z : Flt} (hz : z.Fin) (h0 : 0 ≤ z.val) (h1 : z.val ≤ 1) : (fastAtanf z).Fin ∧ 0 ≤ (fastAtanf z).val ∧ (fastAtanf z).val ≤ 1 := by
  have ha : |z.val| ≤ 1 := by rwa [abs_of_nonneg h0]
  obtain ⟨q, hq, q0, q1, q2⟩ := (fastAtanf_core hz ha).2
  have hm := mul_nonneg h0 q1.le
  have hb : |z.val * q.val| ≤ 2 ^ (1 : ℤ) := by
    rw [abs_of_nonneg hm, zpow_one]
    nlinarith
  have hn : 0 ≤ (fastAtanf z).val := by
    rw [hq]
    exact (mul_is hz q0 (hb.trans (two_pow_le (by decide)))).2.mono_ge grid_zero hm
  have hc := C89_atanf z hz ha
  refine ⟨hc.1, hn, ?_⟩
  have := (arctan_unit h0 h1).2
  linarith [(abs_lt.1 hc.2).2]

/-- The conversion of a `float` to `double` is exact. -/
theorem conv_exact {a : Flt} (ha : a.Fin) (h0 : 0 ≤ a.val) (h2 : a.val ≤ 2) : (conv a : Dbl).Fin ∧ (conv a : Dbl).val = a.val := by
  have hb : |a.val| ≤ 2 ^ (1 : ℤ) := by rwa [abs_of_nonneg h0, zpow_one]
  have h := conv_is (spec := .binary64) ha (hb.trans (two_pow_le (by decide)))
  refine ⟨h.1, h.2.exact ?_⟩
  obtain ⟨q, u, hq, hu, he⟩ := a.grid
  exact ⟨q, u, hq.trans (two_pow_le (by decide)), le_trans (by decide) hu, he⟩

/-- The difference of a constant and a `float`, computed in `double` and rounded to `float`. -/
theorem diff_range {P : Dbl} {a : Flt} {B : ℝ} (hP : P.Fin) (hPB : P.val ≤ B) (hB : B ≤ 4) (hg : Grid .binary32 B) (ha : a.Fin) (h0 : 0 ≤ a.val) (h2 : a.val ≤ 2) (hle : a.val ≤ P.val) :
    (conv (P - conv a) : Flt).Fin ∧ 0 ≤ (conv (P - conv a) : Flt).val ∧ (conv (P - conv a) : Flt).val ≤ B := by
  obtain ⟨c1, c2⟩ := conv_exact ha h0 h2
  have b4 : ∀ v : ℝ, 0 ≤ v → v ≤ 4 → |v| ≤ 2 ^ (2 : ℤ) := by
    intro v v0 v4
    rw [abs_of_nonneg v0]
    norm_num
    exact v4
  have hs := sub_is hP c1 (by rw [c2]; exact (b4 _ (by linarith) (by linarith)).trans (two_pow_le (by decide)))
  rw [c2] at hs
  have s0 : 0 ≤ (P - conv a : Dbl).val := hs.2.mono_ge grid_zero (by linarith)
  have s1 : (P - conv a : Dbl).val ≤ P.val := hs.2.mono_le P.grid (by linarith)
  have hc := conv_is (spec := .binary32) hs.1 ((b4 _ s0 (by linarith)).trans (two_pow_le (by decide)))
  exact ⟨hc.1, hc.2.mono_ge grid_zero s0, hc.2.mono_le hg (by linarith)⟩

/-- C89, range: the absolute value of the result is at most the `float` nearest to π. Missing: the declared bound M_PI, which only this number exceeds (`C89_range_iff`). -/
theorem C89_range_partial (x y : Flt) (hx : x.Fin) (hy : y.Fin) (h : x.val ≠ 0 ∨ y.val ≠ 0) : |(fastAtan2f x y).val| ≤ 13176795 / 2 ^ 22 := by
  have hax : x.abs.Fin := abs_fin.2 hx
  have hay : y.abs.Fin := abs_fin.2 hy
  have g2 : Grid .binary32 (2 : ℝ) := by
    have := grid_two_pow (spec := .binary32) (k := 1) (by decide)
    rwa [zpow_one] at this
  have gp : Grid .binary32 (13176795 / 2 ^ 22 : ℝ) := ⟨13176795, -22, by rw [mb.2]; norm_num, by decide, by norm_num⟩
  have m1 : mPi2.val ≤ 2 ∧ 1 ≤ mPi2.val := by rw [mPi_val.2]; norm_num
  have m2 : mPi.val ≤ 13176795 / 2 ^ 22 ∧ 2 ≤ mPi.val := by rw [mPi_val.1]; norm_num
  obtain ⟨a, ha, a1, a2, a3⟩ : ∃ a : Flt, a = (if x.abs < y.abs then conv (mPi2 - conv (fastAtanf (x.abs / y.abs))) else fastAtanf (y.abs / x.abs)) ∧ a.Fin ∧ 0 ≤ a.val ∧ a.val ≤ 2 := by
    refine ⟨_, rfl, ?_⟩
    have hlt : x.abs < y.abs ↔ |x.val| < |y.val| := by rw [lt_iff hax hay, abs_val, abs_val]
    by_cases hi : |x.val| < |y.val|
    · rw [if_pos (hlt.2 hi)]
      have hy0 : 0 < |y.val| := lt_of_le_of_lt (abs_nonneg _) hi
      have hz := div_unit hax hay (by rw [abs_val]; exact abs_nonneg _) (by rwa [abs_val]) (by rw [abs_val, abs_val]; exact hi.le) (by decide) (by decide)
      obtain ⟨r1, r2, r3⟩ := fastAtanf_range hz.1.1 hz.2.1 hz.2.2
      exact diff_range mPi2_approx.1 m1.1 (by norm_num) g2 r1 r2 (by linarith) (by linarith)
    · rw [if_neg (fun h => hi (hlt.1 h))]
      have hxy := not_lt.1 hi
      have hx0 : 0 < |x.val| := by
        rcases h with h | h
        · exact abs_pos.2 h
        · exact lt_of_lt_of_le (abs_pos.2 h) hxy
      have hz := div_unit hay hax (by rw [abs_val]; exact abs_nonneg _) (by rwa [abs_val]) (by rw [abs_val, abs_val]; exact hxy) (by decide) (by decide)
      obtain ⟨r1, r2, r3⟩ := fastAtanf_range hz.1.1 hz.2.1 hz.2.2
      exact ⟨r1, r2, by linarith⟩
  have he : fastAtan2f x y = copysign (if x < lit _ 0 0 then conv (mPi - conv a) else a) y := by
    rw [ha]
    unfold fastAtan2f
    by_cases hi : x.abs < y.abs <;> simp [hi]
  rw [he, copysign_val, abs_mul, sgn_abs, one_mul, abs_abs]
  split
  · obtain ⟨-, r2, r3⟩ := diff_range mPi_approx.1 m2.1 (by norm_num) gp a1 a2 a3 (by linarith)
    rwa [abs_of_nonneg r2]
  · rw [abs_of_nonneg a2]
    norm_num
    linarith

/-- A `float` below the one nearest to π is below M_PI. -/
theorem gap_pi {v : ℝ} (hg : Grid .binary32 v) (h : v < 13176795 / 2 ^ 22) : v ≤ 13176794 / 2 ^ 22 := by
  obtain ⟨p, u, hp, hu, rfl⟩ := hg
  rcases le_or_gt (-22) u with hj | hj
  · obtain ⟨n, hn⟩ : ∃ n : ℕ, u = -22 + n := ⟨(u + 22).toNat, by omega⟩
    have h9 : (p : ℝ) * 2 ^ u = ((p * 2 ^ n : ℤ) : ℝ) / 2 ^ 22 := by
      rw [hn, two_pow_add, zpow_natCast]
      push_cast
      norm_num
      ring
    rw [h9] at h ⊢
    rw [div_lt_div_iff_of_pos_right (by norm_num)] at h
    rw [div_le_div_iff_of_pos_right (by norm_num)]
    have h11 : p * 2 ^ n < 13176795 := by exact_mod_cast h
    have h12 : p * 2 ^ n ≤ 13176794 := by omega
    exact_mod_cast h12
  · have h13 : (p : ℝ) * 2 ^ u ≤ 2 ^ 24 * 2 ^ u := by
      apply mul_le_mul_of_nonneg_right _ (two_pow_pos u).le
      have := (abs_le.1 hp).2
      rw [mb.2] at this
      exact_mod_cast this
    have h14 : (2 : ℝ) ^ u ≤ 2 ^ (-23 : ℤ) := two_pow_le (by omega)
    norm_num at h13 h14 ⊢
    linarith

/-- C89, range, exact condition: the result is in [-M_PI, M_PI] if and only if it is not the `float` nearest to π, with either sign; then it is also in [-π, π]. -/
theorem C89_range_iff (x y : Flt) (hx : x.Fin) (hy : y.Fin) (h : x.val ≠ 0 ∨ y.val ≠ 0) :
    (|(fastAtan2f x y).val| ≤ mPi.val ↔ |(fastAtan2f x y).val| ≠ 13176795 / 2 ^ 22) ∧ (|(fastAtan2f x y).val| ≤ mPi.val ↔ |(fastAtan2f x y).val| ≤ π) := by
  have hr := C89_range_partial x y hx hy h
  have hm : 13176794 / 2 ^ 22 ≤ mPi.val ∧ mPi.val < 13176795 / 2 ^ 22 := by rw [mPi_val.1]; norm_num
  have hp1 : mPi.val ≤ π := by
    rw [mPi_val.1]
    have := pi_gt_d20
    norm_num at this ⊢
    linarith
  have hp2 : π < 13176795 / 2 ^ 22 := by
    have := pi_lt_d20
    norm_num at this ⊢
    linarith
  have hg : Grid .binary32 |(fastAtan2f x y).val| := by
    rcases abs_choice (fastAtan2f x y).val with e | e <;> rw [e]
    · exact (fastAtan2f x y).grid
    · exact (fastAtan2f x y).grid.neg
  have key : |(fastAtan2f x y).val| ≠ 13176795 / 2 ^ 22 → |(fastAtan2f x y).val| ≤ mPi.val := fun hne => (gap_pi hg (lt_of_le_of_ne hr hne)).trans hm.1
  refine ⟨⟨fun hle heq => by linarith, key⟩, ⟨fun hle => hle.trans hp1, fun hle => key fun heq => by linarith⟩⟩

/-- Example: the vectors (-1, 0) and (-1, 10^-8) give the `float` nearest to π, the vector (-1, 10^-6) does not. -/
example : (fastAtan2f (-f 10 1) (f 0 1)).x = .finite .positive 13176795 (-22) (by decide) ∧ (fastAtan2f (-f 10 1) (f 1 8)).x = .finite .positive 13176795 (-22) (by decide) ∧
    fastAtan2f (-f 10 1) (f 1 6) < fastAtan2f (-f 10 1) (f 0 1) := by decide +kernel

end Verif.FunctionsFp
