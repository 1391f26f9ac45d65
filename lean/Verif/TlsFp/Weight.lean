import Verif.TlsFp.Sweep

/-! Lemmas for C107: the weights. -/
namespace Verif.TlsFp
open Verif Ieee Fp Float.Model

variable {spec : Format} [Fmt spec]

/-- The relative error of a rounding, for numbers that are not too small. -/
theorem rel_of (hl : Lim spec) {y : Fp spec} {x : ℝ} (h : y.Is x) (hx : 2 ^ (-100 : ℤ) ≤ |x|) : |y.val - x| ≤ |x| / 2 ^ (spec.mantissaBits : ℤ) := by
  rcases h.2.rel with h1 | h1
  · exact h1
  · refine h1.trans ?_
    rw [le_div_iff₀ (two_pow_pos _), ← two_pow_add]
    exact (two_pow_le (by have := hl.lo; omega)).trans hx

theorem lim_flt : Lim .binary32 := ⟨by decide, by decide, by decide⟩
theorem lim_dbl : Lim .binary64 := ⟨by decide, by decide, by decide⟩

/-- The numbers of a smaller format. -/
structure Sub64 (spec : Format) : Prop where
  m : spec.mantissaBits ≤ 53
  m' : 10 ≤ spec.mantissaBits
  e : -1074 ≤ spec.minExponent

theorem sub_flt : Sub64 .binary32 := ⟨by decide, by decide, by decide⟩
theorem sub_dbl : Sub64 .binary64 := ⟨by decide, by decide, by decide⟩

theorem conv_exact (h64 : Sub64 spec) {x : Fp spec} (hx : x.Fin) (hb : |x.val| ≤ 2 ^ (200 : ℤ)) : (conv x : Dbl).Fin ∧ (conv x : Dbl).val = x.val := by
  have h := conv_is (spec := .binary64) hx (hb.trans (two_pow_le (by decide)))
  refine ⟨h.1, h.2.exact ?_⟩
  obtain ⟨n, u, h1, h2, h3⟩ := x.grid
  exact ⟨n, u, h1.trans (two_pow_le (by have := h64.m; show (spec.mantissaBits : ℤ) ≤ 53; omega)), by have := h64.e; show (-1074 : ℤ) ≤ u; omega, h3⟩

theorem lit_bound : (lit .binary64 1 (-6)).Fin ∧ (lit .binary64 1 (-6)).val ≤ 2 ^ (-19 : ℤ) := by
  have h := lit_is (spec := .binary64) (m := 1) (k := 6) (by decide) (by decide) (by decide) (le_trans (by norm_num : ((1 : ℕ) : ℝ) / 10 ^ 6 ≤ 2 ^ (0 : ℤ)) (two_pow_le (by decide)))
  exact ⟨h.1, h.2.mono_le (grid_two_pow (by decide)) (by norm_num)⟩

/-- Three relative errors of an inverse square. -/
theorem combine {x S D Q u : ℝ} (x0 : 0 < x) (S0 : 0 < S) (hu0 : 0 < u) (hu1 : u ≤ 1 / 16) (e1 : |S - x| ≤ x * u) (e2 : |D - 1 / S| ≤ 1 / S * u) (e3 : |Q - D| ≤ D * u) :
    |Q - 1 / x| ≤ 4 * u * (1 / x) := by
  obtain ⟨s, hs'⟩ : ∃ s, s = 1 / S := ⟨_, rfl⟩
  obtain ⟨y, hy⟩ : ∃ y, y = 1 / x := ⟨_, rfl⟩
  have hsS : s * S = 1 := by rw [hs']; field_simp
  have hyx : y * x = 1 := by rw [hy]; field_simp
  have i0 : 0 < s := by rw [hs']; positivity
  rw [← hs'] at e2
  rw [← hy]
  have hy0 : 0 < y := by rw [hy]; positivity
  clear hs' hy
  have e4 : |s - y| ≤ u * s := by
    rw [show s - y = s * y * (x - S) by linear_combination (-s) * hyx + y * hsS, abs_mul, abs_of_pos (mul_pos i0 hy0), abs_sub_comm]
    calc s * y * |S - x| ≤ s * y * (x * u) := mul_le_mul_of_nonneg_left e1 (mul_pos i0 hy0).le
      _ = u * s := by linear_combination s * u * hyx
  have e5 : s * (1 - u) ≤ y := by
    have h5 := (abs_le.1 e4).2
    linarith
  have e6 := abs_le.1 e2
  have e7 := abs_le.1 e3
  have e8 := abs_le.1 e4
  have e9 : D * u ≤ s * (1 + u) * u := mul_le_mul_of_nonneg_right (by linarith) hu0.le
  have e10 : u * (3 + u) * s ≤ 4 * u * y := by
    have h7 : 4 * u * (s * (1 - u)) ≤ 4 * u * y := mul_le_mul_of_nonneg_left e5 (by linarith)
    have h6 : 0 ≤ u * s * (1 - 5 * u) := mul_nonneg (mul_pos hu0 i0).le (by linarith)
    linarith
  rw [abs_le]
  constructor <;> linarith

/-- The weight of a range between 2^a and 2^b. -/
theorem weight_near (hl : Lim spec) (h64 : Sub64 spec) {r : Fp spec} (hr : r.Fin) {a b : ℤ} (ha : -19 ≤ a) (hb : b ≤ 28) (ra : 2 ^ a ≤ r.val) (rb : r.val ≤ 2 ^ b) :
    (weight r).Fin ∧ 2 ^ (-2 * b) ≤ (weight r).val ∧ (weight r).val ≤ 2 ^ (-2 * a) ∧ |(weight r).val - 1 / r.val ^ 2| ≤ 2 ^ (2 - (spec.mantissaBits : ℤ)) * (1 / r.val ^ 2) := by
  have lo := hl.lo
  have hi := hl.hi
  have hm := h64.m
  have hab : a ≤ b := by
    by_contra hc
    exact absurd (ra.trans rb) (not_le.2 (zpow_lt_zpow_right₀ (by norm_num) (not_le.1 hc)))
  have r0 : 0 < r.val := lt_of_lt_of_le (two_pow_pos a) ra
  -- the branch
  have habs := abs_fin.2 hr
  have hav : r.abs.val = r.val := by rw [abs_val, abs_of_pos r0]
  have hca := conv_exact h64 habs (by rw [hav, abs_of_pos r0]; exact rb.trans (two_pow_le (by omega)))
  have hbr : ¬ (conv r.abs : Dbl) < lit .binary64 1 (-6) := by
    rw [lt_iff hca.1 lit_bound.1, hca.2, hav, not_lt]
    exact lit_bound.2.trans (le_trans (two_pow_le ha) ra)
  unfold weight
  rw [if_neg hbr]
  -- the square
  have s1 : (2 : ℝ) ^ (2 * a) ≤ r.val * r.val := by
    rw [two_mul, two_pow_add]
    exact mul_le_mul ra ra (two_pow_pos a).le r0.le
  have s2 : r.val * r.val ≤ 2 ^ (2 * b) := by
    rw [two_mul, two_pow_add]
    exact mul_le_mul rb rb r0.le (two_pow_pos b).le
  have s0 : 0 < r.val * r.val := mul_pos r0 r0
  have hs := mul_is hr hr (by rw [abs_of_pos s0]; exact s2.trans (two_pow_le (by omega)))
  have s3 : 2 ^ (2 * a) ≤ (r * r).val := hs.2.mono_ge (grid_two_pow (by omega)) s1
  have s4 : (r * r).val ≤ 2 ^ (2 * b) := hs.2.mono_le (grid_two_pow (by omega)) s2
  have e1 := rel_of hl hs (by rw [abs_of_pos s0]; exact le_trans (two_pow_le (by omega)) s1)
  rw [abs_of_pos s0] at e1
  generalize r * r = S at *
  have S0 : 0 < S.val := lt_of_lt_of_le (two_pow_pos _) s3
  have hc := conv_exact h64 hs.1 (by rw [abs_of_pos S0]; exact s4.trans (two_pow_le (by omega)))
  -- the inverse
  have h1 := natCast_exact (spec := .binary64) (n := 1) (by rw [Nat.cast_one]; exact one_le_zpow₀ (by norm_num) (by decide)) (by rw [Nat.cast_one]; exact one_le_zpow₀ (by norm_num) (by decide))
  have i1 : (2 : ℝ) ^ (-2 * b) ≤ 1 / S.val := by
    rw [le_div_iff₀ S0]
    calc (2 : ℝ) ^ (-2 * b) * S.val ≤ 2 ^ (-2 * b) * 2 ^ (2 * b) := mul_le_mul_of_nonneg_left s4 (two_pow_pos _).le
      _ = 1 := by rw [← two_pow_add, show -2 * b + 2 * b = 0 by ring, zpow_zero]
  have i2 : 1 / S.val ≤ 2 ^ (-2 * a) := by
    rw [div_le_iff₀ S0]
    calc (1 : ℝ) = 2 ^ (-2 * a) * 2 ^ (2 * a) := by rw [← two_pow_add, show -2 * a + 2 * a = 0 by ring, zpow_zero]
      _ ≤ _ := mul_le_mul_of_nonneg_left s3 (two_pow_pos _).le
  have i0 : 0 < 1 / S.val := by positivity
  have hdv := div_is (a := ((1 : ℕ) : Dbl)) h1.1 hc.1 (by rw [hc.2]; exact S0.ne') (by
    rw [hc.2, h1.2, Nat.cast_one, abs_of_pos i0]
    exact i2.trans (two_pow_le (by rw [show top Format.binary64 = 1023 by decide]; omega)))
  rw [hc.2, h1.2, Nat.cast_one] at hdv
  have me : Format.binary64.minExponent = -1074 := by decide
  have d1 : 2 ^ (-2 * b) ≤ (((1 : ℕ) : Dbl) / conv S).val := hdv.2.mono_ge (grid_two_pow (by omega)) i1
  have d2 : (((1 : ℕ) : Dbl) / conv S).val ≤ 2 ^ (-2 * a) := hdv.2.mono_le (grid_two_pow (by omega)) i2
  have e2 := rel_of lim_dbl hdv (by rw [abs_of_pos i0]; exact le_trans (two_pow_le (by omega)) i1)
  rw [abs_of_pos i0] at e2
  generalize (((1 : ℕ) : Dbl) / conv S) = D at *
  have D0 : 0 < D.val := lt_of_lt_of_le (two_pow_pos _) d1
  -- the conversion
  have hcv := conv_is (spec := spec) hdv.1 (by rw [abs_of_pos D0]; exact d2.trans (two_pow_le (by omega)))
  refine ⟨hcv.1, hcv.2.mono_ge (grid_two_pow (by omega)) d1, hcv.2.mono_le (grid_two_pow (by omega)) d2, ?_⟩
  have e3 := rel_of hl hcv (by rw [abs_of_pos D0]; exact le_trans (two_pow_le (by omega)) d1)
  rw [abs_of_pos D0] at e3
  generalize (conv D : Fp spec) = Q at *
  -- the errors
  obtain ⟨u, hu⟩ : ∃ u : ℝ, u = 1 / 2 ^ (spec.mantissaBits : ℤ) := ⟨_, rfl⟩
  have hu1 : u ≤ 1 / 16 := by
    rw [hu]
    apply one_div_le_one_div_of_le (by norm_num)
    rw [show (16 : ℝ) = 2 ^ (4 : ℤ) by norm_num]
    exact two_pow_le (by have := h64.m'; omega)
  have hu0 : 0 < u := by rw [hu]; have := two_pow_pos (spec.mantissaBits : ℤ); positivity
  have hu2 : (1 : ℝ) / 2 ^ ((Format.binary64.mantissaBits : ℕ) : ℤ) ≤ u := by
    rw [hu]
    exact one_div_le_one_div_of_le (two_pow_pos _) (two_pow_le (by show (spec.mantissaBits : ℤ) ≤ 53; omega))
  rw [show (2 : ℝ) ^ (2 - (spec.mantissaBits : ℤ)) = 4 * u by rw [hu, zpow_sub₀ (by norm_num)]; norm_num; ring]
  rw [div_eq_mul_one_div, ← hu] at e1 e3
  have e2 : |D.val - 1 / S.val| ≤ 1 / S.val * u := by
    rw [div_eq_mul_one_div (1 / S.val)] at e2
    exact e2.trans (mul_le_mul_of_nonneg_left hu2 i0.le)
  rw [pow_two]
  exact combine s0 S0 hu0 hu1 e1 e2 e3

end Verif.TlsFp
