import Verif.Ieee.Pack

/-!
Consequences of rounding to the nearest: monotonicity with respect to the numbers of the format, absolute and relative error.
-/
namespace Verif.Ieee
open Float.Model Float.Model.UnpackedFloat

variable {spec : Format}

/-- The real numbers that are numbers of the format, the range of the exponent apart. -/
def Grid (spec : Format) (z : ℝ) : Prop := ∃ q u : ℤ, |(q : ℝ)| ≤ 2 ^ (spec.mantissaBits : ℤ) ∧ spec.minExponent ≤ u ∧ z = q * 2 ^ u

theorem Grid.neg {z : ℝ} (h : Grid spec z) : Grid spec (-z) := by
  obtain ⟨q, u, h1, h2, h3⟩ := h
  refine ⟨-q, u, by push_cast; rwa [abs_neg], h2, ?_⟩
  rw [h3]
  push_cast
  ring

theorem grid_zero : Grid spec 0 := ⟨0, spec.minExponent, by simp [two_pow_pos _ |>.le], le_rfl, by simp⟩

theorem grid_two_pow {k : ℤ} (h : spec.minExponent ≤ k) : Grid spec (2 ^ k) := by
  refine ⟨1, k, ?_, h, by simp⟩
  rw [Int.cast_one, abs_one, zpow_natCast]
  exact one_le_pow₀ (by norm_num)

theorem grid_int (hg : Good spec) {n : ℤ} (h : |(n : ℝ)| ≤ 2 ^ (spec.mantissaBits : ℤ)) : Grid spec n :=
  ⟨n, 0, h, hg.emin, by simp⟩

theorem grid_val {x : UnpackedFloat} (h : Canon spec x) : Grid spec (val x) := by
  cases x with
  | infinity s => exact grid_zero
  | notANumber => exact grid_zero
  | zero s => exact grid_zero
  | finite s m e hm =>
    refine ⟨s.apply m, e, ?_, h.2.1, ?_⟩
    · rw [apply_cast, abs_mul, sgn_abs, one_mul, zpow_natCast]
      simp only [Int.cast_natCast, Nat.abs_cast]
      exact_mod_cast h.1.le
    · rw [apply_cast, val]
      push_cast
      ring

theorem int_le_of_near {r z : ℤ} {v : ℝ} (h : |(r : ℝ) - v| ≤ 1 / 2) (hv : v ≤ z) : r ≤ z := by
  have h1 := (abs_le.1 h).2
  have : (r : ℝ) < z + 1 := by linarith
  have : r < z + 1 := by exact_mod_cast this
  omega

/-- Rounding does not exceed a number of the format that the exact value does not exceed. -/
theorem Rounded.mono_le {x z : ℝ} {y : UnpackedFloat} (h : Rounded spec x y) (hz : Grid spec z) (hx : x ≤ z) : val y ≤ z := by
  obtain ⟨t, r, h1, h2, h3, h4, h5⟩ := h.near
  obtain ⟨q, u, h6, h7, h8⟩ := hz
  have ht := two_pow_pos t
  rw [h5]
  have hx' : x = x / 2 ^ t * 2 ^ t := by field_simp
  rcases le_or_gt t u with htu | htu
  · obtain ⟨n, hn⟩ : ∃ n : ℕ, u = t + n := ⟨(u - t).toNat, by omega⟩
    have h9 : z = ((q * 2 ^ n : ℤ) : ℝ) * 2 ^ t := by
      rw [h8, hn, two_pow_add, zpow_natCast]
      push_cast
      ring
    rw [h9]
    apply mul_le_mul_of_nonneg_right _ ht.le
    have h10 : r ≤ q * 2 ^ n := int_le_of_near h4 (by rw [div_le_iff₀ ht]; linarith)
    exact_mod_cast h10
  · rcases h3 with h3 | h3
    · omega
    have hp : (spec.mantissaBits : ℤ) - 1 = ((spec.mantissaBits - 1 : ℕ) : ℤ) := by
      have : 1 ≤ spec.mantissaBits := by unfold Format.mantissaBits; omega
      omega
    obtain ⟨P, hP⟩ : ∃ P : ℝ, P = 2 ^ ((spec.mantissaBits : ℤ) - 1 + t) := ⟨_, rfl⟩
    have hPP : P = ((2 ^ (spec.mantissaBits - 1) : ℤ) : ℝ) * 2 ^ t := by
      rw [hP, two_pow_add, hp, zpow_natCast]
      push_cast
      rfl
    have hzP : |z| ≤ P := by
      rw [h8, abs_mul, abs_of_pos (two_pow_pos u), hP]
      calc |(q : ℝ)| * 2 ^ u ≤ 2 ^ (spec.mantissaBits : ℤ) * 2 ^ u := mul_le_mul_of_nonneg_right h6 (two_pow_pos u).le
        _ = 2 ^ ((spec.mantissaBits : ℤ) + u) := (two_pow_add _ _).symm
        _ ≤ _ := two_pow_le (by omega)
    rw [← hP] at h3
    rcases le_or_gt 0 x with h0 | h0
    · rw [abs_of_nonneg h0] at h3
      have h9 := (abs_le.1 hzP).2
      have h10 : z = P := le_antisymm h9 (by linarith)
      rw [h10, hPP]
      apply mul_le_mul_of_nonneg_right _ ht.le
      have h11 : r ≤ 2 ^ (spec.mantissaBits - 1) := int_le_of_near h4 (by rw [div_le_iff₀ ht, ← hPP]; linarith)
      exact_mod_cast h11
    · rw [abs_of_neg h0] at h3
      have h9 := (abs_le.1 hzP).1
      refine le_trans ?_ h9
      rw [hPP, ← neg_mul]
      apply mul_le_mul_of_nonneg_right _ ht.le
      have h11 : r ≤ -2 ^ (spec.mantissaBits - 1) := int_le_of_near h4 (by rw [div_le_iff₀ ht]; push_cast at hPP ⊢; rw [neg_mul, ← hPP]; linarith)
      exact_mod_cast h11

theorem Rounded.mono_ge {x z : ℝ} {y : UnpackedFloat} (h : Rounded spec x y) (hz : Grid spec z) (hx : z ≤ x) : z ≤ val y := by
  obtain ⟨t, r, h1, h2, h3, h4, h6, h5⟩ := h.even
  obtain ⟨y', hc, hv⟩ : ∃ y', Canon spec y' ∧ val y' = -val y ∧ ((∃ s, y' = .zero s) ∨ ∃ s m e h, y' = .finite s m e h) := by
    rcases h.fin with ⟨s, rfl⟩ | ⟨s, m, e, hm, rfl⟩
    · exact ⟨.zero s, trivial, by simp [val], Or.inl ⟨_, rfl⟩⟩
    · exact ⟨.finite (-s) m e hm, h.canon, by simp only [val, sgn_neg]; ring, Or.inr ⟨_, _, _, _, rfl⟩⟩
  have e : |((-r : ℤ) : ℝ) - -x / 2 ^ t| = |(r : ℝ) - x / 2 ^ t| := by
    rw [← abs_neg]
    push_cast
    congr 1
    ring
  have h' : Rounded spec (-x) y' := ⟨hc, hv.2, t, -r, h1, by rwa [abs_neg], by rwa [abs_neg], by rwa [e], by rw [e]; exact fun h => (h6 h).neg, by rw [hv.1, h5]; push_cast; ring⟩
  have := h'.mono_le hz.neg (by linarith)
  rw [hv.1] at this
  linarith

/-- A number of the format is rounded to itself. -/
theorem Rounded.exact {x : ℝ} {y : UnpackedFloat} (h : Rounded spec x y) (hx : Grid spec x) : val y = x :=
  le_antisymm (h.mono_le hx le_rfl) (h.mono_ge hx le_rfl)

/-- Two roundings of ordered numbers are ordered. -/
theorem Rounded.abs_le {x : ℝ} {y : UnpackedFloat} (h : Rounded spec x y) {k : ℤ} (hk : spec.minExponent ≤ k) (hx : |x| ≤ 2 ^ k) : |val y| ≤ 2 ^ k :=
  _root_.abs_le.2 ⟨h.mono_ge (grid_two_pow hk).neg (_root_.abs_le.1 hx).1, h.mono_le (grid_two_pow hk) (_root_.abs_le.1 hx).2⟩

/-- The absolute error is at most half a unit in the last place of the numbers below `2 ^ k`. -/
theorem Rounded.err {x : ℝ} {y : UnpackedFloat} (h : Rounded spec x y) {k : ℤ} (hk : spec.minExponent + spec.mantissaBits ≤ k) (hx : |x| ≤ 2 ^ k) :
    |val y - x| ≤ 2 ^ (k - spec.mantissaBits - 1) := by
  rcases eq_or_lt_of_le hx with hx | hx
  · have hg : Grid spec x := by
      have := grid_two_pow (spec := spec) (k := k) (by omega)
      rcases abs_choice x with h' | h' <;> rw [h'] at hx
      · rw [hx]; exact this
      · rw [show x = -2 ^ k by linarith]; exact this.neg
    rw [h.exact hg, sub_self, abs_zero]
    exact (two_pow_pos _).le
  · obtain ⟨t, r, h1, h2, h3, h4, h5⟩ := h.near
    have ht := two_pow_pos t
    have htk : t ≤ k - spec.mantissaBits := by
      rcases h3 with h3 | h3
      · omega
      · have := (zpow_lt_zpow_iff_right₀ (a := (2 : ℝ)) (by norm_num)).1 (lt_of_le_of_lt h3 hx)
        omega
    rw [h5, show (r : ℝ) * 2 ^ t - x = (r - x / 2 ^ t) * 2 ^ t by field_simp, abs_mul, abs_of_pos ht]
    calc _ ≤ 1 / 2 * (2 : ℝ) ^ t := mul_le_mul_of_nonneg_right h4 ht.le
      _ ≤ 1 / 2 * 2 ^ (k - spec.mantissaBits) := mul_le_mul_of_nonneg_left (two_pow_le htk) (by norm_num)
      _ = _ := by rw [two_pow_sub _ 1, zpow_one]; ring

/-- The relative error, with the absolute error of the small numbers. -/
theorem Rounded.rel {x : ℝ} {y : UnpackedFloat} (h : Rounded spec x y) : |val y - x| ≤ |x| / 2 ^ (spec.mantissaBits : ℤ) ∨ |val y - x| ≤ 2 ^ (spec.minExponent - 1) := by
  obtain ⟨t, r, h1, h2, h3, h4, h5⟩ := h.near
  have ht := two_pow_pos t
  have he : |val y - x| ≤ 1 / 2 * 2 ^ t := by
    rw [h5, show (r : ℝ) * 2 ^ t - x = (r - x / 2 ^ t) * 2 ^ t by field_simp, abs_mul, abs_of_pos ht]
    exact mul_le_mul_of_nonneg_right h4 ht.le
  rcases h3 with h3 | h3
  · right
    rw [two_pow_sub, ← h3, zpow_one]
    linarith
  · left
    rw [le_div_iff₀ (two_pow_pos _)]
    rw [two_pow_add, two_pow_sub, zpow_one] at h3
    have := mul_le_mul_of_nonneg_right he (two_pow_pos (spec.mantissaBits : ℤ)).le
    linarith

/-- A rounded number below the largest power of two is a number of the format. -/
theorem Rounded.repr {x : ℝ} {y : UnpackedFloat} (h : Rounded spec x y) (h' : |val y| < 2 ^ (maxExponent spec + spec.mantissaBits))
    (hm : spec.minExponent ≤ maxExponent spec) : Repr spec y := by
  rcases h.fin with ⟨s, rfl⟩ | ⟨s, m, e, hm, rfl⟩
  · trivial
  · refine ⟨h.canon, ?_⟩
    obtain ⟨h1, h2, h3⟩ := h.canon
    rcases h3 with h3 | h3
    · rw [val, abs_mul, sgn_abs, one_mul, abs_of_nonneg (mul_nonneg (Nat.cast_nonneg _) (two_pow_pos e).le)] at h'
      have hp : (spec.mantissaBits : ℤ) - 1 = ((spec.mantissaBits - 1 : ℕ) : ℤ) := by
        have : 1 ≤ spec.mantissaBits := by unfold Format.mantissaBits; omega
        omega
      have h4 : (2 : ℝ) ^ ((spec.mantissaBits : ℤ) - 1 + e) ≤ m * 2 ^ e := by
        rw [two_pow_add, hp, zpow_natCast]
        exact mul_le_mul_of_nonneg_right (by exact_mod_cast h3) (two_pow_pos e).le
      have := (zpow_lt_zpow_iff_right₀ (a := (2 : ℝ)) (by norm_num)).1 (lt_of_le_of_lt h4 h')
      omega
    · omega

end Verif.Ieee
