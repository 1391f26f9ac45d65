import Verif.Functions.PolarProps
import Verif.FunctionsFp.CosSin
import Verif.FunctionsFp.CosSinf
import Verif.FunctionsFp.AtanProps

/-! C171 in `double` arithmetic: `fastAtan2` and `fastCosSin` (common/src/functions.cpp:47-58, 94-104) used one after the other. -/
namespace Verif.FunctionsFp
open Ieee Fp Float.Model Real

/-- The reference angle is the argument up to a whole turn. -/
theorem angle_turn {spec : Format} [Fmt spec] (x y : Fp spec) : ∃ m : ℤ, angle x y = Complex.arg ⟨x.val, y.val⟩ + m * (2 * π) := by
  by_cases h : y.val ≠ 0 ∨ sign y = .positive
  · exact ⟨0, by rw [angle_eq h]; simp⟩
  · rw [not_or, not_not] at h
    have hs : sign y = .negative := by cases hb : sign y with
      | positive => exact absurd hb h.2
      | negative => rfl
    unfold angle
    rw [hs, h.1, abs_zero]
    have e : (⟨x.val, 0⟩ : ℂ) = (x.val : ℂ) := rfl
    rw [e]
    rcases le_or_gt 0 x.val with hx | hx
    · exact ⟨0, by rw [Complex.arg_ofReal_of_nonneg hx]; simp⟩
    · refine ⟨-1, ?_⟩
      rw [Complex.arg_ofReal_of_neg hx]
      simp only [sgn]
      push_cast
      ring

/-- C171 in `double`: the direction of a vector, computed by way of its angle. -/
theorem C171_double_direction (x y : Dbl) (hx : x.Fin) (hy : y.Fin) (h : x.val ≠ 0 ∨ y.val ≠ 0) :
    (fastCosSin (fastAtan2 x y)).1.Fin ∧ (fastCosSin (fastAtan2 x y)).2.Fin ∧
    |(fastCosSin (fastAtan2 x y)).1.val - x.val / √(x.val ^ 2 + y.val ^ 2)| < 122 / 100000 + 1 / 2 ^ 43 ∧
    |(fastCosSin (fastAtan2 x y)).2.val - y.val / √(x.val ^ 2 + y.val ^ 2)| < 122 / 100000 + 1 / 2 ^ 43 := by
  obtain ⟨ht, he⟩ := C86_atan2 x y hx hy h
  obtain ⟨-, hr, hpi, -⟩ := C86_atan2_range x y hx hy h
  have hb : |(fastAtan2 x y).val| ≤ (2 : ℝ) ^ (2 : ℤ) := by
    have := pi_lt_four
    norm_num
    linarith
  obtain ⟨⟨f1, h1⟩, f2, h2⟩ := C87_cosSin_partial _ ht 2 (by norm_num) (by norm_num) hb
  obtain ⟨e1, e2⟩ := Functions.arg_unit h
  obtain ⟨m, hm⟩ := angle_turn x y
  obtain ⟨d1, d2⟩ := Functions.near_unit h1 h2 he
  rw [hm, cos_add_int_mul_two_pi, ← e1] at d1
  rw [hm, sin_add_int_mul_two_pi, ← e2] at d2
  refine ⟨f1, f2, d1.trans_le ?_, d2.trans_le ?_⟩ <;> norm_num

/-- C171 in `double`: angles up to 2^26 are restored up to 0.00175, modulo whole turns, and the length is 1 up to 0.0018. -/
theorem C171_double_angle (x : Dbl) (hx : x.Fin) (hb : |x.val| ≤ 2 ^ 26) :
    (fastAtan2 (fastCosSin x).1 (fastCosSin x).2).Fin ∧ (∃ k : ℤ, |(fastAtan2 (fastCosSin x).1 (fastCosSin x).2).val - (x.val + k * (2 * π))| < 175 / 100000) ∧
    |√((fastCosSin x).1.val ^ 2 + (fastCosSin x).2.val ^ 2) - 1| < 18 / 10000 := by
  obtain ⟨⟨f1, h1⟩, f2, h2⟩ := C87_cosSin_partial x hx 26 (by norm_num) (by norm_num) (by exact_mod_cast hb)
  have hc : (12 / 10000 + 2 ^ (26 : ℤ) / 2 ^ 46 : ℝ) ≤ 1201 / 1000000 := by norm_num
  have g1 := h1.trans hc
  have g2 := h2.trans hc
  obtain ⟨hcs, k, hk⟩ := Functions.near_arg g1 g2
  obtain ⟨ht, he⟩ := C86_atan2 _ _ f1 f2 hcs
  obtain ⟨m, hm⟩ := angle_turn (fastCosSin x).1 (fastCosSin x).2
  refine ⟨ht, ⟨k + m, ?_⟩, Functions.near_length g1 g2⟩
  rw [hm] at he
  have := abs_add_le ((fastAtan2 (fastCosSin x).1 (fastCosSin x).2).val - (Complex.arg ⟨(fastCosSin x).1.val, (fastCosSin x).2.val⟩ + m * (2 * π)))
    (Complex.arg ⟨(fastCosSin x).1.val, (fastCosSin x).2.val⟩ - (x.val + k * (2 * π)))
  have e : (fastAtan2 (fastCosSin x).1 (fastCosSin x).2).val - (x.val + ((k + m : ℤ) : ℝ) * (2 * π)) =
      ((fastAtan2 (fastCosSin x).1 (fastCosSin x).2).val - (Complex.arg ⟨(fastCosSin x).1.val, (fastCosSin x).2.val⟩ + m * (2 * π))) +
      (Complex.arg ⟨(fastCosSin x).1.val, (fastCosSin x).2.val⟩ - (x.val + k * (2 * π))) := by push_cast; ring
  rw [e]
  norm_num at he
  linarith

/-- C171 in `float`: the direction of a vector, computed by way of its angle by `fastAtan2f` and `fastCosSinf` (functions.cpp:34-45, 82-92), whichever `floor` is used. -/
theorem C171_float_direction (dbl : Bool) (x y : Flt) (hx : x.Fin) (hy : y.Fin) (h : x.val ≠ 0 ∨ y.val ≠ 0) :
    (fastCosSinf dbl (fastAtan2f x y)).1.Fin ∧ (fastCosSinf dbl (fastAtan2f x y)).2.Fin ∧
    |(fastCosSinf dbl (fastAtan2f x y)).1.val - x.val / √(x.val ^ 2 + y.val ^ 2)| < 126 / 100000 ∧
    |(fastCosSinf dbl (fastAtan2f x y)).2.val - y.val / √(x.val ^ 2 + y.val ^ 2)| < 126 / 100000 := by
  obtain ⟨ht, he⟩ := C89_atan2f x y hx hy h
  obtain ⟨m, hm⟩ := angle_turn x y
  have ha : |angle x y| ≤ π := by
    unfold angle
    rw [abs_mul, sgn_abs, one_mul]
    exact Complex.abs_arg_le_pi _
  have hb : |(fastAtan2f x y).val| ≤ (2 : ℝ) ^ (2 : ℤ) := by
    have h1 := pi_lt_d2
    have h2 := abs_add_le ((fastAtan2f x y).val - angle x y) (angle x y)
    rw [sub_add_cancel] at h2
    norm_num at h1 ⊢
    linarith
  obtain ⟨⟨f1, h1⟩, f2, h2⟩ := C90_cosSinf_partial dbl _ ht 2 (by norm_num) (by norm_num) hb
  obtain ⟨e1, e2⟩ := Functions.arg_unit h
  obtain ⟨d1, d2⟩ := Functions.near_unit h1 h2 he
  rw [hm, cos_add_int_mul_two_pi, ← e1] at d1
  rw [hm, sin_add_int_mul_two_pi, ← e2] at d2
  refine ⟨f1, f2, d1.trans_le ?_, d2.trans_le ?_⟩ <;> norm_num

/-- C171 in `double`: not so for large angles, whose computed cosine and sine are both 0, without an angle. -/
theorem C171_double_violated : (fastAtan2 (fastCosSin (d (10 ^ 19) 1)).1 (fastCosSin (d (10 ^ 19) 1)).2).NaN := by
  rw [C87_violated.1]
  exact C86_atan2_zero _ _ zero_fin.1 zero_fin.1 zero_fin.2 zero_fin.2

-- the direction of (1, 1): about (0.7078, 0.7078), that is 0.0007 more than 1/√2
example : (fastCosSin (fastAtan2 (d 10 1) (d 10 1))).1 < d 70785 5 ∧ d 70775 5 < (fastCosSin (fastAtan2 (d 10 1) (d 10 1))).1 := by decide +kernel

end Verif.FunctionsFp
