import Verif.Functions.Props
import Mathlib.Analysis.Real.Pi.Irrational

/-! Property theorem C51 (see properties.jsonl), exact condition: for which angles the normalisations with decimal constants are right. -/
namespace Verif.Functions
open Real Spec

/-- A reduction by a rational turn above 2π is right only for the angles that need no reduction. -/
theorem norm_exact {t : ℝ} (q : ℚ) (hq : t = q) (ht : 2 * π < t) (a : ℝ) :
    (0 ≤ a - t * ⌊a / t⌋ ∧ a - t * ⌊a / t⌋ < 2 * π ∧ SameAngle (2 * π) a (a - t * ⌊a / t⌋)) ↔ 0 ≤ a ∧ a < 2 * π := by
  have hp := pi_pos
  have ht0 : 0 < t := by linarith
  constructor
  · rintro ⟨h1, h2, m, hm⟩
    have h0 : ⌊a / t⌋ = 0 := by
      by_contra hne
      have hm' : t * ⌊a / t⌋ = m * (2 * π) := by linarith
      have hm0 : m ≠ 0 := by
        rintro rfl
        rw [Int.cast_zero, zero_mul, mul_eq_zero] at hm'
        rcases hm' with h | h
        · exact ht0.ne' h
        · exact hne (by exact_mod_cast h)
      refine irrational_pi ⟨q * ⌊a / t⌋ / (2 * m), ?_⟩
      have hm1 : (m : ℝ) ≠ 0 := by exact_mod_cast hm0
      push_cast
      rw [← hq]
      field_simp
      linarith
    rw [h0, Int.cast_zero, mul_zero, sub_zero] at h1 h2
    exact ⟨h1, h2⟩
  · rintro ⟨h1, h2⟩
    have h0 : ⌊a / t⌋ = 0 := by
      rw [Int.floor_eq_zero_iff]
      exact ⟨div_nonneg h1 ht0.le, (div_lt_one ht0).2 (by linarith)⟩
    rw [h0, Int.cast_zero, mul_zero, sub_zero]
    exact ⟨h1, h2, 0, by simp⟩

/-- C51, exact condition: the normalisations to [0, 2π) give the same angle in this interval exactly for the angles of the interval. -/
theorem C51_iff (a : ℝ) :
    ((0 ≤ normalize360 a ∧ normalize360 a < 2 * π ∧ SameAngle (2 * π) a (normalize360 a)) ↔ 0 ≤ a ∧ a < 2 * π) ∧
    ((0 ≤ normalizeAngle2Pi a ∧ normalizeAngle2Pi a < 2 * π ∧ SameAngle (2 * π) a (normalizeAngle2Pi a)) ↔ 0 ≤ a ∧ a < 2 * π) :=
  ⟨norm_exact k2pi (by unfold k2pi; push_cast; ring) k2pi_lt.1 a, norm_exact k2pif (by unfold k2pif; push_cast; ring) k2pif_lt.1 a⟩

/-- A multiple of the angle 1 in radians: seven is not reduced to the same angle. -/
example : ¬ (0 ≤ normalize360 (7 : ℝ) ∧ normalize360 (7 : ℝ) < 2 * π ∧ SameAngle (2 * π) 7 (normalize360 7)) := by
  rw [(C51_iff 7).1]
  have := pi_lt_d2
  intro h
  linarith [h.2]

end Verif.Functions
