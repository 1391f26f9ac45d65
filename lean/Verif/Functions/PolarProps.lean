import Verif.Functions.AngleOrder

/-!
C171: `fastAtan2` and `fastCosSin` (common/src/functions.cpp:47-58, 94-104) used one after the other, in exact arithmetic.
-/
namespace Verif.Functions
open Real Spec

theorem arctan_small {y : ℝ} (h : 0 ≤ y) : arctan y ≤ y := by
  have := le_tan (arctan_nonneg.2 h) (arctan_lt_pi_div_two y)
  rwa [tan_arctan] at this

/-- Component of an error along a direction. -/
theorem err_dir {a b : ℝ} (ha : |a| ≤ 1201 / 1000000) (hb : |b| ≤ 1201 / 1000000) (t : ℝ) : |a * cos t + b * sin t| < 17 / 10000 ∧ |b * cos t - a * sin t| < 17 / 10000 := by
  have h1 := cos_sq_add_sin_sq t
  have ha2 : a ^ 2 ≤ (1201 / 1000000) ^ 2 := by rw [← sq_abs]; exact pow_le_pow_left₀ (abs_nonneg a) ha 2
  have hb2 : b ^ 2 ≤ (1201 / 1000000) ^ 2 := by rw [← sq_abs]; exact pow_le_pow_left₀ (abs_nonneg b) hb 2
  have e : (a * cos t + b * sin t) ^ 2 + (b * cos t - a * sin t) ^ 2 = a ^ 2 + b ^ 2 := by linear_combination (a ^ 2 + b ^ 2) * h1
  constructor <;> refine abs_lt_of_sq_lt_sq ?_ (by norm_num)
  · nlinarith [sq_nonneg (b * cos t - a * sin t)]
  · nlinarith [sq_nonneg (a * cos t + b * sin t)]

/-- Cosine and sine of the angle of a vector. -/
theorem arg_unit {x y : ℝ} (h : x ≠ 0 ∨ y ≠ 0) : x / √(x ^ 2 + y ^ 2) = cos (Complex.arg ⟨x, y⟩) ∧ y / √(x ^ 2 + y ^ 2) = sin (Complex.arg ⟨x, y⟩) := by
  have hv : (⟨x, y⟩ : ℂ) ≠ 0 := fun e => by
    rcases h with h | h
    · exact h (congrArg Complex.re e)
    · exact h (congrArg Complex.im e)
  have hn : ‖(⟨x, y⟩ : ℂ)‖ = √(x ^ 2 + y ^ 2) := by
    rw [Complex.norm_def, Complex.normSq_mk]
    congr 1
    ring
  rw [Complex.cos_arg hv, Complex.sin_arg, hn]
  exact ⟨rfl, rfl⟩

/-- An approximate cosine and sine of an approximate angle. -/
theorem near_unit {c s t a e f : ℝ} (h1 : |c - cos t| ≤ e) (h2 : |s - sin t| ≤ e) (h : |t - a| < f) : |c - cos a| < e + f ∧ |s - sin a| < e + f := by
  have c1 : |cos t - cos a| ≤ |t - a| := abs_cos_sub_cos_le t a
  have c2 : |sin t - sin a| ≤ |t - a| := abs_sin_sub_sin_le t a
  have d1 := abs_add_le (c - cos t) (cos t - cos a)
  have d2 := abs_add_le (s - sin t) (sin t - sin a)
  rw [sub_add_sub_cancel] at d1 d2
  exact ⟨by linarith, by linarith⟩

/-- C171: the direction of a vector, computed by way of its angle, is right up to 0.00122 in each component. -/
theorem C171_direction (x y : ℝ) (h : x ≠ 0 ∨ y ≠ 0) : ∃ t, fastAtan2 real x y = some t ∧
    |(fastCosSin real t).1 - x / √(x ^ 2 + y ^ 2)| < 122 / 100000 ∧ |(fastCosSin real t).2 - y / √(x ^ 2 + y ^ 2)| < 122 / 100000 := by
  obtain ⟨t, ht, he⟩ := C74_atan2 x y h
  obtain ⟨h1, h2⟩ := C74_cosSin t
  obtain ⟨e1, e2⟩ := arg_unit h
  obtain ⟨d1, d2⟩ := near_unit h1.le h2.le he
  rw [e1, e2]
  exact ⟨t, ht, by linarith, by linarith⟩

/-- An approximate cosine and sine: the length. -/
theorem near_length {c s x : ℝ} (h1 : |c - cos x| ≤ 1201 / 1000000) (h2 : |s - sin x| ≤ 1201 / 1000000) : |√(c ^ 2 + s ^ 2) - 1| < 18 / 10000 := by
  obtain ⟨d1, d2⟩ := err_dir h1 h2 x
  have h1 := cos_sq_add_sin_sq x
  have e : c ^ 2 + s ^ 2 = (1 + ((c - cos x) * cos x + (s - sin x) * sin x)) ^ 2 + ((s - sin x) * cos x - (c - cos x) * sin x) ^ 2 := by
    have e1 : 1 + ((c - cos x) * cos x + (s - sin x) * sin x) = c * cos x + s * sin x := by linear_combination -h1
    have e2 : (s - sin x) * cos x - (c - cos x) * sin x = s * cos x - c * sin x := by ring
    rw [e1, e2]
    linear_combination (-(c ^ 2) - s ^ 2) * h1
  rw [e]
  generalize (c - cos x) * cos x + (s - sin x) * sin x = p at *
  generalize (s - sin x) * cos x - (c - cos x) * sin x = q at *
  have hp := abs_lt.1 d1
  have hq : q ^ 2 < (17 / 10000) ^ 2 := by rw [← sq_abs]; exact pow_lt_pow_left₀ d2 (abs_nonneg q) two_ne_zero
  rw [abs_lt]
  constructor
  · have : 1 - 18 / 10000 < √((1 + p) ^ 2 + q ^ 2) := by
      refine lt_sqrt_of_sq_lt ?_
      nlinarith [sq_nonneg q]
    linarith
  · have : √((1 + p) ^ 2 + q ^ 2) < 1 + 18 / 10000 := by
      refine (sqrt_lt' (by norm_num)).2 ?_
      nlinarith [sq_nonneg q]
    linarith

/-- C171: the computed cosine and sine are the components of a vector of length 1 up to 0.0018. -/
theorem C171_length (x : ℝ) : |√((fastCosSin real x).1 ^ 2 + (fastCosSin real x).2 ^ 2) - 1| < 18 / 10000 := by
  obtain ⟨h1, h2⟩ := C74_cosSin x
  exact near_length (x := x) (by linarith) (by linarith)

/-- An approximate cosine and sine: the angle. -/
theorem near_arg {c s x : ℝ} (g1 : |c - cos x| ≤ 1201 / 1000000) (g2 : |s - sin x| ≤ 1201 / 1000000) :
    (c ≠ 0 ∨ s ≠ 0) ∧ ∃ k : ℤ, |Complex.arg ⟨c, s⟩ - (x + k * (2 * π))| < 172 / 100000 := by
  obtain ⟨d1, d2⟩ := err_dir g1 g2 x
  have h1 := cos_sq_add_sin_sq x
  have hre : c * cos x + s * sin x = 1 + ((c - cos x) * cos x + (s - sin x) * sin x) := by linear_combination h1
  have him : s * cos x - c * sin x = (s - sin x) * cos x - (c - cos x) * sin x := by ring
  have hp := abs_lt.1 d1
  have hcs : c ≠ 0 ∨ s ≠ 0 := by
    by_contra hcon
    rw [not_or, not_not, not_not] at hcon
    have : (0 : ℝ) = 1 + ((c - cos x) * cos x + (s - sin x) * sin x) := by rw [← hre, hcon.1, hcon.2]; ring
    linarith
  refine ⟨hcs, ?_⟩
  -- the angle between the two vectors
  set w : ℂ := ⟨c * cos x + s * sin x, s * cos x - c * sin x⟩
  have hw0 : 0 < w.re := by show 0 < c * cos x + s * sin x; linarith
  have htan : tan (Complex.arg w) = w.im / w.re := Complex.tan_arg w
  have hd : |Complex.arg w| < 172 / 100000 := by
    have hlt := abs_lt.1 (Complex.abs_arg_lt_pi_div_two_iff.2 (Or.inl hw0))
    have hq : |tan (Complex.arg w)| < 172 / 100000 := by
      rw [htan, abs_div, abs_of_pos hw0, div_lt_iff₀ hw0]
      show |s * cos x - c * sin x| < 172 / 100000 * (c * cos x + s * sin x)
      rw [him, hre]
      nlinarith
    have := abs_lt.1 hq
    rw [abs_lt]
    rw [← arctan_tan hlt.1 hlt.2]
    constructor
    · have h2 : arctan (-(172 / 100000)) < arctan (tan (Complex.arg w)) := arctan_strictMono this.1
      have h3 : arctan (172 / 100000) ≤ 172 / 100000 := arctan_small (by norm_num)
      rw [arctan_neg] at h2
      linarith
    · have h2 : arctan (tan (Complex.arg w)) < arctan (172 / 100000) := arctan_strictMono this.2
      have h3 : arctan (172 / 100000) ≤ 172 / 100000 := arctan_small (by norm_num)
      linarith
  have hang : ((Complex.arg ⟨c, s⟩ : ℝ) : Real.Angle) = ((x + Complex.arg w : ℝ) : Real.Angle) := by
    have hz : (⟨c, s⟩ : ℂ) = ⟨cos x, sin x⟩ * w := by
      apply Complex.ext
      · simp only [Complex.mul_re, w]
        linear_combination (-c) * h1
      · simp only [Complex.mul_im, w]
        linear_combination (-s) * h1
    have hu : (⟨cos x, sin x⟩ : ℂ) ≠ 0 := fun e => by
      have h2 : cos x = 0 := congrArg Complex.re e
      have h3 : sin x = 0 := congrArg Complex.im e
      rw [h2, h3] at h1
      norm_num at h1
    have hw : w ≠ 0 := fun e => by rw [e] at hw0; simp at hw0
    rw [hz, Complex.arg_mul_coe_angle hu hw, Real.Angle.coe_add]
    congr 1
    have : (⟨cos x, sin x⟩ : ℂ) = ((x : Real.Angle).cos : ℂ) + ((x : Real.Angle).sin : ℂ) * Complex.I := by
      rw [Real.Angle.cos_coe, Real.Angle.sin_coe]
      exact Complex.mk_eq_add_mul_I _ _
    rw [this]
    exact Complex.arg_cos_add_sin_mul_I_coe_angle (x : Real.Angle)
  obtain ⟨k, hk⟩ := Real.Angle.angle_eq_iff_two_pi_dvd_sub.1 hang
  refine ⟨k, ?_⟩
  have e3 : Complex.arg ⟨c, s⟩ - (x + k * (2 * π)) = Complex.arg w := by linear_combination hk
  rw [e3]
  exact hd

/-- C171: the angle of the computed cosine and sine is the given one up to 0.00175, modulo whole turns. -/
theorem C171_angle (x : ℝ) : ∃ t, fastAtan2 real (fastCosSin real x).1 (fastCosSin real x).2 = some t ∧ ∃ k : ℤ, |t - (x + k * (2 * π))| < 175 / 100000 := by
  obtain ⟨h1, h2⟩ := C74_cosSin x
  obtain ⟨hcs, k, hk⟩ := near_arg (x := x) (h1.le.trans (by norm_num)) (h2.le.trans (by norm_num))
  obtain ⟨t, ht, he⟩ := C74_atan2 _ _ hcs
  refine ⟨t, ht, k, ?_⟩
  have := abs_add_le (t - Complex.arg ⟨(fastCosSin real x).1, (fastCosSin real x).2⟩) (Complex.arg ⟨(fastCosSin real x).1, (fastCosSin real x).2⟩ - (x + k * (2 * π)))
  rw [sub_add_sub_cancel] at this
  linarith

-- the vector (0, 4) with "π = 3"
example : fastAtan2 (⟨3, id, id, id, id, fun _ _ => 0⟩ : Libm ℚ) 0 4 = some (3 / 2) ∧ fastCosSin (⟨3, id, id, id, id, fun _ _ => 0⟩ : Libm ℚ) (3 / 2) = (0, 1) := by decide +kernel

end Verif.Functions
