import Verif.Gis.Props

/-! Property theorem C147 (see properties.jsonl): the conversion to ECEF coordinates is symmetric about the polar axis and the equator, and injective. -/
namespace Verif.Gis
open Verif Functions Real

/-- C147, symmetry about the polar axis: a longitude larger by `δ` turns the point by `δ`. -/
theorem C147_turn (lat lon alt δ : ℝ) :
    let p := latLonAltToECEF Spec.real lat lon alt
    latLonAltToECEF Spec.real lat (lon + δ) alt =
      (cos (δ / 180 * π) * p.1 - sin (δ / 180 * π) * p.2.1, sin (δ / 180 * π) * p.1 + cos (δ / 180 * π) * p.2.1, p.2.2) := by
  simp only [latLonAltToECEF, Spec.real]
  rw [show (lon + δ) / 180 * π = lon / 180 * π + δ / 180 * π by ring, cos_add, sin_add]
  refine Prod.ext ?_ (Prod.ext ?_ ?_) <;> simp only <;> ring

/-- C147, symmetry about the equator. -/
theorem C147_mirror (lat lon alt : ℝ) :
    let p := latLonAltToECEF Spec.real lat lon alt
    latLonAltToECEF Spec.real (-lat) lon alt = (p.1, p.2.1, -p.2.2) := by
  simp only [latLonAltToECEF, Spec.real]
  rw [show -lat / 180 * π = -(lat / 180 * π) by ring, cos_neg, sin_neg,
    show 1 - eccentricity2 * -sin (lat / 180 * π) * -sin (lat / 180 * π) = 1 - eccentricity2 * sin (lat / 180 * π) * sin (lat / 180 * π) by ring]
  refine Prod.ext ?_ (Prod.ext ?_ ?_) <;> simp only
  ring

theorem w_bounds {s : ℝ} (h : s ^ 2 ≤ 1) : 99 / 100 ≤ √(1 - eccentricity2 * s * s) ∧ √(1 - eccentricity2 * s * s) ≤ 1 ∧
    √(1 - eccentricity2 * s * s) ^ 2 = 1 - eccentricity2 * s * s := by
  have he : (0 : ℝ) < eccentricity2 ∧ (eccentricity2 : ℝ) ≤ 67 / 10000 := by unfold eccentricity2; constructor <;> norm_num
  have h0 : 0 ≤ s ^ 2 := sq_nonneg s
  have h1 : eccentricity2 * s * s ≤ 67 / 10000 := by
    rw [mul_assoc, ← sq]; nlinarith
  have h2 : 0 ≤ eccentricity2 * s * s := by rw [mul_assoc, ← sq]; exact mul_nonneg he.1.le h0
  refine ⟨?_, ?_, Real.sq_sqrt (by linarith)⟩
  · apply Real.le_sqrt_of_sq_le; linarith
  · rw [show (1 : ℝ) = √1 by simp]; apply Real.sqrt_le_sqrt; simp; linarith

/-- The distance from the axis along the normal, times the sine of the latitude, grows at most by a factor 1.03 of the semi-axis. -/
theorem slope {s1 s2 : ℝ} (h1 : s1 ^ 2 ≤ 1) (h2 : s2 ^ 2 ≤ 1) :
    (semiAxisA / √(1 - eccentricity2 * s1 * s1) * s1 - semiAxisA / √(1 - eccentricity2 * s2 * s2) * s2) * (s1 - s2) ≤ 6600000 * (s1 - s2) ^ 2 := by
  obtain ⟨a1, b1, c1⟩ := w_bounds h1
  obtain ⟨a2, b2, c2⟩ := w_bounds h2
  generalize √(1 - eccentricity2 * s1 * s1) = w1 at *
  generalize √(1 - eccentricity2 * s2 * s2) = w2 at *
  have he : (0 : ℝ) < eccentricity2 ∧ (eccentricity2 : ℝ) ≤ 67 / 10000 := by unfold eccentricity2; constructor <;> norm_num
  have hw : 0 < w1 * w2 := by positivity
  have hs : 0 < w1 + w2 := by linarith
  -- the factor of the squared difference
  have key : (semiAxisA / w1 * s1 - semiAxisA / w2 * s2) * (s1 - s2) =
      semiAxisA * ((w2 * (w1 + w2) + eccentricity2 * (s2 * (s1 + s2))) / ((w1 + w2) * (w1 * w2))) * (s1 - s2) ^ 2 := by
    have e : w2 ^ 2 - w1 ^ 2 = eccentricity2 * (s1 ^ 2 - s2 ^ 2) := by rw [c1, c2]; ring
    have e2 : (s1 * w2 - s2 * w1) * (w1 + w2) = (s1 - s2) * (w2 * (w1 + w2) + eccentricity2 * (s2 * (s1 + s2))) := by
      have : (s1 * w2 - s2 * w1) * (w1 + w2) = (s1 - s2) * (w2 * (w1 + w2)) + s2 * (w2 ^ 2 - w1 ^ 2) := by ring
      rw [this, e]; ring
    have w1n : w1 ≠ 0 := by linarith
    have w2n : w2 ≠ 0 := by linarith
    have e3 : semiAxisA / w1 * s1 - semiAxisA / w2 * s2 = semiAxisA * ((s1 * w2 - s2 * w1) * (w1 + w2)) / ((w1 + w2) * (w1 * w2)) := by
      field_simp
    rw [e3, e2]
    ring
  rw [key]
  apply mul_le_mul_of_nonneg_right _ (sq_nonneg _)
  have hb : s2 * (s1 + s2) ≤ 2 := by nlinarith [sq_nonneg (s1 - s2)]
  have hn : w2 * (w1 + w2) + eccentricity2 * (s2 * (s1 + s2)) ≤ 1 * (w1 + w2) + 134 / 10000 := by
    have : w2 * (w1 + w2) ≤ 1 * (w1 + w2) := mul_le_mul_of_nonneg_right b2 hs.le
    have : eccentricity2 * (s2 * (s1 + s2)) ≤ 134 / 10000 := by
      rcases le_total 0 (s2 * (s1 + s2)) with hp | hp
      · nlinarith [he.1, he.2]
      · have := mul_nonpos_of_nonneg_of_nonpos he.1.le hp; linarith
    linarith
  have hd : (w2 * (w1 + w2) + eccentricity2 * (s2 * (s1 + s2))) / ((w1 + w2) * (w1 * w2)) ≤ 103 / 100 := by
    rw [div_le_iff₀ (by positivity)]
    have : (9801 / 10000 : ℝ) ≤ w1 * w2 := by nlinarith
    have : (w1 + w2) * (9801 / 10000 : ℝ) ≤ (w1 + w2) * (w1 * w2) := mul_le_mul_of_nonneg_left this hs.le
    linarith
  unfold semiAxisA
  linarith

/-- Points with the same coordinates have the same normal and the same altitude, if the altitudes are not close to the centre of the Earth. -/
theorem same_normal {u1 v1 s1 h1 u2 v2 s2 h2 : ℝ} (n1 : u1 ^ 2 + v1 ^ 2 + s1 ^ 2 = 1) (n2 : u2 ^ 2 + v2 ^ 2 + s2 ^ 2 = 1) (g1 : -6300000 ≤ h1) (g2 : -6300000 ≤ h2)
    (ex : (semiAxisA / √(1 - eccentricity2 * s1 * s1) + h1) * u1 = (semiAxisA / √(1 - eccentricity2 * s2 * s2) + h2) * u2)
    (ey : (semiAxisA / √(1 - eccentricity2 * s1 * s1) + h1) * v1 = (semiAxisA / √(1 - eccentricity2 * s2 * s2) + h2) * v2)
    (ez : (axisRatio * axisRatio * (semiAxisA / √(1 - eccentricity2 * s1 * s1)) + h1) * s1 =
      (axisRatio * axisRatio * (semiAxisA / √(1 - eccentricity2 * s2 * s2)) + h2) * s2) : u1 = u2 ∧ v1 = v2 ∧ s1 = s2 ∧ h1 = h2 := by
  have q1 : s1 ^ 2 ≤ 1 := by nlinarith [sq_nonneg u1, sq_nonneg v1]
  have q2 : s2 ^ 2 ≤ 1 := by nlinarith [sq_nonneg u2, sq_nonneg v2]
  have hsl := slope q1 q2
  have nb : ∀ s : ℝ, s ^ 2 ≤ 1 → 6378137 ≤ semiAxisA / √(1 - eccentricity2 * s * s) := fun s q => by
    obtain ⟨a, b, -⟩ := w_bounds q
    rw [le_div_iff₀ (by linarith)]
    unfold semiAxisA
    linarith
  have N1 := nb s1 q1
  have N2 := nb s2 q2
  have hN : s1 = s2 → semiAxisA / √(1 - eccentricity2 * s1 * s1) = semiAxisA / √(1 - eccentricity2 * s2 * s2) := fun h => by rw [h]
  generalize semiAxisA / √(1 - eccentricity2 * s1 * s1) = M1 at *
  generalize semiAxisA / √(1 - eccentricity2 * s2 * s2) = M2 at *
  have hk : (0 : ℝ) ≤ 1 - axisRatio * axisRatio ∧ (1 : ℝ) - axisRatio * axisRatio ≤ 68 / 10000 := by unfold axisRatio; constructor <;> norm_num
  generalize (axisRatio * axisRatio : ℝ) = r at *
  set D := (u1 - u2) ^ 2 + (v1 - v2) ^ 2 + (s1 - s2) ^ 2 with hD
  -- the difference of the points along the difference of the normals
  have e : (M1 + h1 + (M2 + h2)) / 2 * D = (1 - r) * ((M1 * s1 - M2 * s2) * (s1 - s2)) := by
    rw [hD]
    linear_combination (u1 - u2) * ex + (v1 - v2) * ey + (s1 - s2) * ez - (M1 + h1 - (M2 + h2)) / 2 * n1 + (M1 + h1 - (M2 + h2)) / 2 * n2
  have l1 : (1 - r) * ((M1 * s1 - M2 * s2) * (s1 - s2)) ≤ 45000 * (s1 - s2) ^ 2 := by
    have a := mul_le_mul_of_nonneg_left hsl hk.1
    have b := mul_le_mul_of_nonneg_right hk.2 (sq_nonneg (s1 - s2))
    linarith [sq_nonneg (s1 - s2)]
  have l2 : (s1 - s2) ^ 2 ≤ D := by rw [hD]; linarith [sq_nonneg (u1 - u2), sq_nonneg (v1 - v2)]
  have hD0 : 0 ≤ D := le_trans (sq_nonneg _) l2
  have l3 : 78137 * D ≤ (M1 + h1 + (M2 + h2)) / 2 * D := mul_le_mul_of_nonneg_right (by linarith) hD0
  have z : D = 0 := by linarith
  have zu : u1 = u2 := by
    have : (u1 - u2) ^ 2 = 0 := by linarith [sq_nonneg (u1 - u2), sq_nonneg (v1 - v2), sq_nonneg (s1 - s2)]
    exact sub_eq_zero.1 (pow_eq_zero_iff (two_ne_zero) |>.1 this)
  have zv : v1 = v2 := by
    have : (v1 - v2) ^ 2 = 0 := by linarith [sq_nonneg (u1 - u2), sq_nonneg (v1 - v2), sq_nonneg (s1 - s2)]
    exact sub_eq_zero.1 (pow_eq_zero_iff (two_ne_zero) |>.1 this)
  have zs : s1 = s2 := by
    have : (s1 - s2) ^ 2 = 0 := by linarith [sq_nonneg (u1 - u2), sq_nonneg (v1 - v2), sq_nonneg (s1 - s2)]
    exact sub_eq_zero.1 (pow_eq_zero_iff (two_ne_zero) |>.1 this)
  refine ⟨zu, zv, zs, ?_⟩
  have hM := hN zs
  rw [hM, zu] at ex
  rw [hM, zv] at ey
  rw [hM, zs] at ez
  linear_combination u2 * ex + v2 * ey + s2 * ez - (h1 - h2) * n2

/-- C147: two places with latitudes between the poles and altitudes above -6300 km have the same ECEF coordinates only if they have the same latitude and altitude and,
away from the poles, the same longitude. -/
theorem C147_injective {lat1 lon1 alt1 lat2 lon2 alt2 : ℝ} (a1 : |lat1| ≤ 90) (a2 : |lat2| ≤ 90) (o1 : -180 < lon1 ∧ lon1 ≤ 180) (o2 : -180 < lon2 ∧ lon2 ≤ 180)
    (g1 : -6300000 ≤ alt1) (g2 : -6300000 ≤ alt2) (h : latLonAltToECEF Spec.real lat1 lon1 alt1 = latLonAltToECEF Spec.real lat2 lon2 alt2) :
    lat1 = lat2 ∧ alt1 = alt2 ∧ (|lat1| < 90 → lon1 = lon2) := by
  simp only [latLonAltToECEF, Spec.real, Prod.mk.injEq] at h
  obtain ⟨hx, hy, hz⟩ := h
  have pp := Real.pi_pos
  have unit : ∀ φ ρ : ℝ, (cos φ * cos ρ) ^ 2 + (cos φ * sin ρ) ^ 2 + sin φ ^ 2 = 1 := fun φ ρ => by
    linear_combination (cos φ ^ 2) * (sin_sq_add_cos_sq ρ) + sin_sq_add_cos_sq φ
  obtain ⟨eu, ev, es, eh⟩ := same_normal (unit (lat1 / 180 * π) (lon1 / 180 * π)) (unit (lat2 / 180 * π) (lon2 / 180 * π)) g1 g2
    (by rw [← mul_assoc, ← mul_assoc]; exact hx) (by rw [← mul_assoc, ← mul_assoc]; exact hy) hz
  have rng : ∀ l : ℝ, |l| ≤ 90 → l / 180 * π ∈ Set.Icc (-(π / 2)) (π / 2) := fun l hl => by
    rw [abs_le] at hl
    constructor <;> nlinarith
  have el : lat1 = lat2 := by
    have := Real.injOn_sin (rng _ a1) (rng _ a2) es
    have := mul_right_cancel₀ pp.ne' this
    linarith
  refine ⟨el, eh, fun hl => ?_⟩
  have hc : 0 < cos (lat1 / 180 * π) := by
    rw [abs_lt] at hl
    apply cos_pos_of_mem_Ioo
    constructor <;> nlinarith
  rw [← el] at eu ev
  have c := mul_left_cancel₀ hc.ne' eu
  have s := mul_left_cancel₀ hc.ne' ev
  have hd : cos (lon1 / 180 * π - lon2 / 180 * π) = 1 := by
    rw [cos_sub, c, s]; linear_combination sin_sq_add_cos_sq (lon2 / 180 * π)
  have := (Real.cos_eq_one_iff_of_lt_of_lt (by nlinarith) (by nlinarith)).1 hd
  have : (lon1 - lon2) * π = 0 := by linarith
  have := (mul_eq_zero.1 this).resolve_right pp.ne'
  linarith

/-- The bound on the altitude is needed: the centre of the Earth is below every place of the equator, at the altitude `-A`, so that all these have the same coordinates. -/
theorem C147_centre : latLonAltToECEF Spec.real 0 0 (-semiAxisA) = latLonAltToECEF Spec.real 0 90 (-semiAxisA) := by
  simp [latLonAltToECEF, Spec.real]

/-- Example: the places (45, 9, 100) and (45, 10, 100) are different points. -/
example : latLonAltToECEF Spec.real 45 9 100 ≠ latLonAltToECEF Spec.real 45 10 100 := fun h => by
  have := (C147_injective (by norm_num [abs_le]) (by norm_num [abs_le]) (by norm_num) (by norm_num) (by norm_num) (by norm_num) h).2.2 (by norm_num [abs_lt])
  norm_num at this

/-- Example: at a pole the longitude is immaterial. -/
example : latLonAltToECEF Spec.real 90 0 7 = latLonAltToECEF Spec.real 90 13 7 := by
  have : (90 : ℝ) / 180 * π = π / 2 := by ring
  simp [latLonAltToECEF, Spec.real, this]

end Verif.Gis
