import Verif.Gis.ExactProps
import Mathlib.Analysis.SpecialFunctions.Trigonometric.Deriv
import Mathlib.Analysis.SpecialFunctions.Sqrt
import Mathlib.Analysis.Real.Pi.Bounds

/-! Property theorem C156 (see properties.jsonl): the scales of the local coordinates and the ellipsoid of the ECEF coordinates. -/
namespace Verif.Gis
open Verif Functions Real

/-- Velocity of the ECEF position along a curve of geodetic coordinates at altitude zero, per unit of the parameter: the length of its derivative. -/
structure Speed (f : ℝ → ℝ × ℝ × ℝ) (t v : ℝ) : Prop where
  ex : ∃ a b c : ℝ, HasDerivAt (fun s => (f s).1) a t ∧ HasDerivAt (fun s => (f s).2.1) b t ∧ HasDerivAt (fun s => (f s).2.2) c t ∧ v = √(a ^ 2 + b ^ 2 + c ^ 2)

theorem Speed.unique {f : ℝ → ℝ × ℝ × ℝ} {t v w : ℝ} (h : Speed f t v) (h' : Speed f t w) : v = w := by
  obtain ⟨a, b, c, h1, h2, h3, rfl⟩ := h.ex
  obtain ⟨a', b', c', h1', h2', h3', rfl⟩ := h'.ex
  rw [h1.unique h1', h2.unique h2', h3.unique h3']

/-- The argument of the square root. -/
theorem ecc_bounds (s : ℝ) (hs : s ^ 2 ≤ 1) : 993 / 1000 ≤ 1 - eccentricity2 * s * s ∧ 1 - eccentricity2 * s * s ≤ 1 := by
  have h0 := sq_nonneg s
  unfold eccentricity2
  constructor <;> nlinarith

theorem hasDeriv_N (k lat : ℝ) : HasDerivAt (fun t => semiAxisA / √(1 - eccentricity2 * sin (t * k) * sin (t * k)))
    (semiAxisA * eccentricity2 * sin (lat * k) * cos (lat * k) * k / ((1 - eccentricity2 * sin (lat * k) * sin (lat * k)) * √(1 - eccentricity2 * sin (lat * k) * sin (lat * k)))) lat := by
  have hs1 : sin (lat * k) ^ 2 ≤ 1 := by nlinarith [sin_sq_add_cos_sq (lat * k), sq_nonneg (cos (lat * k))]
  have hw := (ecc_bounds _ hs1).1
  have hs : HasDerivAt (fun t => sin (t * k)) (cos (lat * k) * k) lat := by
    simpa using ((hasDerivAt_id lat).mul_const k).sin
  have h1 : HasDerivAt (fun t => 1 - eccentricity2 * sin (t * k) * sin (t * k)) (-(2 * eccentricity2 * sin (lat * k) * (cos (lat * k) * k))) lat := by
    refine (((hs.const_mul eccentricity2).mul hs).const_sub 1).congr_deriv ?_
    ring
  have h2 := h1.sqrt (by linarith)
  have hsq : 0 < √(1 - eccentricity2 * sin (lat * k) * sin (lat * k)) := sqrt_pos.2 (by linarith)
  refine ((hasDerivAt_const lat semiAxisA).div h2 hsq.ne').congr_deriv ?_
  have e := sq_sqrt (show 0 ≤ 1 - eccentricity2 * sin (lat * k) * sin (lat * k) by linarith)
  rw [e]
  generalize √(1 - eccentricity2 * sin (lat * k) * sin (lat * k)) = q at *
  field_simp
  ring

/-- Velocity northwards, in metres per degree of latitude. -/
theorem speed_lat (lat lon : ℝ) :
    let s := sin (lat / 180 * π)
    let c := cos (lat / 180 * π)
    let w := 1 - eccentricity2 * s * s
    Speed (fun t => latLonAltToECEF Spec.real t lon 0) lat
      (semiAxisA * (π / 180) / (w * √w) * √((1 - eccentricity2) ^ 2 * s ^ 2 + axisRatio ^ 4 * c ^ 2)) := by
  intro s c w
  have hk : ∀ t : ℝ, t / 180 * π = t * (π / 180) := fun t => by ring
  have hs1 : s ^ 2 ≤ 1 := by nlinarith [sin_sq_add_cos_sq (lat / 180 * π), sq_nonneg c]
  have hw := (ecc_bounds _ hs1).1
  have hsq : 0 < √w := sqrt_pos.2 (by show (0 : ℝ) < 1 - eccentricity2 * s * s; linarith)
  have hw0 : 0 < w := by show (0 : ℝ) < 1 - eccentricity2 * s * s; linarith
  have hN := hasDeriv_N (π / 180) lat
  have hsin : HasDerivAt (fun t => sin (t * (π / 180))) (cos (lat * (π / 180)) * (π / 180)) lat := by
    simpa using ((hasDerivAt_id lat).mul_const (π / 180)).sin
  have hcos : HasDerivAt (fun t => cos (t * (π / 180))) (-sin (lat * (π / 180)) * (π / 180)) lat := by
    simpa using ((hasDerivAt_id lat).mul_const (π / 180)).cos
  have hpyth : c ^ 2 = 1 - s ^ 2 := by have := sin_sq_add_cos_sq (lat / 180 * π); linarith
  -- the derivatives of N cos and N sin
  have hq2 : √w ^ 2 = w := sq_sqrt hw0.le
  have h1 : HasDerivAt (fun t => semiAxisA / √(1 - eccentricity2 * sin (t * (π / 180)) * sin (t * (π / 180))) * cos (t * (π / 180)))
      (-(semiAxisA * (π / 180) / (w * √w) * (1 - eccentricity2)) * s) lat := by
    refine (hN.mul hcos).congr_deriv ?_
    rw [← hk lat]
    show semiAxisA * eccentricity2 * s * c * (π / 180) / (w * √w) * c + semiAxisA / √w * (-s * (π / 180)) = _
    field_simp
    rw [hpyth, show w = 1 - eccentricity2 * s * s from rfl]
    ring
  have h2 : HasDerivAt (fun t => semiAxisA / √(1 - eccentricity2 * sin (t * (π / 180)) * sin (t * (π / 180))) * sin (t * (π / 180)))
      (semiAxisA * (π / 180) / (w * √w) * c) lat := by
    refine (hN.mul hsin).congr_deriv ?_
    rw [← hk lat]
    show semiAxisA * eccentricity2 * s * c * (π / 180) / (w * √w) * s + semiAxisA / √w * (c * (π / 180)) = _
    field_simp
    rw [show w = 1 - eccentricity2 * s * s from rfl]
    ring
  refine ⟨⟨-(semiAxisA * (π / 180) / (w * √w) * (1 - eccentricity2)) * s * cos (lon / 180 * π),
    -(semiAxisA * (π / 180) / (w * √w) * (1 - eccentricity2)) * s * sin (lon / 180 * π), axisRatio * axisRatio * (semiAxisA * (π / 180) / (w * √w) * c), ?_, ?_, ?_, ?_⟩⟩
  · refine (h1.mul_const (cos (lon / 180 * π))).congr_of_eventuallyEq (Filter.Eventually.of_forall fun t => ?_)
    simp only [latLonAltToECEF, Spec.real, hk, add_zero]
  · refine (h1.mul_const (sin (lon / 180 * π))).congr_of_eventuallyEq (Filter.Eventually.of_forall fun t => ?_)
    simp only [latLonAltToECEF, Spec.real, hk, add_zero]
  · refine (h2.const_mul (axisRatio * axisRatio)).congr_of_eventuallyEq (Filter.Eventually.of_forall fun t => ?_)
    simp only [latLonAltToECEF, Spec.real, hk, add_zero]
    ring
  · have hA : 0 ≤ semiAxisA * (π / 180) / (w * √w) := by
      have := pi_pos
      unfold semiAxisA
      positivity
    have hl := sin_sq_add_cos_sq (lon / 180 * π)
    generalize semiAxisA * (π / 180) / (w * √w) = A at *
    nth_rw 1 [← sqrt_sq hA]
    rw [← sqrt_mul (sq_nonneg A)]
    congr 1
    linear_combination (-(A ^ 2 * (1 - eccentricity2) ^ 2 * s ^ 2)) * hl

/-- Velocity eastwards, in metres per degree of longitude. -/
theorem speed_lon (lat lon : ℝ) :
    let s := sin (lat / 180 * π)
    let c := cos (lat / 180 * π)
    let w := 1 - eccentricity2 * s * s
    Speed (fun t => latLonAltToECEF Spec.real lat t 0) lon (semiAxisA * (π / 180) / √w * |c|) := by
  intro s c w
  have hk : ∀ t : ℝ, t / 180 * π = t * (π / 180) := fun t => by ring
  have hs1 : s ^ 2 ≤ 1 := by nlinarith [sin_sq_add_cos_sq (lat / 180 * π), sq_nonneg c]
  have hw := (ecc_bounds _ hs1).1
  have hw0 : 0 < w := by show (0 : ℝ) < 1 - eccentricity2 * s * s; linarith
  have hsin : HasDerivAt (fun t => sin (t / 180 * π)) (cos (lon / 180 * π) * (π / 180)) lon := by
    simp only [hk]
    simpa using ((hasDerivAt_id lon).mul_const (π / 180)).sin
  have hcos : HasDerivAt (fun t => cos (t / 180 * π)) (-sin (lon / 180 * π) * (π / 180)) lon := by
    simp only [hk]
    simpa using ((hasDerivAt_id lon).mul_const (π / 180)).cos
  refine ⟨⟨semiAxisA / √w * c * (-sin (lon / 180 * π) * (π / 180)), semiAxisA / √w * c * (cos (lon / 180 * π) * (π / 180)), 0, ?_, ?_, ?_, ?_⟩⟩
  · refine (hcos.const_mul (semiAxisA / √w * c)).congr_of_eventuallyEq (Filter.Eventually.of_forall fun t => ?_)
    simp only [latLonAltToECEF, Spec.real, add_zero]
    rfl
  · refine (hsin.const_mul (semiAxisA / √w * c)).congr_of_eventuallyEq (Filter.Eventually.of_forall fun t => ?_)
    simp only [latLonAltToECEF, Spec.real, add_zero]
    rfl
  · exact hasDerivAt_const _ _
  · have hA : 0 ≤ semiAxisA * (π / 180) / √w := by
      have := pi_pos
      unfold semiAxisA
      positivity
    have hl := sin_sq_add_cos_sq (lon / 180 * π)
    rw [← abs_of_nonneg hA, ← abs_mul, ← sqrt_sq_eq_abs]
    congr 1
    linear_combination (-(semiAxisA * (π / 180) / √w * c) ^ 2) * hl

theorem pow32_bounds {u : ℝ} (h0 : 0 ≤ u) (h1 : u ≤ 7 / 1000) :
    1 + 3 / 2 * u + 15 / 8 * u ^ 2 ≤ 1 / ((1 - u) * √(1 - u)) ∧ 1 / ((1 - u) * √(1 - u)) ≤ 1 + 3 / 2 * u + 19 / 10 * u ^ 2 := by
  have hw : 0 < 1 - u := by linarith
  have hq : 0 < √(1 - u) := sqrt_pos.2 hw
  have hv : (1 / ((1 - u) * √(1 - u))) ^ 2 * (1 - u) ^ 3 = 1 := by
    have e := sq_sqrt hw.le
    rw [div_pow, mul_pow, e]
    field_simp
  have hpos : 0 < 1 / ((1 - u) * √(1 - u)) := by positivity
  have hw3 : 0 < (1 - u) ^ 3 := by positivity
  generalize 1 / ((1 - u) * √(1 - u)) = v at *
  have h2 : 0 ≤ u ^ 2 := by positivity
  have h3 : 0 ≤ u ^ 3 := by positivity
  have h4 : u ^ 4 ≤ u ^ 3 * (7 / 1000) := by rw [show u ^ 4 = u ^ 3 * u by ring]; exact mul_le_mul_of_nonneg_left h1 h3
  have h5 : u ^ 5 ≤ u ^ 3 := by
    rw [show u ^ 5 = u ^ 3 * (u * u) by ring]; nlinarith
  have h6 : u ^ 6 ≤ u ^ 5 := by rw [show u ^ 6 = u ^ 5 * u by ring]; nlinarith [pow_nonneg h0 5]
  have h5' : u ^ 5 ≤ u ^ 3 * (7 / 1000) := by
    rw [show u ^ 5 = u ^ 3 * (u * u) by ring]; exact mul_le_mul_of_nonneg_left (by nlinarith) h3
  have h7 : 0 ≤ u ^ 7 := by positivity
  have h7' : u ^ 7 ≤ u ^ 6 := by rw [show u ^ 7 = u ^ 6 * u by ring]; nlinarith [pow_nonneg h0 6]
  have h3' : u ^ 3 ≤ u ^ 2 * (7 / 1000) := by rw [show u ^ 3 = u ^ 2 * u by ring]; exact mul_le_mul_of_nonneg_left h1 h2
  constructor
  · have key : (1 + 3 / 2 * u + 15 / 8 * u ^ 2) ^ 2 * (1 - u) ^ 3 ≤ 1 := by
      have e : (1 + 3 / 2 * u + 15 / 8 * u ^ 2) ^ 2 * (1 - u) ^ 3 =
          1 - 35 / 8 * u ^ 3 + 105 / 64 * u ^ 4 + 21 / 64 * u ^ 5 + 315 / 64 * u ^ 6 - 225 / 64 * u ^ 7 := by ring
      rw [e]
      linarith
    by_contra hc
    have : v ^ 2 < (1 + 3 / 2 * u + 15 / 8 * u ^ 2) ^ 2 := pow_lt_pow_left₀ (by linarith) hpos.le (by norm_num)
    have := mul_lt_mul_of_pos_right this hw3
    linarith
  · have key : 1 ≤ (1 + 3 / 2 * u + 19 / 10 * u ^ 2) ^ 2 * (1 - u) ^ 3 := by
      have e : (1 + 3 / 2 * u + 19 / 10 * u ^ 2) ^ 2 * (1 - u) ^ 3 =
          1 + 1 / 20 * u ^ 2 - 89 / 20 * u ^ 3 + 83 / 50 * u ^ 4 + 11 / 50 * u ^ 5 + 513 / 100 * u ^ 6 - 361 / 100 * u ^ 7 := by ring
      rw [e]
      have := pow_nonneg h0 4
      have := pow_nonneg h0 5
      have := pow_nonneg h0 6
      linarith
    by_contra hc
    have : (1 + 3 / 2 * u + 19 / 10 * u ^ 2) ^ 2 < v ^ 2 := pow_lt_pow_left₀ (by linarith) (by positivity) (by norm_num)
    have := mul_lt_mul_of_pos_right this hw3
    linarith

theorem pow12_bounds {u : ℝ} (h0 : 0 ≤ u) (h1 : u ≤ 7 / 1000) :
    1 + 1 / 2 * u + 3 / 8 * u ^ 2 ≤ 1 / √(1 - u) ∧ 1 / √(1 - u) ≤ 1 + 1 / 2 * u + 4 / 10 * u ^ 2 := by
  have hw : 0 < 1 - u := by linarith
  have hq : 0 < √(1 - u) := sqrt_pos.2 hw
  have hv : (1 / √(1 - u)) ^ 2 * (1 - u) = 1 := by
    have e := sq_sqrt hw.le
    rw [div_pow, e]
    field_simp
  have hpos : 0 < 1 / √(1 - u) := by positivity
  generalize 1 / √(1 - u) = v at *
  have h2 : 0 ≤ u ^ 2 := by positivity
  have h3 : 0 ≤ u ^ 3 := by positivity
  have h4 : u ^ 4 ≤ u ^ 3 * (7 / 1000) := by rw [show u ^ 4 = u ^ 3 * u by ring]; exact mul_le_mul_of_nonneg_left h1 h3
  have h4' := pow_nonneg h0 4
  have h5' := pow_nonneg h0 5
  have h5 : u ^ 5 ≤ u ^ 4 := by rw [show u ^ 5 = u ^ 4 * u by ring]; nlinarith
  have h3' : u ^ 3 ≤ u ^ 2 * (7 / 1000) := by rw [show u ^ 3 = u ^ 2 * u by ring]; exact mul_le_mul_of_nonneg_left h1 h2
  constructor
  · have key : (1 + 1 / 2 * u + 3 / 8 * u ^ 2) ^ 2 * (1 - u) ≤ 1 := by
      have e : (1 + 1 / 2 * u + 3 / 8 * u ^ 2) ^ 2 * (1 - u) = 1 - 5 / 8 * u ^ 3 - 15 / 64 * u ^ 4 - 9 / 64 * u ^ 5 := by ring
      rw [e]
      linarith
    by_contra hc
    have : v ^ 2 < (1 + 1 / 2 * u + 3 / 8 * u ^ 2) ^ 2 := pow_lt_pow_left₀ (by linarith) hpos.le (by norm_num)
    have := mul_lt_mul_of_pos_right this hw
    linarith
  · have key : 1 ≤ (1 + 1 / 2 * u + 4 / 10 * u ^ 2) ^ 2 * (1 - u) := by
      have e : (1 + 1 / 2 * u + 4 / 10 * u ^ 2) ^ 2 * (1 - u) = 1 + 1 / 20 * u ^ 2 - 13 / 20 * u ^ 3 - 6 / 25 * u ^ 4 - 4 / 25 * u ^ 5 := by ring
      rw [e]
      linarith
    by_contra hc
    have : (1 + 1 / 2 * u + 4 / 10 * u ^ 2) ^ 2 < v ^ 2 := pow_lt_pow_left₀ (by linarith) (by positivity) (by norm_num)
    have := mul_lt_mul_of_pos_right this hw
    linarith

theorem deg_bounds : 3141592 / 180000000 ≤ π / 180 ∧ π / 180 ≤ 3141593 / 180000000 := by
  have h1 := pi_gt_d6
  have h2 := pi_lt_d6
  constructor <;> linarith

/-- The length of a degree of latitude of the code is right up to 8 metres. -/
theorem lat_scale (lat : ℝ) :
    let s := sin (lat / 180 * π)
    let c := cos (lat / 180 * π)
    let w := 1 - eccentricity2 * s * s
    |semiAxisA * (π / 180) / (w * √w) * √((1 - eccentricity2) ^ 2 * s ^ 2 + axisRatio ^ 4 * c ^ 2) - meterPerDegLat Spec.real lat| ≤ 8 := by
  intro s c w
  have hsc : s ^ 2 + c ^ 2 = 1 := sin_sq_add_cos_sq _
  have hw : w = 1 - eccentricity2 * s ^ 2 := by show 1 - eccentricity2 * s * s = _; ring
  have hm : meterPerDegLat Spec.real lat = 11113209 / 100 - 56605 / 100 * (1 - 2 * s ^ 2) + 120 / 100 * (2 * (1 - 2 * s ^ 2) ^ 2 - 1) -
      2 / 1000 * (4 * (1 - 2 * s ^ 2) ^ 3 - 3 * (1 - 2 * s ^ 2)) := by
    unfold meterPerDegLat Spec.real
    dsimp only
    rw [show 4 * (lat / 180 * π) = 2 * (2 * (lat / 180 * π)) by ring, show 6 * (lat / 180 * π) = 3 * (2 * (lat / 180 * π)) by ring, cos_three_mul, cos_two_mul (2 * _),
      cos_two_mul]
    have : cos (lat / 180 * π) ^ 2 = 1 - s ^ 2 := by linarith
    rw [this]
    ring
  rw [hm, hw]
  have ht0 : 0 ≤ s ^ 2 := sq_nonneg s
  have ht1 : s ^ 2 ≤ 1 := by linarith [sq_nonneg c]
  have hc : c ^ 2 = 1 - s ^ 2 := by linarith
  rw [hc]
  generalize s ^ 2 = t at *
  clear_value w
  have he : (0 : ℝ) ≤ eccentricity2 * t := by unfold eccentricity2; positivity
  have he' : (eccentricity2 * t : ℝ) ≤ 7 / 1000 := by unfold eccentricity2; linarith
  obtain ⟨b1, b2⟩ := pow32_bounds he he'
  obtain ⟨k1, k2⟩ := deg_bounds
  rw [show semiAxisA * (π / 180) / ((1 - eccentricity2 * t) * √(1 - eccentricity2 * t)) = semiAxisA * (π / 180) * (1 / ((1 - eccentricity2 * t) * √(1 - eccentricity2 * t))) by ring]
  have hg1 : 9933055 / 10000000 ≤ √((1 - eccentricity2) ^ 2 * t + axisRatio ^ 4 * (1 - t)) := by
    apply le_sqrt_of_sq_le
    unfold eccentricity2 axisRatio
    linarith
  have hg2 : √((1 - eccentricity2) ^ 2 * t + axisRatio ^ 4 * (1 - t)) ≤ 9933057 / 10000000 := by
    rw [sqrt_le_left (by norm_num)]
    unfold eccentricity2 axisRatio
    linarith
  generalize √((1 - eccentricity2) ^ 2 * t + axisRatio ^ 4 * (1 - t)) = g at *
  generalize 1 / ((1 - eccentricity2 * t) * √(1 - eccentricity2 * t)) = v at *
  have hk0 : 0 < π / 180 := by linarith
  generalize π / 180 = k at *
  have hv0 : 0 < v := by
    have : 0 ≤ (eccentricity2 * t : ℝ) ^ 2 := sq_nonneg _
    linarith
  have hkg1 : 3141592 / 180000000 * (9933055 / 10000000) ≤ k * g := mul_le_mul k1 hg1 (by norm_num) hk0.le
  have hkg2 : k * g ≤ 3141593 / 180000000 * (9933057 / 10000000) := mul_le_mul k2 hg2 (by linarith) (by norm_num)
  have hlo : 3141592 / 180000000 * (9933055 / 10000000) * (1 + 3 / 2 * (eccentricity2 * t) + 15 / 8 * (eccentricity2 * t) ^ 2) ≤ k * g * v :=
    mul_le_mul hkg1 b1 (by positivity) (by linarith)
  have hhi : k * g * v ≤ 3141593 / 180000000 * (9933057 / 10000000) * (1 + 3 / 2 * (eccentricity2 * t) + 19 / 10 * (eccentricity2 * t) ^ 2) :=
    mul_le_mul hkg2 b2 hv0.le (by norm_num)
  rw [show semiAxisA * k * v * g = semiAxisA * (k * g * v) by ring]
  generalize k * g * v = z at *
  unfold eccentricity2 at *
  unfold semiAxisA
  have hp : 0 ≤ t * (1 - t) := mul_nonneg ht0 (by linarith)
  have hp' : 0 ≤ t * t * (1 - t) := mul_nonneg (mul_nonneg ht0 ht0) (by linarith)
  rw [abs_le]
  constructor
  · nlinarith
  · nlinarith

theorem lonScale_eq (lon : ℝ) : meterPerDegLon Spec.real lon =
    cos (lon / 180 * π) * (11169938 / 100 - 3806 / 10 * cos (lon / 180 * π) ^ 2 + 192 / 100 * cos (lon / 180 * π) ^ 4) := by
  unfold meterPerDegLon Spec.real
  dsimp only
  rw [cos_three_mul, cos_five]
  ring

theorem lonFactor_pos {c : ℝ} (hc : |c| ≤ 1) : 111000 ≤ 11169938 / 100 - 3806 / 10 * c ^ 2 + 192 / 100 * c ^ 4 := by
  have h : c ^ 2 ≤ 1 := by rw [← sq_abs]; nlinarith [abs_nonneg c]
  have h4 : 0 ≤ c ^ 4 := by positivity
  linarith

/-- The length of a degree of longitude that the function `meterPerDegLon` yields for the latitude is right up to 8 metres. -/
theorem lon_scale (lat : ℝ) :
    let s := sin (lat / 180 * π)
    let c := cos (lat / 180 * π)
    let w := 1 - eccentricity2 * s * s
    abs (semiAxisA * (π / 180) / √w * |c| - |meterPerDegLon Spec.real lat|) ≤ 8 := by
  intro s c w
  have hsc : s ^ 2 + c ^ 2 = 1 := sin_sq_add_cos_sq _
  have hc1 : |c| ≤ 1 := abs_cos_le_one _
  have hw : w = 1 - eccentricity2 * (1 - c ^ 2) := by show 1 - eccentricity2 * s * s = _; rw [show (1 : ℝ) - c ^ 2 = s ^ 2 by linarith]; ring
  have hpos := lonFactor_pos hc1
  rw [lonScale_eq, abs_mul, show cos (lat / 180 * π) = c from rfl, abs_of_pos (by linarith : 0 < 11169938 / 100 - 3806 / 10 * c ^ 2 + 192 / 100 * c ^ 4), mul_comm, ← mul_sub, abs_mul, abs_abs]
  refine (mul_le_mul hc1 ?_ (abs_nonneg _) zero_le_one).trans (by norm_num : (1 : ℝ) * 8 ≤ 8)
  rw [hw, show c ^ 4 = c ^ 2 * c ^ 2 by ring]
  have ht0 : 0 ≤ c ^ 2 := sq_nonneg c
  have ht1 : c ^ 2 ≤ 1 := by linarith [sq_nonneg s]
  generalize c ^ 2 = t at *
  clear_value w
  have he : (0 : ℝ) ≤ eccentricity2 * (1 - t) := mul_nonneg (by unfold eccentricity2; norm_num) (by linarith)
  have he' : (eccentricity2 * (1 - t) : ℝ) ≤ 7 / 1000 := by unfold eccentricity2; linarith
  obtain ⟨b1, b2⟩ := pow12_bounds he he'
  obtain ⟨k1, k2⟩ := deg_bounds
  rw [show semiAxisA * (π / 180) / √(1 - eccentricity2 * (1 - t)) = semiAxisA * (π / 180 * (1 / √(1 - eccentricity2 * (1 - t)))) by ring]
  generalize 1 / √(1 - eccentricity2 * (1 - t)) = v at *
  have hk0 : 0 < π / 180 := by linarith
  generalize π / 180 = k at *
  have hv0 : 0 < v := by
    have : 0 ≤ (eccentricity2 * (1 - t) : ℝ) ^ 2 := sq_nonneg _
    linarith
  have hlo : 3141592 / 180000000 * (1 + 1 / 2 * (eccentricity2 * (1 - t)) + 3 / 8 * (eccentricity2 * (1 - t)) ^ 2) ≤ k * v :=
    mul_le_mul k1 b1 (by positivity) hk0.le
  have hhi : k * v ≤ 3141593 / 180000000 * (1 + 1 / 2 * (eccentricity2 * (1 - t)) + 4 / 10 * (eccentricity2 * (1 - t)) ^ 2) :=
    mul_le_mul k2 b2 hv0.le (by norm_num)
  generalize k * v = z at *
  unfold eccentricity2 at *
  unfold semiAxisA
  have hp : 0 ≤ t * (1 - t) := mul_nonneg ht0 (by linarith)
  rw [abs_le]
  constructor <;> nlinarith

/-- C156, full statement: the point one degree to the north and the point one degree to the east have the local coordinates that correspond to the speed of the ECEF position,
up to 8 metres (less than one part in ten thousand of a degree of latitude). -/
def C156_statement : Prop := ∀ lat lon vN vE : ℝ, -90 < lat → lat < 90 → Speed (fun t => latLonAltToECEF Spec.real t lon 0) lat vN → Speed (fun t => latLonAltToECEF Spec.real lat t 0) lon vE →
  |(latLonToLocalXY Spec.real lat lon (lat + 1) lon).2 - vN| ≤ 8 ∧ |(latLonToLocalXY Spec.real lat lon lat (lon + 1)).1 - vE| ≤ 8

theorem east_eq (lat lon : ℝ) : (latLonToLocalXY Spec.real lat lon lat (lon + 1)).1 = meterPerDegLon Spec.real lon := by
  simp only [latLonToLocalXY]; ring

/-- C156, part: northwards the scale is right, everywhere; eastwards the scale would be right, up to the sign, with the latitude in place of the longitude. Missing: the scale
eastwards, which the code takes at the longitude (`C156_violated`). -/
theorem C156_north_partial (lat lon vN vE : ℝ) (hN : Speed (fun t => latLonAltToECEF Spec.real t lon 0) lat vN) (hE : Speed (fun t => latLonAltToECEF Spec.real lat t 0) lon vE) :
    |(latLonToLocalXY Spec.real lat lon (lat + 1) lon).2 - vN| ≤ 8 ∧ abs (|meterPerDegLon Spec.real lat| - vE) ≤ 8 := by
  constructor
  · rw [hN.unique (speed_lat lat lon), abs_sub_comm]
    have := lat_scale lat
    simp only [latLonToLocalXY]
    rwa [show lat + 1 - lat = 1 by ring, one_mul]
  · rw [hE.unique (speed_lon lat lon), abs_sub_comm]
    exact lon_scale lat

/-- C156, eastwards: the scale is right at most if the cosines of the latitude and of the longitude agree up to 2e-4, and it has the wrong sign beyond the longitudes
of 90 degrees: there the points to the east have negative x. -/
theorem C156_east (lat lon vE : ℝ) (hE : Speed (fun t => latLonAltToECEF Spec.real lat t 0) lon vE) :
    (|(latLonToLocalXY Spec.real lat lon lat (lon + 1)).1 - vE| ≤ 8 → abs (cos (lon / 180 * π) - |cos (lat / 180 * π)|) ≤ 2 / 10000) ∧
    (90 < lon → lon < 270 → ∀ δ > 0, (latLonToLocalXY Spec.real lat lon lat (lon + δ)).1 < 0) ∧
    (-270 < lon → lon < -90 → ∀ δ > 0, (latLonToLocalXY Spec.real lat lon lat (lon + δ)).1 < 0) := by
  have hneg : cos (lon / 180 * π) < 0 → ∀ δ > 0, (latLonToLocalXY Spec.real lat lon lat (lon + δ)).1 < 0 := by
    intro hc δ hδ
    simp only [latLonToLocalXY, lonScale_eq]
    have := lonFactor_pos (abs_cos_le_one (lon / 180 * π))
    rw [show lon + δ - lon = δ by ring]
    exact mul_neg_of_pos_of_neg hδ (mul_neg_of_neg_of_pos hc (by linarith))
  refine ⟨fun h => ?_, fun h1 h2 => hneg ?_, fun h1 h2 => hneg ?_⟩
  · rw [east_eq] at h
    have h1 := lon_scale lat
    dsimp only at h1
    rw [← hE.unique (speed_lon lat lon), lonScale_eq lat, abs_mul, abs_of_pos (by have := lonFactor_pos (abs_cos_le_one (lat / 180 * π)); linarith :
      0 < 11169938 / 100 - 3806 / 10 * cos (lat / 180 * π) ^ 2 + 192 / 100 * cos (lat / 180 * π) ^ 4), ← sq_abs (cos (lat / 180 * π)),
      show cos (lat / 180 * π) ^ 4 = (cos (lat / 180 * π) ^ 2) ^ 2 by ring, ← sq_abs (cos (lat / 180 * π))] at h1
    rw [lonScale_eq] at h
    have hc : |cos (lon / 180 * π)| ≤ 1 := abs_cos_le_one _
    have hd : |cos (lat / 180 * π)| ≤ 1 := abs_cos_le_one _
    have hd0 := abs_nonneg (cos (lat / 180 * π))
    generalize cos (lon / 180 * π) = c at *
    generalize |cos (lat / 180 * π)| = d at *
    rw [abs_le] at h h1 hc
    have hkey : ∀ x y : ℝ, |x| ≤ 1 → |y| ≤ 1 → 110000 ≤ 11169938 / 100 - 3806 / 10 * (x ^ 2 + x * y + y ^ 2) + 192 / 100 * (x ^ 4 + x ^ 3 * y + x ^ 2 * y ^ 2 + x * y ^ 3 + y ^ 4) := by
      intro x y hx hy
      have hc2 : x ^ 2 ≤ 1 := by rw [← sq_abs]; nlinarith [abs_nonneg x]
      have hd2 : y ^ 2 ≤ 1 := by rw [← sq_abs]; nlinarith [abs_nonneg y]
      have hcd : x * y ≤ 1 := by nlinarith [sq_nonneg (x - y)]
      have h4 : 0 ≤ x ^ 4 + x ^ 3 * y + x ^ 2 * y ^ 2 + x * y ^ 3 + y ^ 4 := by
        nlinarith [sq_nonneg (x ^ 2 + x * y / 2), sq_nonneg (y ^ 2 + x * y / 2), sq_nonneg (x * y)]
      linarith
    have hb := hkey c d (abs_le.2 hc) (by rwa [abs_of_nonneg hd0])
    have he : (c - d) * (11169938 / 100 - 3806 / 10 * (c ^ 2 + c * d + d ^ 2) + 192 / 100 * (c ^ 4 + c ^ 3 * d + c ^ 2 * d ^ 2 + c * d ^ 3 + d ^ 4)) =
        c * (11169938 / 100 - 3806 / 10 * c ^ 2 + 192 / 100 * c ^ 4) - d * (11169938 / 100 - 3806 / 10 * d ^ 2 + 192 / 100 * (d ^ 2) ^ 2) := by ring
    generalize 11169938 / 100 - 3806 / 10 * (c ^ 2 + c * d + d ^ 2) + 192 / 100 * (c ^ 4 + c ^ 3 * d + c ^ 2 * d ^ 2 + c * d ^ 3 + d ^ 4) = B at *
    have hab : |c - d| * B ≤ 16 := by
      rw [← abs_of_pos (by linarith : 0 < B), ← abs_mul, he, abs_le]
      constructor <;> linarith
    nlinarith [abs_nonneg (c - d)]
  · have hp := pi_pos
    exact cos_neg_of_pi_div_two_lt_of_lt (by nlinarith) (by nlinarith)
  · have hp := pi_pos
    rw [← cos_neg]
    exact cos_neg_of_pi_div_two_lt_of_lt (by nlinarith) (by nlinarith)

/-- C156 fails: at latitude 60 and longitude 0 a degree of longitude is about 55.8 km, for the code 111.3 km. -/
theorem C156_violated : ¬ C156_statement := by
  intro h
  have h1 := (h 60 0 _ _ (by norm_num) (by norm_num) (speed_lat 60 0) (speed_lon 60 0)).2
  have h2 := (C156_east 60 0 _ (speed_lon 60 0)).1 h1
  rw [show (60 : ℝ) / 180 * π = π / 3 by ring, cos_pi_div_three, zero_div, zero_mul, cos_zero] at h2
  norm_num at h2

-- the hypotheses of the theorems hold at every place, for instance at latitude 45 and longitude 10
example : ∃ vN vE, Speed (fun t => latLonAltToECEF Spec.real t 10 0) 45 vN ∧ Speed (fun t => latLonAltToECEF Spec.real 45 t 0) 10 vE := ⟨_, _, speed_lat 45 10, speed_lon 45 10⟩

end Verif.Gis
