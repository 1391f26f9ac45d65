import Verif.Gis.Model
import Verif.Functions.Spec
import Mathlib.Analysis.SpecialFunctions.Trigonometric.Complex
import Mathlib.Analysis.SpecialFunctions.Sqrt
import Mathlib.Tactic.FieldSimp
import Mathlib.Tactic.NormNum
import Mathlib.Tactic.LinearCombination

/-! Property theorems C58, C77, C78 (see properties.jsonl). -/
namespace Verif.Gis
open Verif Functions Real

/-- The round trip from latitude and longitude. -/
def C58_statement : Prop := ∀ latOrg lonOrg lat lon : ℝ,
  let xy := latLonToLocalXY Spec.real latOrg lonOrg lat lon
  localXYToLatLon Spec.real latOrg lonOrg xy.1 xy.2 = (some lat, some lon)

theorem latScale_pos (lat : ℝ) : 0 < meterPerDegLat Spec.real lat := by
  unfold meterPerDegLat Spec.real
  dsimp only
  linarith [cos_le_one (2 * (lat / 180 * π)), neg_one_le_cos (4 * (lat / 180 * π)), cos_le_one (6 * (lat / 180 * π))]

theorem cos_five (x : ℝ) : cos (5 * x) = 16 * cos x ^ 5 - 20 * cos x ^ 3 + 5 * cos x := by
  rw [show 5 * x = 2 * x + 3 * x by ring, cos_add, cos_two_mul, cos_three_mul, sin_two_mul, sin_three_mul]
  have h := sin_sq_add_cos_sq x
  have h2 : sin x ^ 2 = 1 - cos x ^ 2 := by linarith
  have h4 : sin x ^ 4 = (1 - cos x ^ 2) ^ 2 := by rw [← h2]; ring
  calc _ = (2 * cos x ^ 2 - 1) * (4 * cos x ^ 3 - 3 * cos x) - 2 * cos x * (3 * sin x ^ 2 - 4 * sin x ^ 4) := by ring
    _ = _ := by rw [h2, h4]; ring

/-- The scale of the longitude vanishes exactly where the cosine does. -/
theorem lonScale_zero (lon : ℝ) : meterPerDegLon Spec.real lon = 0 ↔ cos (lon / 180 * π) = 0 := by
  unfold meterPerDegLon Spec.real
  dsimp only
  rw [cos_three_mul, cos_five]
  set c := cos (lon / 180 * π)
  have h : 11141513 / 100 * c - 9455 / 100 * (4 * c ^ 3 - 3 * c) + 12 / 100 * (16 * c ^ 5 - 20 * c ^ 3 + 5 * c) =
      c * (11169938 / 100 - 3806 / 10 * c ^ 2 + 192 / 100 * c ^ 4) := by ring
  rw [h, mul_eq_zero, or_iff_left]
  have h1 : c ^ 2 ≤ 1 := by
    have := sin_sq_add_cos_sq (lon / 180 * π)
    nlinarith [sq_nonneg (sin (lon / 180 * π))]
  have h2 : 0 ≤ c ^ 4 := by positivity
  nlinarith

/-- The origins at which the scale vanishes: the longitudes 90 + 180 k. -/
theorem lonScale_zero' (lon : ℝ) : meterPerDegLon Spec.real lon = 0 ↔ ∃ k : ℤ, lon = 90 + 180 * k := by
  rw [lonScale_zero, cos_eq_zero_iff]
  refine exists_congr fun k => ?_
  rw [show (2 * (k : ℝ) + 1) * π / 2 = (90 + 180 * k) / 180 * π by ring, mul_left_inj' pi_ne_zero, div_left_inj' (by norm_num)]

/-- C58, the part that holds: the conversions are inverse to each other unless the longitude of the origin is 90 + 180 k, and then the
longitude of no point is recovered. -/
theorem C58_roundtrip_partial (latOrg lonOrg lat lon x y : ℝ) :
    (¬ (∃ k : ℤ, lonOrg = 90 + 180 * k) →
      (localXYToLatLon Spec.real latOrg lonOrg (latLonToLocalXY Spec.real latOrg lonOrg lat lon).1
        (latLonToLocalXY Spec.real latOrg lonOrg lat lon).2 = (some lat, some lon)) ∧
      ∃ la lo, localXYToLatLon Spec.real latOrg lonOrg x y = (some la, some lo) ∧ latLonToLocalXY Spec.real latOrg lonOrg la lo = (x, y)) ∧
    ((∃ k : ℤ, lonOrg = 90 + 180 * k) →
      localXYToLatLon Spec.real latOrg lonOrg (latLonToLocalXY Spec.real latOrg lonOrg lat lon).1
        (latLonToLocalXY Spec.real latOrg lonOrg lat lon).2 = (some lat, none)) := by
  have h1 := (latScale_pos latOrg).ne'
  constructor
  · intro h
    rw [← lonScale_zero'] at h
    constructor
    · simp only [localXYToLatLon, latLonToLocalXY, fdiv, if_neg h, if_neg h1, Option.map_some, Prod.mk.injEq, Option.some.injEq]
      constructor <;> field_simp <;> ring
    · refine ⟨y / meterPerDegLat Spec.real latOrg + latOrg, x / meterPerDegLon Spec.real lonOrg + lonOrg, ?_, ?_⟩
      · simp only [localXYToLatLon, fdiv, if_neg h, if_neg h1, Option.map_some]
      · simp only [latLonToLocalXY, Prod.mk.injEq]
        constructor <;> field_simp <;> ring
  · intro h
    rw [← lonScale_zero'] at h
    simp only [localXYToLatLon, latLonToLocalXY, fdiv, if_pos h, if_neg h1, Option.map_some, Option.map_none, Prod.mk.injEq, Option.some.injEq,
      and_true]
    field_simp
    ring

/-- C58 fails at an origin of longitude 90 degrees. -/
theorem C58_violated : ¬ C58_statement := by
  intro h
  have h1 := h 45 90 46 91
  have h2 := (C58_roundtrip_partial 45 90 46 91 0 0).2 ⟨0, by norm_num⟩
  dsimp only at h1
  rw [h2] at h1
  simp at h1

/-- C77: turning the origin and the point together about the axis of the Earth does not change the local coordinates. -/
def C77_statement : Prop := ∀ latOrg lonOrg lat lon δ : ℝ,
  latLonToLocalXY Spec.real latOrg (lonOrg + δ) lat (lon + δ) = latLonToLocalXY Spec.real latOrg lonOrg lat lon

/-- C77, the part that holds: the coordinate y does not change, and the coordinate x is scaled by a factor of the longitude of the origin
alone, so that both do not change for half turns up to the sign of x and for full turns. -/
theorem C77_turn_partial (latOrg lonOrg lat lon δ : ℝ) :
    (latLonToLocalXY Spec.real latOrg (lonOrg + δ) lat (lon + δ)).2 = (latLonToLocalXY Spec.real latOrg lonOrg lat lon).2 ∧
    (latLonToLocalXY Spec.real latOrg (lonOrg + δ) lat (lon + δ)).1 * meterPerDegLon Spec.real lonOrg =
      (latLonToLocalXY Spec.real latOrg lonOrg lat lon).1 * meterPerDegLon Spec.real (lonOrg + δ) ∧
    latLonToLocalXY Spec.real latOrg (lonOrg + 360) lat (lon + 360) = latLonToLocalXY Spec.real latOrg lonOrg lat lon ∧
    (latLonToLocalXY Spec.real latOrg (lonOrg + 180) lat (lon + 180)).1 = -(latLonToLocalXY Spec.real latOrg lonOrg lat lon).1 := by
  have e1 : ∀ n : ℕ, cos (n * ((lonOrg + 360) / 180 * π)) = cos (n * (lonOrg / 180 * π)) := fun n => by
    rw [show (n : ℝ) * ((lonOrg + 360) / 180 * π) = n * (lonOrg / 180 * π) + n * (2 * π) by ring, cos_add_nat_mul_two_pi]
  have e2 : ∀ n : ℕ, cos ((2 * n + 1 : ℕ) * ((lonOrg + 180) / 180 * π)) = -cos ((2 * n + 1 : ℕ) * (lonOrg / 180 * π)) := fun n => by
    rw [show ((2 * n + 1 : ℕ) : ℝ) * ((lonOrg + 180) / 180 * π) = ((2 * n + 1 : ℕ) * (lonOrg / 180 * π) + π) + n * (2 * π) by push_cast; ring,
      cos_add_nat_mul_two_pi, cos_add_pi]
  refine ⟨rfl, ?_, ?_, ?_⟩
  · simp only [latLonToLocalXY]; ring
  · simp only [latLonToLocalXY, meterPerDegLon, Spec.real]
    have a := e1 1; have b := e1 3; have c := e1 5
    push_cast at a b c
    rw [one_mul, one_mul] at a
    rw [a, b, c, add_sub_add_right_eq_sub]
  · simp only [latLonToLocalXY, meterPerDegLon, Spec.real]
    have a := e2 0; have b := e2 1; have c := e2 2
    norm_num at a b c
    rw [a, b, c]
    ring

/-- C77 fails: a degree of longitude at an origin of longitude 90 degrees has length zero, also on the equator. -/
theorem C77_violated : ¬ C77_statement := by
  intro h
  have h1 := congrArg Prod.fst (h 0 0 0 1 90)
  have z : meterPerDegLon Spec.real (0 + 90) = 0 := (lonScale_zero' _).2 ⟨0, by norm_num⟩
  simp only [latLonToLocalXY] at h1
  rw [z] at h1
  norm_num [meterPerDegLon, Spec.real] at h1

/-- C78: a point of altitude zero satisfies the equation of the ellipsoid of semi axes A and RATIO * A up to 3e-8 (the rounding of the two
constants), the altitude is measured along the normal of the ellipsoid, and the longitude is the angle about the polar axis. -/
theorem C78_ellipsoid (lat lon alt : ℝ) :
    let p := latLonAltToECEF Spec.real lat lon 0
    let q := latLonAltToECEF Spec.real lat lon alt
    let a : ℝ := semiAxisA
    let b : ℝ := axisRatio * semiAxisA
    |p.1 ^ 2 / a ^ 2 + p.2.1 ^ 2 / a ^ 2 + p.2.2 ^ 2 / b ^ 2 - 1| ≤ 3 / 10 ^ 8 ∧
    (q.1 - p.1) ^ 2 + (q.2.1 - p.2.1) ^ 2 + (q.2.2 - p.2.2) ^ 2 = alt ^ 2 ∧
    (∃ m > 0, q.1 - p.1 = alt * m * (p.1 / a ^ 2) ∧ q.2.1 - p.2.1 = alt * m * (p.2.1 / a ^ 2) ∧ q.2.2 - p.2.2 = alt * m * (p.2.2 / b ^ 2)) ∧
    q.2.1 * cos (lon / 180 * π) = q.1 * sin (lon / 180 * π) := by
  simp only [latLonAltToECEF, Spec.real]
  set φ := lat / 180 * π
  set ρ := lon / 180 * π
  have s1 := sin_sq_add_cos_sq φ
  have s2 := sin_sq_add_cos_sq ρ
  have s3 : sin φ ^ 2 ≤ 1 := by nlinarith [sq_nonneg (cos φ)]
  have s4 : 0 ≤ sin φ ^ 2 := sq_nonneg _
  have hD : 0 < 1 - (eccentricity2 : ℝ) * sin φ * sin φ := by unfold eccentricity2; nlinarith
  set D := 1 - (eccentricity2 : ℝ) * sin φ * sin φ with hDd
  have hr : 0 < √D := sqrt_pos.2 hD
  have hA : (semiAxisA : ℝ) ≠ 0 := by norm_num [semiAxisA]
  have hR : (axisRatio : ℝ) ≠ 0 := by norm_num [axisRatio]
  have hAp : (0 : ℝ) < semiAxisA := by norm_num [semiAxisA]
  have hN2 : (semiAxisA / √D : ℝ) ^ 2 = semiAxisA ^ 2 / D := by rw [div_pow, sq_sqrt hD.le]
  refine ⟨?_, ?_, ⟨semiAxisA * √D, by positivity, ?_, ?_, ?_⟩, by ring⟩
  · have e : ((semiAxisA / √D + 0) * cos φ * cos ρ) ^ 2 / semiAxisA ^ 2 + ((semiAxisA / √D + 0) * cos φ * sin ρ) ^ 2 / semiAxisA ^ 2 +
        ((axisRatio * axisRatio * (semiAxisA / √D) + 0) * sin φ) ^ 2 / (axisRatio * semiAxisA) ^ 2 - 1 =
        ((eccentricity2 - (1 - axisRatio ^ 2)) * sin φ ^ 2) / D := by
      have : ∀ X Y : ℝ, ((semiAxisA / √D + 0) * X * Y) ^ 2 / semiAxisA ^ 2 = X ^ 2 * Y ^ 2 / D := fun X Y => by
        rw [add_zero, mul_pow, mul_pow, hN2]; field_simp
      rw [this, this, add_zero, mul_pow, mul_pow _ (semiAxisA / √D), hN2]
      field_simp
      rw [hDd]
      linear_combination (cos φ ^ 2) * s2 + s1
    rw [e, abs_div, abs_of_pos hD, div_le_iff₀ hD, abs_mul, abs_of_nonneg s4]
    have hk : |(eccentricity2 : ℝ) - (1 - axisRatio ^ 2)| ≤ 201448 / 10 ^ 13 := by
      norm_num [eccentricity2, axisRatio, abs_le]
    have hD2 : (99 / 100 : ℝ) ≤ D := by rw [hDd]; unfold eccentricity2; nlinarith
    nlinarith [abs_nonneg ((eccentricity2 : ℝ) - (1 - axisRatio ^ 2))]
  · linear_combination (alt ^ 2 * cos φ ^ 2) * s2 + alt ^ 2 * s1
  · field_simp; ring
  · field_simp; ring
  · field_simp; ring

/-- The constants agree with each other: the square of the eccentricity is one minus the square of the axis ratio, and so on, up to `ε`. -/
def C78_constants_statement (ε : ℝ) : Prop := |(eccentricity : ℝ) ^ 2 - (1 - axisRatio ^ 2)| ≤ ε ∧ |(eccentricity2 : ℝ) - (1 - axisRatio ^ 2)| ≤ ε ∧
  |(semiAxisB : ℝ) / semiAxisA - axisRatio| ≤ ε

theorem C78_constants_partial : |(eccentricity2 : ℝ) - (1 - axisRatio ^ 2)| ≤ 1 / 10 ^ 7 ∧ |(semiAxisB : ℝ) / semiAxisA - axisRatio| ≤ 1 / 10 ^ 7 ∧
    |(eccentricity : ℝ) ^ 2 - (1 / axisRatio ^ 2 - 1)| ≤ 1 / 10 ^ 7 := by
  norm_num [eccentricity, eccentricity2, axisRatio, semiAxisA, semiAxisB, abs_le]

/-- C78 fails for the eccentricity, which is off by more than rounding (it is the second eccentricity, see `C78_constants_partial`). -/
theorem C78_constants_violated : ¬ C78_constants_statement (4 / 10 ^ 5) := by
  norm_num [C78_constants_statement, eccentricity, axisRatio, abs_le]

-- on the equator a degree of longitude from the origin (0, 0) is about 111 km, a degree of latitude about 110.6 km
example : latLonToLocalXY Spec.real 0 0 1 1 = (11132070 / 100, 110567238 / 1000) := by
  norm_num [latLonToLocalXY, meterPerDegLat, meterPerDegLon, Spec.real]
example : latLonAltToECEF Spec.real 0 0 10 = (6378147, 0, 0) := by
  norm_num [latLonAltToECEF, Spec.real, semiAxisA]

end Verif.Gis
