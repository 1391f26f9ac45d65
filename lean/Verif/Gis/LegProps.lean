import Verif.Gis.Props
import Verif.Functions.Spec
import Mathlib.Analysis.SpecialFunctions.Trigonometric.Bounds
import Mathlib.Analysis.Real.Pi.Bounds

/-! Property theorems C174 (see properties.jsonl): change of the origin of the local coordinates, geometry/src/gis.cpp:32-49, in exact arithmetic. -/
namespace Verif.Gis
open Real Functions Functions.Spec

/-- C174, full statement: the local coordinates of `p` from `q` are those from `o` minus those of `q` from `o` (positions are latitude and longitude). -/
def C174_statement : Prop :=
  ∀ o q p : ℝ × ℝ, latLonToLocalXY real q.1 q.2 p.1 p.2 = latLonToLocalXY real o.1 o.2 p.1 p.2 - latLonToLocalXY real o.1 o.2 q.1 q.2

/-- C174, exact condition: the scales of both origins agree, or nothing is to be scaled. -/
theorem C174_iff (o q p : ℝ × ℝ) :
    latLonToLocalXY real q.1 q.2 p.1 p.2 = latLonToLocalXY real o.1 o.2 p.1 p.2 - latLonToLocalXY real o.1 o.2 q.1 q.2 ↔
      (p.2 = q.2 ∨ meterPerDegLon real q.2 = meterPerDegLon real o.2) ∧ (p.1 = q.1 ∨ meterPerDegLat real q.1 = meterPerDegLat real o.1) := by
  unfold latLonToLocalXY
  rw [Prod.mk_sub_mk, Prod.mk.injEq]
  refine and_congr ?_ ?_
  · rw [← sub_eq_zero, ← sub_eq_zero (a := p.2), ← sub_eq_zero (a := meterPerDegLon real q.2), ← mul_eq_zero]
    ring_nf
  · rw [← sub_eq_zero, ← sub_eq_zero (a := p.1), ← sub_eq_zero (a := meterPerDegLat real q.1), ← mul_eq_zero]
    ring_nf

/-- The change of a cosine with the angle in degrees. -/
theorem cos_deg (k : ℝ) (hk : 0 ≤ k) (a b : ℝ) : |cos (k * (a / 180 * π)) - cos (k * (b / 180 * π))| ≤ k * (π / 180) * |a - b| := by
  refine (abs_cos_sub_cos_le _ _).trans (le_of_eq ?_)
  have e : k * (a / 180 * π) - k * (b / 180 * π) = k * (π / 180) * (a - b) := by ring
  rw [e, abs_mul, abs_of_nonneg (by positivity)]

/-- The scales change slowly with the position of the origin. -/
theorem scale_lat (a b : ℝ) : |meterPerDegLat real a - meterPerDegLat real b| ≤ 199 / 10 * |a - b| := by
  have h2 := cos_deg 2 (by norm_num) a b
  have h4 := cos_deg 4 (by norm_num) a b
  have h6 := cos_deg 6 (by norm_num) a b
  have hp := pi_lt_d2
  have h0 := abs_nonneg (a - b)
  have hpp : π * |a - b| ≤ 315 / 100 * |a - b| := mul_le_mul_of_nonneg_right (by norm_num at hp ⊢; linarith) h0
  unfold meterPerDegLat
  simp only [real]
  rw [abs_le] at *
  obtain ⟨a1, a2⟩ := h2
  obtain ⟨b1, b2⟩ := h4
  obtain ⟨c1, c2⟩ := h6
  constructor <;> nlinarith

/-- The east scale. -/
theorem scale_lon (a b : ℝ) : |meterPerDegLon real a - meterPerDegLon real b| ≤ 1955 * |a - b| := by
  have h1 := cos_deg 1 (by norm_num) a b
  have h3 := cos_deg 3 (by norm_num) a b
  have h5 := cos_deg 5 (by norm_num) a b
  have hp := pi_lt_d2
  have h0 := abs_nonneg (a - b)
  have hpp : π * |a - b| ≤ 315 / 100 * |a - b| := mul_le_mul_of_nonneg_right (by norm_num at hp ⊢; linarith) h0
  unfold meterPerDegLon
  simp only [real]
  rw [one_mul, one_mul, one_mul] at h1
  rw [abs_le] at *
  obtain ⟨a1, a2⟩ := h1
  obtain ⟨b1, b2⟩ := h3
  obtain ⟨c1, c2⟩ := h5
  constructor <;> nlinarith

/-- **C174** up to the product of the two distances in degrees: the north coordinates agree up to 20 m, the east ones up to 1955 m, per degree of each. Missing: the exact equality. -/
theorem C174_leg_partial (o q p : ℝ × ℝ) :
    |(latLonToLocalXY real q.1 q.2 p.1 p.2).2 - ((latLonToLocalXY real o.1 o.2 p.1 p.2).2 - (latLonToLocalXY real o.1 o.2 q.1 q.2).2)| ≤ 199 / 10 * (|p.1 - q.1| * |q.1 - o.1|) ∧
    |(latLonToLocalXY real q.1 q.2 p.1 p.2).1 - ((latLonToLocalXY real o.1 o.2 p.1 p.2).1 - (latLonToLocalXY real o.1 o.2 q.1 q.2).1)| ≤ 1955 * (|p.2 - q.2| * |q.2 - o.2|) := by
  constructor
  · have e : (latLonToLocalXY real q.1 q.2 p.1 p.2).2 - ((latLonToLocalXY real o.1 o.2 p.1 p.2).2 - (latLonToLocalXY real o.1 o.2 q.1 q.2).2) =
        (p.1 - q.1) * (meterPerDegLat real q.1 - meterPerDegLat real o.1) := by
      unfold latLonToLocalXY
      ring
    rw [e, abs_mul]
    have := mul_le_mul_of_nonneg_left (scale_lat q.1 o.1) (abs_nonneg (p.1 - q.1))
    linarith
  · have e : (latLonToLocalXY real q.1 q.2 p.1 p.2).1 - ((latLonToLocalXY real o.1 o.2 p.1 p.2).1 - (latLonToLocalXY real o.1 o.2 q.1 q.2).1) =
        (p.2 - q.2) * (meterPerDegLon real q.2 - meterPerDegLon real o.2) := by
      unfold latLonToLocalXY
      ring
    rw [e, abs_mul]
    have := mul_le_mul_of_nonneg_left (scale_lon q.2 o.2) (abs_nonneg (p.2 - q.2))
    linarith

theorem lat_zero : meterPerDegLat real (0 : ℝ) = 11113209 / 100 - 56605 / 100 + 120 / 100 - 2 / 1000 := by
  unfold meterPerDegLat
  simp only [real]
  norm_num

theorem lat_pole : meterPerDegLat real (90 : ℝ) = 11113209 / 100 + 56605 / 100 + 120 / 100 + 2 / 1000 := by
  unfold meterPerDegLat
  simp only [real]
  rw [show (2 : ℝ) * (90 / 180 * π) = π by ring, show (4 : ℝ) * (90 / 180 * π) = 2 * π by ring, show (6 : ℝ) * (90 / 180 * π) = π + 2 * π by ring, cos_pi, cos_two_pi,
    cos_add_two_pi, cos_pi]
  norm_num

/-- The statement of C174 is false: from the equator and from the pole; nor is the way back the opposite of the way there. -/
theorem C174_violated : ¬ C174_statement ∧ latLonToLocalXY real 90 0 0 0 ≠ -latLonToLocalXY real 0 0 90 0 := by
  have key : latLonToLocalXY real 90 0 0 0 ≠ -latLonToLocalXY real 0 0 90 0 := fun h => by
    have := congrArg Prod.snd h
    simp only [latLonToLocalXY, Prod.snd_neg] at this
    rw [lat_zero, lat_pole] at this
    norm_num at this
  refine ⟨fun h => key ?_, key⟩
  have := h (0, 0) (90, 0) (0, 0)
  rw [this]
  have e : latLonToLocalXY real 0 0 0 0 = 0 := by simp [latLonToLocalXY]
  rw [e, zero_sub]

-- with "cosine 1" and "pi 3" both scales are constant and the legs add up
example : latLonToLocalXY (⟨3, fun _ => 1, id, id, id, fun _ _ => 0⟩ : Libm ℚ) 10 20 11 22 = latLonToLocalXY (⟨3, fun _ => 1, id, id, id, fun _ _ => 0⟩ : Libm ℚ) 5 5 11 22 -
    latLonToLocalXY (⟨3, fun _ => 1, id, id, id, fun _ _ => 0⟩ : Libm ℚ) 5 5 10 20 := by decide +kernel

end Verif.Gis
