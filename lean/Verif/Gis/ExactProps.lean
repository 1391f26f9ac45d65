import Verif.Gis.Props

/-! Property theorem for C77 (see properties.jsonl): the turns that do not change the local coordinates. -/
namespace Verif.Gis
open Verif Functions Real

/-- The scale of the longitude is an injective function of the cosine. -/
theorem lonScale_inj (a b : ℝ) : meterPerDegLon Spec.real a = meterPerDegLon Spec.real b ↔ cos (a / 180 * π) = cos (b / 180 * π) := by
  unfold meterPerDegLon Spec.real
  dsimp only
  rw [cos_three_mul, cos_five, cos_three_mul, cos_five]
  have hc : |cos (a / 180 * π)| ≤ 1 := abs_cos_le_one _
  have hd : |cos (b / 180 * π)| ≤ 1 := abs_cos_le_one _
  generalize cos (a / 180 * π) = c at *
  generalize cos (b / 180 * π) = d at *
  constructor
  · intro h
    have h1 : (c - d) * (11169938 / 100 - 3806 / 10 * (c ^ 2 + c * d + d ^ 2) + 192 / 100 * (c ^ 4 + c ^ 3 * d + c ^ 2 * d ^ 2 + c * d ^ 3 + d ^ 4)) = 0 := by
      linear_combination h
    have hc2 : c ^ 2 ≤ 1 := by rw [← sq_abs]; nlinarith [abs_nonneg c]
    have hd2 : d ^ 2 ≤ 1 := by rw [← sq_abs]; nlinarith [abs_nonneg d]
    have hcd : c * d ≤ 1 := by nlinarith [sq_nonneg (c - d)]
    have h4 : 0 ≤ c ^ 4 + c ^ 3 * d + c ^ 2 * d ^ 2 + c * d ^ 3 + d ^ 4 := by
      nlinarith [sq_nonneg (c ^ 2 + c * d / 2), sq_nonneg (d ^ 2 + c * d / 2), sq_nonneg (c * d)]
    rcases mul_eq_zero.1 h1 with h2 | h2
    · linarith
    · exfalso; linarith
  · intro h; rw [h]

/-- C77, exactly: turning the origin and the point together by δ keeps the local coordinates exactly for points on the meridian of the origin, for full turns, and for the
turn to the opposite longitude (up to full turns). -/
theorem C77_iff (latOrg lonOrg lat lon δ : ℝ) : latLonToLocalXY Spec.real latOrg (lonOrg + δ) lat (lon + δ) = latLonToLocalXY Spec.real latOrg lonOrg lat lon ↔
    lon = lonOrg ∨ (∃ k : ℤ, δ = 360 * k) ∨ ∃ k : ℤ, δ = 360 * k - 2 * lonOrg := by
  unfold latLonToLocalXY
  rw [Prod.mk.injEq, and_iff_left rfl, show lon + δ - (lonOrg + δ) = lon - lonOrg by ring, mul_eq_mul_left_iff, lonScale_inj, cos_eq_cos_iff, or_comm]
  refine or_congr (by rw [sub_eq_zero]) ?_
  constructor
  · rintro ⟨k, h | h⟩
    · left
      have h1 : (lonOrg / 180 - (2 * k + (lonOrg + δ) / 180)) * π = 0 := by linear_combination h
      have h2 := (mul_eq_zero.1 h1).resolve_right pi_ne_zero
      exact ⟨-k, by push_cast; linarith⟩
    · right
      have h1 : (lonOrg / 180 - (2 * k - (lonOrg + δ) / 180)) * π = 0 := by linear_combination h
      have h2 := (mul_eq_zero.1 h1).resolve_right pi_ne_zero
      exact ⟨k, by linarith⟩
  · rintro (⟨k, h⟩ | ⟨k, h⟩)
    · exact ⟨-k, Or.inl (by rw [h]; push_cast; ring)⟩
    · exact ⟨k, Or.inr (by rw [h]; ring)⟩

-- from the longitude 10 to the longitude -10 nothing changes; by one degree from the meridian of Greenwich it does
example : latLonToLocalXY Spec.real 45 (10 + -20) 46 (11 + -20) = latLonToLocalXY Spec.real 45 10 46 11 := by
  rw [C77_iff]; exact Or.inr (Or.inr ⟨0, by norm_num⟩)
example : latLonToLocalXY Spec.real 45 (0 + 1) 46 (2 + 1) ≠ latLonToLocalXY Spec.real 45 0 46 2 := by
  rw [ne_eq, C77_iff]
  rintro (h | ⟨k, h⟩ | ⟨k, h⟩)
  · norm_num at h
  · have : (1 : ℤ) = 360 * k := by exact_mod_cast h
    omega
  · have : (1 : ℤ) = 360 * k := by
      have h' : (1 : ℝ) = 360 * k := by linarith
      exact_mod_cast h'
    omega

/-- C58, exactly: the conversions are inverse at an origin, in both directions, if and only if its longitude is not 90 + 180 k degrees. -/
theorem C58_iff (latOrg lonOrg : ℝ) :
    ((∀ lat lon, localXYToLatLon Spec.real latOrg lonOrg (latLonToLocalXY Spec.real latOrg lonOrg lat lon).1 (latLonToLocalXY Spec.real latOrg lonOrg lat lon).2 = (some lat, some lon)) ∧
      ∀ x y, ∃ la lo, localXYToLatLon Spec.real latOrg lonOrg x y = (some la, some lo) ∧ latLonToLocalXY Spec.real latOrg lonOrg la lo = (x, y)) ↔ ∀ k : ℤ, lonOrg ≠ 90 + 180 * k := by
  constructor
  · rintro ⟨h, -⟩ k e
    have h1 := (C58_roundtrip_partial latOrg lonOrg 0 0 0 0).2 ⟨k, e⟩
    rw [h 0 0] at h1
    simp at h1
  · intro h
    have h' : ¬ ∃ k : ℤ, lonOrg = 90 + 180 * k := fun ⟨k, e⟩ => h k e
    exact ⟨fun lat lon => ((C58_roundtrip_partial latOrg lonOrg lat lon 0 0).1 h').1, fun x y => ((C58_roundtrip_partial latOrg lonOrg 0 0 x y).1 h').2⟩

end Verif.Gis
