import Verif.PlaneAligner.Props

/-! Property theorem for C65 (see properties.jsonl): the planes that go to height zero. -/
namespace Verif.PlaneAligner
open Verif V3

/-- C65, exactly: the points of the plane go to height zero exactly if the plane contains the origin. The heights of the inliers are then within the tolerance divided by
the length of the normal; in general they are so around `- d / |n|`. -/
theorem C65_iff (s : Aligner ℝ) (points : List (V3 ℝ)) (hc : s.cloud = some points) (hn : s.normal ≠ ⟨0, 0, 0⟩) :
    ∃ s' T, s.compute Real.sqrt = .ok s' ∧ s'.transform = some T ∧
      ((∀ p : V3 ℝ, s.normal.x * p.x + s.normal.y * p.y + s.normal.z * p.z + s.const = 0 → (T.apply p).z = 0) ↔ s.const = 0) ∧
      ((∃ p : V3 ℝ, s.normal.x * p.x + s.normal.y * p.y + s.normal.z * p.z + s.const = 0 ∧ (T.apply p).z = 0) ↔ s.const = 0) ∧
      ∀ p : V3 ℝ, |(T.apply p).z + s.const / len s.normal| = |s.normal.x * p.x + s.normal.y * p.y + s.normal.z * p.z + s.const| / len s.normal := by
  obtain ⟨s', T, h1, h2, -, -, -, h6, h7, -⟩ := C65_frame_partial s points hc hn
  have hpos : 0 < dot s.normal s.normal := by
    by_contra h
    apply hn
    generalize s.normal = n at h
    obtain ⟨x, y, z⟩ := n
    simp only [dot] at h
    have hx := mul_self_nonneg x
    have hy := mul_self_nonneg y
    have hz := mul_self_nonneg z
    have ex : x = 0 := mul_self_eq_zero.1 (by linarith)
    have ey : y = 0 := mul_self_eq_zero.1 (by linarith)
    have ez : z = 0 := mul_self_eq_zero.1 (by linarith)
    rw [ex, ey, ez]
  have hlen : 0 < len s.normal := by
    unfold len
    exact Real.sqrt_pos.2 (by simpa [dot, sq] using hpos)
  -- a point of the plane
  have hq : ∃ q : V3 ℝ, s.normal.x * q.x + s.normal.y * q.y + s.normal.z * q.z + s.const = 0 := by
    refine ⟨⟨-s.const / dot s.normal s.normal * s.normal.x, -s.const / dot s.normal s.normal * s.normal.y, -s.const / dot s.normal s.normal * s.normal.z⟩, ?_⟩
    have : -s.const / dot s.normal s.normal * dot s.normal s.normal = -s.const := div_mul_cancel₀ _ hpos.ne'
    simp only [dot] at this ⊢
    linear_combination this
  obtain ⟨q, hq⟩ := hq
  refine ⟨s', T, h1, h2, ⟨fun h => ?_, fun h p hp => ?_⟩, ⟨?_, fun h => ⟨q, hq, ?_⟩⟩, fun p => ?_⟩
  · have e := h7 q hq
    rw [h q hq, eq_comm, div_eq_zero_iff] at e
    rcases e with e | e
    · linarith
    · exact absurd e hlen.ne'
  · rw [h7 p hp, h]; simp
  · rintro ⟨p, hp, hz⟩
    have e := h7 p hp
    rw [hz, eq_comm, div_eq_zero_iff] at e
    rcases e with e | e
    · linarith
    · exact absurd e hlen.ne'
  · rw [h7 q hq, h]; simp
  · rw [h6 p, ← add_div, abs_div, abs_of_pos hlen]

-- the plane z = 2 (normal (0, 0, 1), constant -2, stored as (0, 0, -1) and 2) does not go to height zero, the plane z = 0 does
example : (1 : ℝ) * 2 + -2 = 0 ∧ ((⟨some [], ⟨0, 0, 0⟩, 0, none, 1⟩ : Aligner ℝ).setPlaneCoeffs ⟨0, 0, 1⟩ (-2)).const = 2 ∧
    ((⟨some [], ⟨0, 0, 0⟩, 0, none, 1⟩ : Aligner ℝ).setPlaneCoeffs ⟨0, 0, 1⟩ (-2)).const ≠ 0 := by
  unfold Aligner.setPlaneCoeffs
  norm_num

end Verif.PlaneAligner
