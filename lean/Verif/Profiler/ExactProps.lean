import Verif.Profiler.Props

/-! Property theorem C49 (see properties.jsonl), exact condition. -/
namespace Verif.Profiler
variable {L K : Type} [DecidableEq L] [Field K] [LinearOrder K] [IsStrictOrderedRing K]

/-- C49, exact condition: the average is right exactly for one measurement and when the first measurement is the mean of the others; the average and the variance are
right exactly for one measurement and when moreover the mean is the sum of the squared differences from it. -/
theorem C49_iff (h : List (L × K)) (l : L) (x : K) (xs : List K) (hs : samples h l = x :: xs) : ∃ s, run h l = some s ∧
    (s.timeAvg = mean (samples h l) ↔ xs = [] ∨ x = mean xs) ∧
    (s.timeAvg = mean (samples h l) ∧ (1 < (samples h l).length → s.getVariance = sqDev (samples h l) / ((samples h l).length - 1)) ↔
      xs = [] ∨ x = mean xs ∧ sqDev xs = x) := by
  rcases eq_or_ne xs [] with rfl | hne
  · obtain ⟨s, h1, h2⟩ := C49_average_partial h l x [] hs (Or.inl rfl)
    exact ⟨s, h1, by simp [h2], by rw [hs] at h2; simp [hs, h2]⟩
  obtain ⟨s, h1, h2, h3, h4⟩ := (C49_actual h l).2 x xs hs hne
  refine ⟨s, h1, ?_⟩
  have hpos : 0 < xs.length := List.length_pos_iff.2 hne
  have n0 : (xs.length : K) ≠ 0 := Nat.cast_ne_zero.2 hpos.ne'
  have havg : s.timeAvg = mean (samples h l) ↔ x = mean xs := by
    constructor
    · intro e
      by_contra hx
      obtain ⟨s', e1, e2⟩ := C49_average_wrong h l x xs hs hne hx
      obtain rfl := Option.some.inj (h1.symm.trans e1)
      exact e2 e
    · intro hx
      obtain ⟨s', e1, e2⟩ := C49_average_partial h l x xs hs (Or.inr hx)
      obtain rfl := Option.some.inj (h1.symm.trans e1)
      exact e2
  refine ⟨by rw [havg]; simp [hne], ?_⟩
  rw [havg]
  simp only [hne, false_or]
  refine and_congr_right fun hx => ?_
  have hm : mean (x :: xs) = mean xs := by rw [← hs, ← h2]; exact (havg.2 hx).symm
  have hsq : sqDev (x :: xs) = sqDev xs := by
    unfold sqDev
    rw [hm, List.map_cons, List.sum_cons, ← hx]
    ring
  rw [hs, hsq, h4]
  have hl : ((x :: xs).length : K) - 1 = xs.length := by simp
  rw [hl, div_left_inj' n0, ← hx]
  constructor
  · intro e; exact (e (by simpa using hpos)).symm
  · intro e _; exact e.symm

/-- The only right variance of three measurements, up to their order: 2, 3 and 1 have the mean 2 and the sum of squares 2. -/
example : (run [(0, 2), (0, 3), (0, (1 : ℚ))] 0).map (fun s => (s.timeAvg, s.getVariance)) = some (2, 1) := by decide +kernel

end Verif.Profiler
