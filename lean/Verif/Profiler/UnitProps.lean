import Verif.Profiler.Props

/-! Property theorems C173 (see properties.jsonl): the unit and the origin of the measurements of the profiler. -/
namespace Verif.Profiler

variable {L K : Type} [DecidableEq L] [Field K] [LinearOrder K] [IsStrictOrderedRing K]

/-- The same measurements in another unit and from another origin. -/
def rescaled (a b : K) (h : List (L × K)) : List (L × K) := h.map fun p => (p.1, a * p.2 + b)

/-- C173, full statement: the average and the extremes are converted as the measurements, the variance with the square of the factor. -/
def C173_statement (K : Type) [Field K] [LinearOrder K] : Prop :=
  ∀ (h : List (ℕ × K)) (l : ℕ) (a b : K) (s : Stat K), 0 < a → run h l = some s → ∃ s', run (rescaled a b h) l = some s' ∧
    s'.count = s.count ∧ s'.timeAvg = a * s.timeAvg + b ∧ s'.timeMin = a * s.timeMin + b ∧ s'.timeMax = a * s.timeMax + b ∧ s'.getVariance = a ^ 2 * s.getVariance

/-- The converted members. -/
def Stat.rescaled (a b : K) (s : Stat K) : Stat K := ⟨a * s.timeAvg + b, a ^ 2 * s.timeVar, a * s.timeMin + b, a * s.timeMax + b, s.count⟩

theorem update_rescaled {a : K} (ha : 0 < a) (b : K) (s : Stat K) (t : K) : (s.rescaled a b).update (a * t + b) = (s.update t).rescaled a b := by
  have hlt : ∀ x y : K, a * x + b < a * y + b ↔ x < y := fun x y => by rw [add_lt_add_iff_right, mul_lt_mul_iff_right₀ ha]
  unfold Stat.update Stat.rescaled
  simp only [hlt, Stat.mk.injEq]
  refine ⟨by ring, by ring, ?_, ?_, trivial⟩ <;> split <;> rfl

/-- **C173**, all but the variance: the members are converted, whatever the number of measurements. -/
theorem C173_members_partial (h : List (L × K)) (l : L) {a : K} (ha : 0 < a) (b : K) : run (rescaled a b h) l = (run h l).map (Stat.rescaled a b) := by
  have main : ∀ (h : List (L × K)) (st st' : Stats L K), (∀ l, st' l = (st l).map (Stat.rescaled a b)) →
      ∀ l, (rescaled a b h).foldl (fun st p => updateStat st p.1 p.2) st' l = (h.foldl (fun st p => updateStat st p.1 p.2) st l).map (Stat.rescaled a b) := by
    intro h
    induction h with
    | nil => intro st st' hst l; exact hst l
    | cons p h ih =>
      intro st st' hst l
      refine ih (updateStat st p.1 p.2) (updateStat st' p.1 (a * p.2 + b)) (fun l => ?_) l
      unfold updateStat
      by_cases hl : l = p.1
      · rw [if_pos hl, if_pos hl, hst]
        cases hp : st p.1 with
        | none => simp [Stat.rescaled, Stat.new]
        | some s => simp [update_rescaled ha b s p.2]
      · rw [if_neg hl, if_neg hl, hst]
  exact main h (fun _ => none) (fun _ => none) (fun _ => rfl) l

/-- C173, exact condition for the variance, which the code computes from the average. -/
theorem C173_variance_iff (h : List (L × K)) (l : L) {a : K} (ha : 0 < a) (b : K) {s : Stat K} (hs : run h l = some s) :
    ∃ s', run (rescaled a b h) l = some s' ∧ (s'.getVariance = a ^ 2 * s.getVariance ↔ s.count ≤ 1 ∨ a * s.timeAvg + b = a ^ 2 * s.timeAvg) := by
  refine ⟨s.rescaled a b, by rw [C173_members_partial h l ha b, hs]; rfl, ?_⟩
  unfold Stat.getVariance
  by_cases hc : s.count > 1
  · have hc' : (s.rescaled a b).count > 1 := hc
    have hn : ((s.count - 1 : ℕ) : K) ≠ 0 := by
      rw [Ne, Nat.cast_eq_zero]
      omega
    have hm : ¬ s.count ≤ 1 := by omega
    rw [if_pos hc, if_pos hc', or_iff_right hm]
    show (a * s.timeAvg + b) / ((s.count - 1 : ℕ) : K) = _ ↔ _
    rw [← mul_div_assoc, div_left_inj' hn]
  · have hc' : ¬ (s.rescaled a b).count > 1 := hc
    rw [if_neg hc, if_neg hc', mul_zero]
    exact ⟨fun _ => Or.inl (by omega), fun _ => rfl⟩

/-- C173: a change of the origin never leaves the variance of two or more measurements unchanged. -/
theorem C173_origin (h : List (L × K)) (l : L) {b : K} (hb : b ≠ 0) {s : Stat K} (hs : run h l = some s) (hc : 1 < s.count) :
    ∃ s', run (rescaled 1 b h) l = some s' ∧ s'.getVariance ≠ s.getVariance := by
  obtain ⟨s', h1, h2⟩ := C173_variance_iff h l one_pos b hs
  refine ⟨s', h1, fun e => ?_⟩
  rw [one_pow, one_mul, one_mul] at h2
  rcases h2.1 e with h3 | h3
  · omega
  · exact hb (by linarith)

/-- The statement of C173 is false: 1 and 3 seconds have the "variance" 3, as milliseconds 3000. -/
theorem C173_violated : ¬ C173_statement ℚ := fun h => by
  obtain ⟨s', h1, -, -, -, -, h2⟩ := h [(0, 1), (0, 3)] 0 1000 0 ⟨3, 0, 1, 3, 2⟩ (by norm_num) (by
    rw [run, List.foldl, List.foldl, List.foldl]
    simp [updateStat, Stat.new, Stat.update])
  have e : (run (rescaled 1000 0 [(0, 1), (0, 3)]) 0).map Stat.getVariance = some (3000 : ℚ) := by decide +kernel
  rw [h1, Option.map_some, h2] at e
  revert e
  decide +kernel

-- three measurements in seconds and in milliseconds with an offset
example : ((run [(0, 1), (0, 3), (0, (7 : ℚ))] 0).map fun s => (s.timeAvg, s.timeVar, s.timeMin, s.timeMax)) = some (5, 8, 1, 7) ∧
    ((run (rescaled 1000 5 [(0, 1), (0, 3), (0, (7 : ℚ))]) 0).map fun s => (s.timeAvg, s.timeVar, s.timeMin, s.timeMax)) = some (5005, 8000000, 1005, 7005) := by
  decide +kernel

end Verif.Profiler
