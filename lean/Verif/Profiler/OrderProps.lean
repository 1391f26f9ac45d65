import Verif.Profiler.Props

/-! Property theorem C150 (see properties.jsonl): the order of the measurements of the profiler and their interleaving with other labels. -/
namespace Verif.Profiler

variable {L K : Type} [DecidableEq L]

/-- C150, labels: the statistics of a label do not change if measurements of other labels are added, removed or moved (floating point included). -/
theorem C150_labels [Zero K] [Add K] [Sub K] [Mul K] [Div K] [NatCast K] [LT K] [DecidableLT K] (h h' : List (L × K)) (l : L)
    (hs : h.filter (fun p => p.1 = l) = h'.filter fun p => p.1 = l) : run h l = run h' l := by
  rw [run_eq, run_eq]
  unfold samples
  rw [hs]

theorem samples_perm {h h' : List (L × K)} (p : h.Perm h') (l : L) : (samples h l).Perm (samples h' l) := (p.filter _).map _

/-- C150, count and extremes: they do not depend on the order. -/
theorem C150_extremes [Zero K] [Add K] [Sub K] [Mul K] [Div K] [NatCast K] [LinearOrder K] (h h' : List (L × K)) (p : h.Perm h') (l : L) :
    (run h l = none ↔ run h' l = none) ∧ ∀ s s', run h l = some s → run h' l = some s' → s.count = s'.count ∧ s.timeMin = s'.timeMin ∧ s.timeMax = s'.timeMax := by
  have q := samples_perm p l
  obtain ⟨a1, a2⟩ := C48_count_extremes h l
  obtain ⟨b1, b2⟩ := C48_count_extremes h' l
  by_cases e : samples h l = []
  · have e' : samples h' l = [] := by rw [e] at q; exact q.symm.eq_nil
    rw [a1 e, b1 e']
    exact ⟨Iff.rfl, fun s s' hs => by cases hs⟩
  · have e' : samples h' l ≠ [] := fun e' => e (by rw [e'] at q; exact q.eq_nil)
    obtain ⟨s, h1, h2, h3, h4⟩ := a2 e
    obtain ⟨s', g1, g2, g3, g4⟩ := b2 e'
    rw [h1, g1]
    refine ⟨by simp, fun t t' ht ht' => ?_⟩
    cases ht
    cases ht'
    have hset : {x | x ∈ samples h l} = {x | x ∈ samples h' l} := Set.ext fun x => q.mem_iff
    rw [hset] at h3 h4
    exact ⟨by rw [h2, g2, q.length_eq], h3.unique g3, h4.unique g4⟩

section
variable [Field K] [LinearOrder K] [IsStrictOrderedRing K]

/-- C150, full statement for the average: it does not depend on the order of the measurements. -/
def C150_statement (K : Type) [Field K] [LinearOrder K] : Prop := ∀ h h' : List (ℕ × K), h.Perm h' → ∀ l, (run h l).map Stat.timeAvg = (run h' l).map Stat.timeAvg

/-- C150, the exact condition: the average of at least two measurements in another order is the same if and only if the first measurement is the same; and the sums of squares and
the variances are the same then. -/
theorem C150_average_iff (h h' : List (L × K)) (p : h.Perm h') (l : L) (x x' : K) (xs xs' : List K) (hs : samples h l = x :: xs) (hs' : samples h' l = x' :: xs') (hne : xs ≠ []) :
    ∃ s s', run h l = some s ∧ run h' l = some s' ∧ (s.timeAvg = s'.timeAvg ↔ x = x') ∧ (x = x' → s.timeVar = s'.timeVar ∧ s.getVariance = s'.getVariance) := by
  have q := samples_perm p l
  rw [hs, hs'] at q
  have hlen : xs.length = xs'.length := by have := q.length_eq; simpa using this
  have hne' : xs' ≠ [] := fun e => hne (List.eq_nil_of_length_eq_zero (by rw [hlen, e]; rfl))
  obtain ⟨s, h1, h2, h3, h4⟩ := (C49_actual h l).2 x xs hs hne
  obtain ⟨s', g1, g2, g3, g4⟩ := (C49_actual h' l).2 x' xs' hs' hne'
  have hsum : x + xs.sum = x' + xs'.sum := by have := q.sum_eq; simpa using this
  have n0 : (xs.length : K) ≠ 0 := Nat.cast_ne_zero.2 (List.length_pos_iff.2 hne).ne'
  refine ⟨s, s', h1, g1, ?_, fun e => ?_⟩
  · rw [h2, g2]
    unfold mean
    rw [← hlen, div_left_inj' n0]
    constructor
    · intro e; rw [e] at hsum; exact add_right_cancel hsum
    · intro e; rw [e] at hsum; exact add_left_cancel hsum
  · subst e
    have r : xs.Perm xs' := (List.perm_cons x).1 q
    have hm : mean xs = mean xs' := by unfold mean; rw [r.sum_eq, hlen]
    rw [h3, g3, h4, g4, hm, hlen]
    refine ⟨?_, rfl⟩
    unfold sqDev
    rw [hm]
    exact (r.map _).sum_eq

/-- The measurements 1 and 3 in the two orders: the averages are 3 and 1. -/
theorem C150_violated : ¬ C150_statement ℚ := fun h => by
  have := h [(0, 1), (0, 3)] [(0, 3), (0, 1)] (List.Perm.swap _ _ _) 0
  revert this
  decide +kernel

end

-- another order with the same first measurement of each label
example : (run [(0, (5 : ℚ)), (1, 9), (0, 1), (0, 3)] 0).map (fun s => (s.timeAvg, s.timeVar, s.timeMin, s.timeMax, s.count)) = some (2, 2, 1, 5, 3) ∧
    (run [(0, (5 : ℚ)), (0, 3), (1, 9), (0, 1)] 0).map (fun s => (s.timeAvg, s.timeVar, s.timeMin, s.timeMax, s.count)) = some (2, 2, 1, 5, 3) := by
  constructor <;> decide +kernel

end Verif.Profiler
