import Mathlib.Algebra.Order.Field.Basic
import Mathlib.Algebra.BigOperators.Group.List.Basic
import Mathlib.Algebra.BigOperators.Ring.List
import Mathlib.Data.Rat.Defs
import Mathlib.Algebra.Order.Ring.Rat
import Mathlib.Algebra.Order.Ring.Unbundled.Rat
import Mathlib.Tactic.FieldSimp
import Mathlib.Tactic.Ring
import Mathlib.Tactic.Linarith
import Mathlib.Data.List.Induction
import Mathlib.Order.Bounds.Basic
import Verif.Profiler.Model

/-! Property theorems C48 and C49 (see properties.jsonl). -/
namespace Verif.Profiler

variable {L K : Type} [DecidableEq L]

/-- Measurements of a label in a history. -/
def samples (h : List (L × K)) (l : L) : List K := (h.filter fun p => p.1 = l).map Prod.snd

section
variable [Zero K] [Add K] [Sub K] [Mul K] [Div K] [NatCast K]

/-- Statistics of a sequence of measurements of one label. -/
def ofSamples [LT K] [DecidableLT K] : List K → Option (Stat K)
  | [] => none
  | x :: xs => some (xs.foldl Stat.update (.new x))

theorem ofSamples_append [LT K] [DecidableLT K] (xs : List K) (y : K) : ofSamples (xs ++ [y]) =
    match ofSamples xs with
    | none => some (.new y)
    | some s => some (s.update y) := by
  cases xs with
  | nil => rfl
  | cons x xs => simp [ofSamples, List.foldl_append]

/-- The statistics of each label depend only on its own measurements. -/
theorem run_eq [LT K] [DecidableLT K] (h : List (L × K)) (l : L) : run h l = ofSamples (samples h l) := by
  unfold run
  have gen : ∀ (h : List (L × K)) (st : Stats L K) (pre : List K), st l = ofSamples pre →
      (h.foldl (fun st p => updateStat st p.1 p.2) st) l = ofSamples (pre ++ samples h l) := by
    intro h
    induction h with
    | nil => intro st pre hs; simpa [samples] using hs
    | cons p h ih =>
      intro st pre hs
      rw [List.foldl_cons]
      by_cases hp : p.1 = l
      · rw [ih _ (pre ++ [p.2])]
        · simp [samples, hp]
        · rw [ofSamples_append, ← hs]
          simp only [updateStat, hp, if_true]
          cases st l <;> rfl
      · rw [ih _ pre]
        · simp [samples, hp]
        · simp only [updateStat]
          rw [if_neg (fun e => hp e.symm)]
          exact hs
  simpa using gen h (fun _ => none) [] rfl

/-- C48: for every history over any labels, each label without measurements has no statistics; any other has their number,
minimum and maximum. Only a linear order is used (`double` without NaN), no law of the arithmetic. -/
theorem C48_count_extremes [LinearOrder K] (h : List (L × K)) (l : L) :
    (samples h l = [] → run h l = none) ∧
    (samples h l ≠ [] → ∃ s, run h l = some s ∧ s.count = (samples h l).length ∧
      IsLeast {x | x ∈ samples h l} s.timeMin ∧ IsGreatest {x | x ∈ samples h l} s.timeMax) := by
  rw [run_eq]
  generalize samples h l = xs
  refine ⟨fun e => by rw [e]; rfl, fun hne => ?_⟩
  cases xs with
  | nil => exact absurd rfl hne
  | cons x xs =>
    refine ⟨_, rfl, ?_⟩
    clear hne
    induction xs using List.reverseRecOn with
    | nil => simp [Stat.new, IsLeast, IsGreatest, lowerBounds, upperBounds]
    | append_singleton xs y ih =>
      obtain ⟨h1, ⟨h2, h3⟩, h4, h5⟩ := ih
      rw [List.foldl_append, List.foldl_cons, List.foldl_nil]
      generalize xs.foldl Stat.update (Stat.new x) = s at *
      have hmem : ∀ z, z ∈ x :: (xs ++ [y]) ↔ z ∈ x :: xs ∨ z = y := by intro z; simp [or_assoc]
      refine ⟨by simp [Stat.update, h1], ⟨?_, ?_⟩, ?_, ?_⟩
      · simp only [Set.mem_setOf_eq, hmem, Stat.update]
        split
        · exact Or.inr rfl
        · exact Or.inl h2
      · intro z hz
        simp only [Set.mem_setOf_eq, hmem] at hz
        simp only [Stat.update]
        rcases hz with hz | rfl
        · have := h3 hz
          split
          · rename_i hlt; exact le_trans hlt.le this
          · exact this
        · split
          · exact le_refl _
          · rename_i hlt; exact not_lt.1 hlt
      · simp only [Set.mem_setOf_eq, hmem, Stat.update]
        split
        · exact Or.inr rfl
        · exact Or.inl h4
      · intro z hz
        simp only [Set.mem_setOf_eq, hmem] at hz
        simp only [Stat.update]
        rcases hz with hz | rfl
        · have := h5 hz
          split
          · rename_i hlt; exact le_trans this hlt.le
          · exact this
        · split
          · exact le_refl _
          · rename_i hlt; exact not_lt.1 hlt

end

example : (run [(0, 5), (1, 9), (0, 2), (0, (7 : ℚ))] 0).map (fun s => (s.count, s.timeMin, s.timeMax)) = some (3, 2, 7) := by
  decide +kernel

/-- Conversion of `size_t` to `double`. -/
instance : NatCast Float := ⟨Float.ofNat⟩

/-- With a NaN the statistics are wrong: the minimum of NaN, 1 stays NaN (on IEEE doubles). -/
theorem C48_nan (h : List (Unit × Float)) (hh : h = [((), 0.0 / 0.0), ((), 1.0)]) :
    (run h ()).map (fun s => (s.timeMin == s.timeMin, s.timeMax == s.timeMax)) = some (false, false) := by
  subst hh; decide +kernel

/-! ### C49 -/

section
variable [Field K] [LinearOrder K] [IsStrictOrderedRing K]

/-- Arithmetic mean. -/
def mean (xs : List K) : K := xs.sum / (xs.length : K)

/-- Sum of the squared differences from the mean. -/
def sqDev (xs : List K) : K := (xs.map fun x => (x - mean xs) ^ 2).sum

/-- C49, full statement (in exact arithmetic). -/
def C49_statement : Prop := ∀ (h : List (ℕ × ℚ)) (l : ℕ), samples h l ≠ [] → ∃ s, run h l = some s ∧
  s.timeAvg = mean (samples h l) ∧ (1 < (samples h l).length → s.getVariance = sqDev (samples h l) / ((samples h l).length - 1))

omit [IsStrictOrderedRing K] [LinearOrder K] in
theorem sqDev_eq (xs : List K) (h : (xs.length : K) ≠ 0) : sqDev xs = (xs.map fun x => x ^ 2).sum - xs.length * mean xs ^ 2 := by
  have e : ∀ (m : K) (ys : List K), (ys.map fun x => (x - m) ^ 2).sum = (ys.map fun x => x ^ 2).sum - 2 * m * ys.sum + ys.length * m ^ 2 := by
    intro m ys
    induction ys with
    | nil => simp
    | cons y ys ih =>
      simp only [List.map_cons, List.sum_cons, ih, List.length_cons, Nat.cast_add, Nat.cast_one]
      ring
  unfold sqDev
  rw [e]
  have : xs.sum = xs.length * mean xs := by unfold mean; field_simp
  rw [this]
  ring

/-- What the code computes instead, for every history: with one measurement the average is the measurement; with more, the
average and `timeVar` are those of all the measurements but the first, and `getVariance` is the average divided by `n - 1`. -/
theorem C49_actual (h : List (L × K)) (l : L) :
    (∀ x, samples h l = [x] → ∃ s, run h l = some s ∧ s.timeAvg = x ∧ s.timeVar = 0 ∧ s.getVariance = 0) ∧
    (∀ x xs, samples h l = x :: xs → xs ≠ [] → ∃ s, run h l = some s ∧ s.timeAvg = mean xs ∧ s.timeVar = sqDev xs ∧
      s.getVariance = mean xs / (xs.length : K)) := by
  rw [run_eq]
  constructor
  · intro x hx
    rw [hx]
    exact ⟨_, rfl, rfl, rfl, rfl⟩
  · intro x xs hx hne
    rw [hx]
    refine ⟨_, rfl, ?_⟩
    clear hx
    have hcount : ∀ ys : List K, (ys.foldl Stat.update (Stat.new x)).count = ys.length + 1 := by
      intro ys
      induction ys using List.reverseRecOn with
      | nil => rfl
      | append_singleton ys y ih => rw [List.foldl_append, List.foldl_cons, List.foldl_nil]; simp [Stat.update, ih]
    have main : (xs.foldl Stat.update (Stat.new x)).timeAvg = mean xs ∧ (xs.foldl Stat.update (Stat.new x)).timeVar = sqDev xs := by
      induction xs using List.reverseRecOn with
      | nil => exact absurd rfl hne
      | append_singleton ys y ih =>
        rw [List.foldl_append, List.foldl_cons, List.foldl_nil]
        cases ys with
        | nil => constructor <;> simp [Stat.update, Stat.new, mean, sqDev]
        | cons a as =>
          obtain ⟨i1, i2⟩ := ih (by simp)
          generalize hys : a :: as = ys at *
          have hpos : 0 < ys.length := by rw [← hys]; simp
          have hc := hcount ys
          generalize ys.foldl Stat.update (Stat.new x) = s at *
          have n0 : (ys.length : K) ≠ 0 := Nat.cast_ne_zero.2 hpos.ne'
          have n1 : ((ys.length : K) + 1) ≠ 0 := Nat.cast_add_one_ne_zero _
          have hsum : ys.sum = ys.length * mean ys := by unfold mean; field_simp
          have hm : mean (ys ++ [y]) = (ys.length * mean ys + y) / (ys.length + 1) := by
            have : mean (ys ++ [y]) = (ys.sum + y) / (ys.length + 1) := by simp [mean]
            rw [this, hsum]
          have hq := sqDev_eq ys n0
          have hq' := sqDev_eq (ys ++ [y]) (by simpa using n1)
          simp only [List.map_append, List.map_cons, List.map_nil, List.sum_append, List.sum_cons, List.sum_nil, List.length_append,
            List.length_cons, List.length_nil, Nat.cast_add, Nat.cast_one, Nat.cast_zero, zero_add, add_zero] at hq'
          have hS : (ys.map fun x => x ^ 2).sum = sqDev ys + ys.length * mean ys ^ 2 := by rw [hq]; ring
          rw [hS, hm] at hq'
          constructor
          · simp only [Stat.update, i1, hc, hm, Nat.cast_add, Nat.cast_one]
            field_simp
            ring
          · simp only [Stat.update, i1, i2, hc, Nat.cast_add, Nat.cast_one, hq']
            field_simp
            ring
    refine ⟨main.1, main.2, ?_⟩
    unfold Stat.getVariance
    rw [hcount, main.1, if_pos]
    · simp
    · have := List.length_pos_iff.2 hne
      omega

/-- C49 restricted to the average when the first measurement is the mean of the others (or the only one). Missing: any other
history, and the variance. -/
theorem C49_average_partial (h : List (L × K)) (l : L) (x : K) (xs : List K) (hs : samples h l = x :: xs)
    (hx : xs = [] ∨ x = mean xs) : ∃ s, run h l = some s ∧ s.timeAvg = mean (samples h l) := by
  cases xs with
  | nil =>
    obtain ⟨s, h1, h2, -⟩ := (C49_actual h l).1 x hs
    exact ⟨s, h1, by rw [h2, hs]; simp [mean]⟩
  | cons a as =>
    obtain ⟨s, h1, h2, -⟩ := (C49_actual h l).2 x (a :: as) hs (by simp)
    refine ⟨s, h1, ?_⟩
    have hx : x = mean (a :: as) := by simpa using hx
    rw [h2, hs]
    generalize hys : a :: as = ys at *
    have hpos : 0 < ys.length := by rw [← hys]; simp
    have n0 : (ys.length : K) ≠ 0 := Nat.cast_ne_zero.2 hpos.ne'
    have n1 : ((ys.length : K) + 1) ≠ 0 := Nat.cast_add_one_ne_zero _
    have hsum : ys.sum = ys.length * mean ys := by unfold mean; field_simp
    have : mean (x :: ys) = (x + ys.sum) / (ys.length + 1) := by simp [mean]
    rw [this, hsum, hx]
    field_simp
    ring

/-- Conversely the average is wrong for every other history. -/
theorem C49_average_wrong (h : List (L × K)) (l : L) (x : K) (xs : List K) (hs : samples h l = x :: xs) (hne : xs ≠ [])
    (hx : x ≠ mean xs) : ∃ s, run h l = some s ∧ s.timeAvg ≠ mean (samples h l) := by
  obtain ⟨s, h1, h2, -⟩ := (C49_actual h l).2 x xs hs hne
  refine ⟨s, h1, fun e => hx ?_⟩
  rw [h2, hs] at e
  have hpos : 0 < xs.length := List.length_pos_iff.2 hne
  have n0 : (xs.length : K) ≠ 0 := Nat.cast_ne_zero.2 hpos.ne'
  have n1 : ((xs.length : K) + 1) ≠ 0 := Nat.cast_add_one_ne_zero _
  have hsum : xs.sum = xs.length * mean xs := by unfold mean; field_simp
  have e2 : mean (x :: xs) = (x + xs.sum) / (xs.length + 1) := by simp [mean]
  rw [e2, hsum, eq_div_iff n1] at e
  linarith

end

/-- The code violates C49: the average of 1 and 3 is 3, the variance of 0, 5 and 7 is 3. -/
theorem C49_violated : ¬ C49_statement ∧
    (run [(0, 1), (0, (3 : ℚ))] 0).map Stat.timeAvg = some 3 ∧
    (run [(0, 0), (0, 5), (0, (7 : ℚ))] 0).map Stat.getVariance = some 3 := by
  refine ⟨fun h => ?_, by decide +kernel, by decide +kernel⟩
  obtain ⟨s, h1, h2, -⟩ := h [(0, 1), (0, 3)] 0 (by decide +kernel)
  have e : (run [(0, 1), (0, (3 : ℚ))] 0).map Stat.timeAvg = some 3 := by decide +kernel
  rw [h1, Option.map_some, h2] at e
  revert e
  decide +kernel

end Verif.Profiler
