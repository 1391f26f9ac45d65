import Verif.Text.Props

/-! Property theorem C94 (see properties.jsonl): the exact intervals that can be printed. -/
namespace Verif.Text
open Verif

/-- C94: the text of an interval is defined exactly when the sums of the lower bounds and the lengths are values of `int` other than the smallest;
otherwise a signed sum overflows. -/
theorem C94_interval_iff (iv : Interval.Interval) :
    ((∃ s, intervalPrint iv = .ok s) ↔ ∀ a ∈ iv, -2 ^ 31 < a.min + a.dim ∧ a.min + a.dim < 2 ^ 31) ∧
    ((¬ ∃ s, intervalPrint iv = .ok s) ↔ intervalPrint iv = .error (.ub .overflow)) := by
  have hmax : ∀ iv : Interval.Interval, (∃ ms, Interval.max iv = .ok ms ∧ ∀ a ∈ iv, -2 ^ 31 < a.min + a.dim ∧ a.min + a.dim < 2 ^ 31) ∨
      (Interval.max iv = .error (.ub .overflow) ∧ ¬ ∀ a ∈ iv, -2 ^ 31 < a.min + a.dim ∧ a.min + a.dim < 2 ^ 31) := by
    intro iv
    induction iv with
    | nil => exact .inl ⟨[], rfl, by simp⟩
    | cons a iv ih =>
      unfold Interval.max
      by_cases h : -2 ^ 31 < a.min + a.dim ∧ a.min + a.dim < 2 ^ 31
      · have e1 : Cxx.int (a.min + a.dim) = .ok (a.min + a.dim) := by
          unfold Cxx.int; rw [if_pos (by constructor <;> omega)]
        have e2 : Cxx.int (a.min + a.dim - 1) = .ok (a.min + a.dim - 1) := by
          unfold Cxx.int; rw [if_pos (by constructor <;> omega)]
        rw [e1]
        simp only [bind, Except.bind, e2]
        rcases ih with ⟨ms, em, hm⟩ | ⟨em, hm⟩
        · rw [em]
          exact .inl ⟨_, rfl, by simpa using ⟨h, by simpa using hm⟩⟩
        · rw [em]
          exact .inr ⟨rfl, fun hall => hm fun b hb => hall b (by simp [hb])⟩
      · right
        refine ⟨?_, fun hall => h (hall a (by simp))⟩
        by_cases h' : -2 ^ 31 ≤ a.min + a.dim ∧ a.min + a.dim < 2 ^ 31
        · have e1 : Cxx.int (a.min + a.dim) = .ok (a.min + a.dim) := by
            unfold Cxx.int; rw [if_pos (by constructor <;> omega)]
          have e2 : Cxx.int (a.min + a.dim - 1) = .error (.ub .overflow) := by
            unfold Cxx.int; rw [if_neg (by omega)]
          rw [e1]
          simp only [bind, Except.bind, e2]
        · have e1 : Cxx.int (a.min + a.dim) = .error (.ub .overflow) := by
            unfold Cxx.int; rw [if_neg (by omega)]
          rw [e1]
          rfl
  unfold intervalPrint
  rcases hmax iv with ⟨ms, em, hm⟩ | ⟨em, hm⟩
  · rw [em]
    exact ⟨⟨fun _ => hm, fun _ => ⟨_, rfl⟩⟩, fun h => absurd ⟨_, rfl⟩ h, fun h => by cases h⟩
  · rw [em]
    refine ⟨⟨fun ⟨s, h⟩ => by simp [bind, Except.bind] at h, fun h => absurd h hm⟩, fun _ => rfl, ?_⟩
    rintro - ⟨s, h⟩
    simp [bind, Except.bind] at h

/-- An interval that begins at the smallest `int` cannot be printed if it is empty, but it can if it has one index. -/
example : intervalPrint [⟨-2147483648, 0⟩] = .error (.ub .overflow) ∧ (intervalPrint [⟨-2147483648, 1⟩]).toOption.isSome := by decide +kernel

end Verif.Text
