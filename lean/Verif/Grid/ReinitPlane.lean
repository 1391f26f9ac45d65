import Verif.Grid.ReinitExact

/-! Property theorem C67, exact form for images (see properties.jsonl): which changes of size keep the values. -/
namespace Verif.Grid
open Verif Verif.Interval Verif.Interval.Spec

theorem rank_two (m1 m2 d1 d2 i j : ℤ) : rank [⟨m1, d1⟩, ⟨m2, d2⟩] [i, j] = (i - m1) + d1 * (j - m2) := by
  rw [rank_cons, rank_cons, rank_nil]
  ring

theorem mem_two (m1 m2 d1 d2 : ℤ) (is : List ℤ) : Mem [⟨m1, d1⟩, ⟨m2, d2⟩] is ↔ ∃ i j, is = [i, j] ∧ (m1 ≤ i ∧ i < m1 + d1) ∧ m2 ≤ j ∧ j < m2 + d2 := by
  unfold Mem
  constructor
  · intro h
    cases h with
    | cons h1 h =>
      cases h with
      | cons h2 h =>
        cases h
        exact ⟨_, _, rfl, h1, h2⟩
  · rintro ⟨i, j, rfl, h1, h2⟩
    exact .cons h1 (.cons h2 .nil)

/-- C67 in two dimensions, with the same lower corner: a change of the size from d1 × d2 to e1 × e2 keeps the values of the common cells, or clears all, exactly when the first dimension is the same
or one of the sizes has a single row. -/
theorem C67_plane_iff (maxSize : ℕ) (m1 m2 d1 d2 e1 e2 : ℤ) (hD : Proper [⟨m1, d1⟩, ⟨m2, d2⟩]) (hDc : card [⟨m1, d1⟩, ⟨m2, d2⟩] ≤ 2147483647)
    (hp : Proper [⟨m1, e1⟩, ⟨m2, e2⟩]) (hc : card [⟨m1, e1⟩, ⟨m2, e2⟩] ≤ 2147483647) (hm : card [⟨m1, e1⟩, ⟨m2, e2⟩] ≤ maxSize) :
    (∀ g g' : Grid ℕ, Valid g → g.domain = [⟨m1, d1⟩, ⟨m2, d2⟩] → initBounds maxSize 0 g [m1, m2] [e1, e2] = .ok g' →
      (∀ is, Mem g'.domain is → read g' is = .ok 0) ∨ (∀ is, Mem g.domain is → Mem g'.domain is → read g' is = read g is)) ↔ d1 = e1 ∨ d2 = 1 ∨ e2 = 1 := by
  rw [C67_iff maxSize _ hD hDc [m1, m2] [e1, e2] hp hc hm]
  show (∀ is, Mem _ is → Mem [⟨m1, e1⟩, ⟨m2, e2⟩] is → _ = rank [⟨m1, e1⟩, ⟨m2, e2⟩] is) ↔ _
  have p1 := (hD ⟨m1, d1⟩ (by simp)).1
  have p2 := (hD ⟨m2, d2⟩ (by simp)).1
  have q1 := (hp ⟨m1, e1⟩ (by simp)).1
  have q2 := (hp ⟨m2, e2⟩ (by simp)).1
  simp only at p1 p2 q1 q2
  constructor
  · intro h
    by_contra hne
    have := h [m1, m2 + 1] ((mem_two _ _ _ _ _).2 ⟨m1, m2 + 1, rfl, by omega, by omega⟩) ((mem_two _ _ _ _ _).2 ⟨m1, m2 + 1, rfl, by omega, by omega⟩)
    rw [rank_two, rank_two, show m2 + 1 - m2 = 1 by ring] at this
    omega
  · intro h is h1 h2
    obtain ⟨i, j, rfl, -, hj⟩ := (mem_two _ _ _ _ _).1 h1
    obtain ⟨i', j', e, -, hj'⟩ := (mem_two _ _ _ _ _).1 h2
    rw [List.cons.injEq, List.cons.injEq] at e
    obtain ⟨rfl, rfl, -⟩ := e
    rw [rank_two, rank_two]
    rcases h with h | h | h
    · rw [h]
    · rw [show j - m2 = 0 by omega, mul_zero, mul_zero]
    · rw [show j - m2 = 0 by omega, mul_zero, mul_zero]

/-- Example: from 2 × 2 to 3 × 2 the value of the cell (0, 1) moves to (2, 0), from 2 × 2 to 2 × 3 the cells keep theirs. -/
example : ((do
    let g ← initBounds 100 0 (new 0 2) [0, 0] [2, 2]
    let g ← write g [0, 1] 7
    let a ← initBounds 100 0 g [0, 0] [3, 2]
    let b ← initBounds 100 0 g [0, 0] [2, 3]
    return (← read a [0, 1], ← read a [2, 0], ← read b [0, 1]) : Outcome (ℕ × ℕ × ℕ))) = .ok (0, 7, 7) := by decide +kernel

end Verif.Grid
