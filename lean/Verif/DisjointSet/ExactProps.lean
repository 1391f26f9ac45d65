import Verif.DisjointSet.Props

/-! Exact condition of C25 (see properties.jsonl). -/
namespace Verif.DisjointSet
open Verif Spec

theorem abs_neg_le (h : List Op) : ∀ A : Abs, A.neg ≤ 0 → (h.foldl Abs.step A).neg ≤ 0 := by
  induction h with
  | nil => exact fun A h => h
  | cons op h ih =>
    intro A hA
    refine ih _ ?_
    cases op with
    | init num => exact min_le_right _ _
    | makeSet => exact hA
    | join a b => exact hA
    | find a => exact hA
    | size a => exact hA

/-- The calls since the last initialisation. -/
def sinceInit (h : List Op) : List Op := (h.reverse.takeWhile fun op => match op with | .init _ => false | _ => true).reverse

/-- C25, exactly: `setNum()` counts the sets if and only if `makeSet` was not called since the last initialisation and the number given to it was not negative. -/
theorem C25_iff (h : List Op) (hv : Valid h) :
    (∃ s, run h = .ok s ∧ s.setNum = (classes (absOf h)).card) ↔ Op.makeSet ∉ sinceInit h ∧ ∀ num pre, h = pre ++ Op.init num :: sinceInit h → 0 ≤ num := by
  have key : Op.makeSet ∉ sinceInit h ∧ (∀ num pre, h = pre ++ Op.init num :: sinceInit h → 0 ≤ num) ↔ (absOf h).made = 0 ∧ (absOf h).neg = 0 := by
    clear hv
    induction h using List.reverseRecOn with
    | nil => simp [sinceInit, absOf]
    | append_singleton h op ih =>
      have ha : absOf (h ++ [op]) = (absOf h).step op := by simp [absOf]
      have hs : ∀ o, (∀ n, o ≠ Op.init n) → sinceInit (h ++ [o]) = sinceInit h ++ [o] := by
        intro o ho
        unfold sinceInit
        rw [List.reverse_append, List.reverse_singleton, List.singleton_append, List.takeWhile_cons]
        cases o with
        | init n => exact absurd rfl (ho n)
        | _ => simp
      have hp : ∀ o, (∀ n, o ≠ Op.init n) → ((∀ num pre, h ++ [o] = pre ++ Op.init num :: sinceInit (h ++ [o]) → 0 ≤ num) ↔ ∀ num pre, h = pre ++ Op.init num :: sinceInit h → 0 ≤ num) := by
        intro o ho
        refine forall_congr' fun num => forall_congr' fun pre => ?_
        rw [hs o ho, ← List.cons_append, ← List.append_assoc]
        rw [List.append_left_inj]
      rw [ha]
      cases op with
      | init num =>
        have h0 : sinceInit (h ++ [Op.init num]) = [] := by
          unfold sinceInit
          rw [List.reverse_append, List.reverse_singleton, List.singleton_append, List.takeWhile_cons]
          simp
        rw [h0]
        simp only [Abs.step, List.not_mem_nil, not_false_eq_true, true_and]
        constructor
        · intro g
          have := g num h rfl
          omega
        · intro g num' pre e
          have : num = num' := by
            have := List.append_inj_right' e rfl
            simpa using this
          omega
      | makeSet =>
        rw [hs _ (by simp)]
        simp [Abs.step]
      | join a b =>
        rw [hp _ (by simp), hs _ (by simp)]
        simpa [Abs.step] using ih
      | find a =>
        rw [hp _ (by simp), hs _ (by simp)]
        simpa [Abs.step] using ih
      | size a =>
        rw [hp _ (by simp), hs _ (by simp)]
        simpa [Abs.step] using ih
  rw [key]
  obtain ⟨s, hr, hs⟩ := C25_setNum_exact_partial h hv
  have hn : (absOf h).neg ≤ 0 := abs_neg_le h _ le_rfl
  constructor
  · rintro ⟨s', hr', hs'⟩
    rw [hr] at hr'
    obtain rfl := Except.ok.inj hr'
    omega
  · rintro ⟨h1, h2⟩
    exact ⟨s, hr, by rw [hs, h1, h2]; omega⟩

example : sinceInit [.makeSet, .init 3, .join 0 1, .find 2] = [.join 0 1, .find 2] := rfl

end Verif.DisjointSet
