import Verif.Geometry2.Props

/-! Property theorem C75 (see properties.jsonl): what the product by a component of the array itself computes. -/
namespace Verif.Geometry2

/-- C75, `v *= v[j]`: the components up to `j` are multiplied by `v[j]`, the later ones by its square; the components beyond the dimension do not change. -/
theorem C75_scale_self (T : Type) [Mul T] (dim : ℕ) (a : ℕ → T) (j : ℕ) (hj : j < dim) (d : ℕ) :
    scaleAssign dim a (.comp j) d = if d < dim then (if d ≤ j then a d * a j else a d * (a j * a j)) else a d := by
  have gen : ∀ n, (List.range n).foldl (fun a d => upd a d (a d * (ScalarArg.comp j).read a)) a =
      fun d => if d < n then (if d ≤ j then a d * a j else a d * (a j * a j)) else a d := by
    intro n
    induction n with
    | zero => funext d; simp
    | succ n ih =>
      rw [List.range_succ, List.foldl_append, ih, List.foldl_cons, List.foldl_nil]
      funext d
      simp only [upd, ScalarArg.read, lt_irrefl, if_false, le_refl, if_true]
      rcases eq_or_ne d n with rfl | h1
      · split_ifs <;> first | rfl | (exfalso; omega)
      · split_ifs <;> first | rfl | (exfalso; omega)
  unfold scaleAssign
  rw [gen dim]

/-- C75, `v *= v[j]` over a field: right exactly when `v[j]` is 0 or 1 or all the later components are zero. -/
theorem C75_scale_iff (K : Type) [Field K] (dim : ℕ) (a : ℕ → K) (j : ℕ) (hj : j < dim) :
    (∀ d < dim, scaleAssign dim a (.comp j) d = a d * a j) ↔ a j = 0 ∨ a j = 1 ∨ ∀ d < dim, j < d → a d = 0 := by
  constructor
  · intro h
    by_cases h0 : a j = 0
    · exact Or.inl h0
    · by_cases h1 : a j = 1
      · exact Or.inr (Or.inl h1)
      · refine Or.inr (Or.inr fun d hd hjd => ?_)
        have := h d hd
        rw [C75_scale_self K dim a j hj, if_pos hd, if_neg (by omega)] at this
        by_contra hne
        have h2 := mul_left_cancel₀ hne this
        exact h1 (mul_left_cancel₀ h0 (h2.trans (mul_one _).symm))
  · intro h d hd
    rw [C75_scale_self K dim a j hj, if_pos hd]
    by_cases hjd : d ≤ j
    · rw [if_pos hjd]
    · rw [if_neg hjd]
      rcases h with h | h | h
      · rw [h]; simp
      · rw [h]; simp
      · rw [h d hd (by omega)]; simp

example : [0, 1, 2, 3].map (scaleAssign 3 (fun i => (i : ℤ) + 2) (.comp 1)) = [6, 9, 36, 5] := by decide +kernel

end Verif.Geometry2
