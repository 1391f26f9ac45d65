import Verif.FunctionsFp.AtanProps

/-! Property theorem for C86 (see properties.jsonl): the arguments for which `fastAtan2` is not a number. -/
namespace Verif.FunctionsFp
open Ieee Fp Float.Model Real

theorem fin_not_nan {a : Dbl} (h : a.Fin) : ¬ a.NaN := by
  intro hn
  unfold Fp.Fin at h
  rw [show a.x = _ from hn] at h
  exact h

theorem cases3 (a : Dbl) : a.Fin ∨ Inf a ∨ a.NaN := by
  unfold Fp.Fin Inf Fp.NaN
  cases a.x with
  | zero s => exact Or.inl trivial
  | finite s m e hm => exact Or.inl trivial
  | infinity s => exact Or.inr (Or.inl ⟨s, rfl⟩)
  | notANumber => exact Or.inr (Or.inr rfl)

theorem atan2_nan {x y : Dbl} (h : x.NaN ∨ y.NaN) : (fastAtan2 x y).NaN := by
  have hi : ¬ x.abs < y.abs := NaN.not_lt (by rwa [NaN.abs, NaN.abs])
  have hd : (y.abs / x.abs).NaN := NaN.div (by rw [NaN.abs, NaN.abs]; exact h.symm)
  have h2 : (fastAtan (y.abs / x.abs)).NaN := NaN.mul (Or.inl hd)
  unfold fastAtan2
  dsimp only
  rw [NaN.copysign]
  simp only [hi, decide_false, Bool.false_eq_true, if_false]
  split
  · exact NaN.sub (Or.inr h2)
  · exact h2

/-- C86, exactly: `fastAtan2` is not a number exactly if a component is not a number, both are zero, or both are infinite. -/
theorem C86_iff (x y : Dbl) : (fastAtan2 x y).NaN ↔ x.NaN ∨ y.NaN ∨ (x.Fin ∧ y.Fin ∧ x.val = 0 ∧ y.val = 0) ∨ (Inf x ∧ Inf y) := by
  constructor
  · intro h
    rcases cases3 x with hx | hx | hx
    · rcases cases3 y with hy | hy | hy
      · by_cases h0 : x.val ≠ 0 ∨ y.val ≠ 0
        · exact absurd h (fin_not_nan (C86_atan2 x y hx hy h0).1)
        · rw [not_or, not_not, not_not] at h0
          exact Or.inr (Or.inr (Or.inl ⟨hx, hy, h0.1, h0.2⟩))
      · rw [(C86_atan2_one_inf x y).2 hx hy, NaN.copysign] at h
        exact absurd h (by decide +kernel)
      · exact Or.inr (Or.inl hy)
    · rcases cases3 y with hy | hy | hy
      · rw [(C86_atan2_one_inf x y).1 hx hy, NaN.copysign] at h
        split at h
        · exact absurd h (by decide +kernel)
        · exact absurd h (by decide +kernel)
      · exact Or.inr (Or.inr (Or.inr ⟨hx, hy⟩))
      · exact Or.inr (Or.inl hy)
    · exact Or.inl hx
  · rintro (h | h | ⟨h1, h2, h3, h4⟩ | ⟨h1, h2⟩)
    · exact atan2_nan (Or.inl h)
    · exact atan2_nan (Or.inr h)
    · exact C86_atan2_zero x y h1 h2 h3 h4
    · exact C86_atan2_inf x y h1 h2

-- (3, 0) is not among the exceptions, (0, -0) is
example : ¬ (fastAtan2 (d 30 1) (d 0 1)).NaN ∧ (fastAtan2 (d 0 1) (-d 0 1)).NaN := by decide +kernel

end Verif.FunctionsFp
