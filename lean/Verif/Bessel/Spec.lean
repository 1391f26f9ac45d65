import Mathlib.Analysis.SpecialFunctions.Exp

/-! The functions that the PNEBI functions of common/include/rofl/common/functions.h are to compute. -/
namespace Verif.Bessel
open scoped Nat

/-- The modified Bessel function of the first kind of order `k`. -/
noncomputable def besselI (k : ℕ) (x : ℝ) : ℝ := ∑' m : ℕ, (x / 2) ^ (2 * m + k) / (m ! * (m + k)! : ℝ)

/-- The product of negative exponential and Bessel function, functions.h:125-132. -/
noncomputable def pnebi (k : ℕ) (x : ℝ) : ℝ := 2 * Real.exp (-x) * besselI k x

end Verif.Bessel
