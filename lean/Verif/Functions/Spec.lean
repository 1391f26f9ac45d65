import Verif.Functions.Model
import Mathlib.Analysis.SpecialFunctions.Complex.Arg
import Mathlib.Algebra.BigOperators.Group.Finset.Basic

/-! Notions used to state the properties of functions.cpp. -/
namespace Verif.Functions.Spec
open Real

/-- The functions of `<cmath>` in exact arithmetic. -/
noncomputable def real : Libm ℝ := ⟨π, Real.cos, Real.sin, Real.exp, Real.sqrt, fun y x => Complex.arg ⟨x, y⟩⟩

/-- The Fourier series with frequencies `f * k` for `k < m`. -/
noncomputable def series (f : ℕ) (c : Vec ℝ) (m : ℕ) (θ : ℝ) : ℝ :=
  ∑ k ∈ Finset.range m, (c.val (2 * k) * Real.cos ((f * k : ℕ) * θ) + c.val (2 * k + 1) * Real.sin ((f * k : ℕ) * θ))

/-- `b` is the angle `a` up to an integer number of turns `t`. -/
def SameAngle (t a b : ℝ) : Prop := ∃ m : ℤ, a - b = m * t

end Verif.Functions.Spec
