import Mathlib.Order.Bounds.Defs
import Mathlib.Algebra.Order.Group.Unbundled.Abs
import Mathlib.Algebra.Order.Ring.Int

/-! Specifications on mathematical integers. -/
namespace Verif.NumericTraits.Spec

/-- `r` is the floor of the base-2 logarithm of `|z|`. -/
def IsLog2 (z r : ℤ) : Prop := 0 ≤ r ∧ (2 : ℤ) ^ r.toNat ≤ |z| ∧ |z| < 2 ^ (r.toNat + 1)

/-- Zero, a power of two or the opposite of a power of two. -/
def PowLike (z : ℤ) : Prop := z = 0 ∨ ∃ k : ℕ, z = 2 ^ k ∨ z = -2 ^ k

/-- Largest power-like number not above `z`. -/
def IsFloor (z r : ℤ) : Prop := IsGreatest {q | PowLike q ∧ q ≤ z} r

/-- Smallest power-like number not below `z`. -/
def IsCeil (z r : ℤ) : Prop := IsLeast {q | PowLike q ∧ z ≤ q} r

end Verif.NumericTraits.Spec
