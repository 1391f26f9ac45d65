import Mathlib.Order.Bounds.Defs
import Mathlib.Data.Nat.Notation
import Mathlib.Data.Int.Notation

/-! Specifications for bit manipulation, independent of the model: plain natural numbers and bits. -/
namespace Verif.BitManip.Spec

/-- `r` is the number of leading zeros of the `w`-bit number `x`: the `r` top bits are zero and,
unless all the bits are zero, the next one is set. -/
structure IsLeadingZeros (w x : ℕ) (r : ℤ) : Prop where
  nonneg : 0 ≤ r
  le_width : r ≤ w
  zeros : ∀ j : ℕ, (w : ℤ) - r ≤ j → j < w → x.testBit j = false
  one : r < w → ∃ j : ℕ, (j : ℤ) = w - r - 1 ∧ x.testBit j = true

/-- `p` is the largest power of two not above `x`. -/
def IsFloorPow2 (x p : ℕ) : Prop := IsGreatest {q | (∃ k, q = 2 ^ k) ∧ q ≤ x} p

/-- `p` is the smallest power of two not below `x`. -/
def IsCeilPow2 (x p : ℕ) : Prop := IsLeast {q | (∃ k, q = 2 ^ k) ∧ x ≤ q} p

end Verif.BitManip.Spec
