import Mathlib.Data.Nat.Notation
import Mathlib.Data.Int.Notation
import Mathlib.Algebra.Ring.Int.Defs

/-! IEEE-754 binary32 and the grid on which the Morton order of floats is defined. -/
namespace Verif.MortonFloat.Spec

/-- Exponent field. -/
def expo (a : BitVec 32) : ℕ := a.toNat / 2 ^ 23 % 2 ^ 8

/-- Fraction field. -/
def frac (a : BitVec 32) : ℕ := a.toNat % 2 ^ 23

/-- Sign bit. -/
def neg (a : BitVec 32) : Bool := decide (2 ^ 31 ≤ a.toNat)

/-- Magnitude of a finite float in units of 2^-150. -/
def absScaled (a : BitVec 32) : ℕ := if expo a = 0 then 2 * frac a else (2 ^ 23 + frac a) * 2 ^ expo a

/-- Value of a finite float in units of 2^-150. -/
def scaled (a : BitVec 32) : ℤ := if neg a then -absScaled a else absScaled a

/-- Value of a finite float in offset binary: 279-bit natural numbers. -/
def biased (a : BitVec 32) : ℕ := (2 ^ 278 + scaled a).toNat

/-- Finite floats. -/
def Finite (a : BitVec 32) : Prop := expo a ≤ 254

/-- The floats for which the comparison is right: +0 and the finite floats of magnitude at least 2^-103 that are not negative
powers of two. -/
def Tame (a : BitVec 32) : Prop := a = 0#32 ∨ (24 ≤ expo a ∧ expo a ≤ 254 ∧ ¬ (neg a = true ∧ frac a = 0))

instance (a : BitVec 32) : Decidable (Tame a) := inferInstanceAs (Decidable (_ ∨ _))

end Verif.MortonFloat.Spec
