import Mathlib.Order.Bounds.Defs
import Mathlib.Data.Nat.Notation
import Mathlib.Data.Int.Notation
import Batteries.Data.Nat.Basic
import Verif.NumericTraits.Model

/-! Independent specification of the Morton (Z) order: interleaving of the bits of natural numbers. -/
namespace Verif.Morton.Spec
open Verif.NumericTraits

/-- Biased (offset binary) value of a coordinate: the smallest value of the type is mapped to zero. -/
def bias (t : ITy) (x : BitVec t.w) : ℕ := (t.val x + (if t.signed then 2 ^ (t.w - 1) else 0)).toNat

/-- Morton code of `dim` natural numbers of `w` bits: bit `i` of the code is bit `i / dim` of the coordinate
`dim - 1 - i % dim` (coordinate 0 has the most significant bit of each group). -/
def code (w dim : ℕ) (u : ℕ → ℕ) : ℕ :=
  Nat.ofBits (n := w * dim) fun i => (u (dim - 1 - i.val % dim)).testBit (i.val / dim)

/-- Morton code of a vector of C++ integers of type `t`. -/
def mcode (t : ITy) (dim : ℕ) (v : ℕ → BitVec t.w) : ℕ := code t.w dim fun d => bias t (v d)

/-- Two vectors agree on the first `dim` coordinates. -/
def SameVec {α : Type} (dim : ℕ) (v1 v2 : ℕ → α) : Prop := ∀ d < dim, v1 d = v2 d

/-- The coordinates `x`, `y` fall into the same dyadic cell of size `2^k` (cells aligned to the smallest value). -/
def SameCell (k x y : ℕ) : Prop := x / 2 ^ k = y / 2 ^ k

instance (k x y : ℕ) : Decidable (SameCell k x y) := inferInstanceAs (Decidable (_ = _))

/-- Pairs on which `intervalPow2Int` is proved correct: the values agree above bit 30 and in the top bit, or the type is
signed and the signs differ. -/
def Nice (t : ITy) (x y : BitVec t.w) : Prop :=
  SameCell (min 30 (t.w - 1)) (bias t x) (bias t y) ∨
    (t.signed = true ∧ ¬ (t.val x < 0 ↔ t.val y < 0))

/-- `[low, upp]` is the smallest dyadic interval containing `x` and `y` among the intervals of length `2^k` aligned
to `base`; `mid` is the first value of its upper half, and separates `x` from `y`. -/
structure IsDyadic (base x y : ℤ) (k : ℕ) (low mid upp : ℤ) : Prop where
  aligned : (2 : ℤ) ^ k ∣ low - base
  length : upp = low + 2 ^ k - 1
  mem_left : low ≤ x ∧ x ≤ upp
  mem_right : low ≤ y ∧ y ≤ upp
  least : ∀ j < k, ¬ ∃ c : ℤ, (2 : ℤ) ^ j ∣ c - base ∧ (c ≤ x ∧ x ≤ c + 2 ^ j - 1) ∧ (c ≤ y ∧ y ≤ c + 2 ^ j - 1)
  half : x ≠ y → mid = low + 2 ^ (k - 1)
  below : x ≠ y → min x y < mid
  above : x ≠ y → mid ≤ max x y

end Verif.Morton.Spec
