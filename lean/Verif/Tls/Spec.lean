import Mathlib.Algebra.Order.Field.Basic
import Mathlib.Algebra.BigOperators.Group.Finset.Basic
import Mathlib.Order.Interval.Finset.Nat
import Mathlib.Algebra.Order.Group.Unbundled.Abs

/-! Specification vocabulary for C56: truncated least squares on measures `v i` with ranges `r i`, `i < n`. -/
namespace Verif.Tls.Spec
open Finset

variable {K : Type} [Field K] [LinearOrder K]

/-- The measures whose interval [v - r, v + r[ contains `x`. -/
def overlap (n : ℕ) (v r : ℕ → K) (x : K) : Finset ℕ := (range n).filter fun i => v i - r i ≤ x ∧ x < v i + r i

/-- The weight of a measure: the inverse square of its range, at most 10^12. -/
def weight (r : ℕ → K) (i : ℕ) : K := if |r i| < 1 / 1000000 then 1000000000000 else 1 / (r i) ^ 2

/-- The weighted mean of a set of measures. -/
def wmean (v r : ℕ → K) (S : Finset ℕ) : K := (∑ i ∈ S, weight r i * v i) / ∑ i ∈ S, weight r i

/-- The truncated cost of the value `h` with inliers `S`: squared residuals of the inliers, ranges of the outliers. -/
def cost (n : ℕ) (v r : ℕ → K) (S : Finset ℕ) (h : K) : K := ∑ i ∈ S, (v i - h) ^ 2 + ∑ i ∈ range n \ S, r i

/-- The number of measures closer to `h` than their range. -/
def consensus (n : ℕ) (v r : ℕ → K) (h : K) : ℕ := ((range n).filter fun i => |v i - h| < r i).card

/-- `srt` sorts by the first component (any order of the ties). -/
def IsSort (srt : List (K × ℤ) → List (K × ℤ)) : Prop := ∀ l, (srt l).Perm l ∧ (srt l).Pairwise fun a b => a.1 ≤ b.1

end Verif.Tls.Spec
