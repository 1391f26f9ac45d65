import Mathlib.Data.Finset.Insert
import Mathlib.Algebra.Order.Group.Unbundled.Abs

/-! Specification of the correspondence graph association: consistent correspondences and maximal consistent sets. -/
namespace Verif.CorrGraph.Spec
variable {α : Type} [DecidableEq α]

/-- The elements of `C` are pairwise adjacent. -/
def Clique (adj : α → α → Prop) (C : Finset α) : Prop := ∀ x ∈ C, ∀ y ∈ C, x ≠ y → adj x y

/-- `C` is a clique of the graph on `V` to which no element of `V` can be added. -/
def MaximalClique (adj : α → α → Prop) (V C : Finset α) : Prop :=
  C ⊆ V ∧ Clique adj C ∧ ∀ v ∈ V, v ∉ C → ¬ Clique adj (insert v C)

/-- The distance of two items, the functor being called with the items in order of position. -/
def dist2 {K : Type} (dist : ℕ → ℕ → K) (a c : ℕ) : K := dist (min a c) (max a c)

/-- The correspondences `a → b` and `c → e` are consistent: different items, and the same distance up to the tolerance. -/
def Consistent {K : Type} [LT K] [Add K] [Sub K] (distMin tol : K) (distS distD : ℕ → ℕ → K) (a b c e : ℕ) : Prop :=
  a ≠ c ∧ b ≠ e ∧ distMin < dist2 distS a c ∧ dist2 distS a c - tol < dist2 distD b e ∧ dist2 distD b e < dist2 distS a c + tol

end Verif.CorrGraph.Spec
