import Verif.Interval.Spec
import Mathlib.Algebra.Order.Group.Unbundled.Abs
import Mathlib.Algebra.Order.Group.Int

/-! Specification of the peak finder: the peaks of a map on a box. Independent of the heaps of the model. -/
namespace Verif.PeakFinder.Spec
open Verif.Interval Verif.Interval.Spec
variable {V : Type}

/-- `e` lies in the window of half-size `iwin` centred on `c`. -/
def InWindow (iwin c e : List ℤ) : Prop := e.length = c.length ∧ ∀ d < c.length, |e.getD d 0 - c.getD d 0| ≤ iwin.getD d 0

/-- `c` is a cell of the domain that passes the filter and is strictly better than the other domain cells of its window. -/
def IsPeak (comp : V → V → Bool) (passes : V → Prop) (map : List ℤ → V) (domain : Interval) (iwin : List ℤ) (c : List ℤ) : Prop :=
  Mem domain c ∧ passes (map c) ∧ ∀ e, Mem domain e → e ≠ c → InWindow iwin c e → comp (map c) (map e) = true

/-- The domain is not empty, its cells can be counted, and the windows centred on its cells are representable. -/
structure Fits (domain : Interval) (iwin : List ℤ) : Prop where
  proper : Proper domain
  card : card domain ≤ 2147483647
  win : List.Forall₂ (fun (a : Axis) w => 0 ≤ w ∧ I32 (a.min - w) ∧ I32 (a.min + a.dim + w) ∧ I32 (2 * w + 1)) domain iwin

end Verif.PeakFinder.Spec
