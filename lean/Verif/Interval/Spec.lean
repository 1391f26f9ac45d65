import Mathlib.Algebra.BigOperators.Fin
import Mathlib.Algebra.BigOperators.Group.List.Basic
import Mathlib.Data.Int.Notation
import Verif.Interval.Model

/-! Independent specification of intervals of cells. -/
namespace Verif.Interval.Spec
open Verif.Interval

/-- The cell `is` belongs to the box. -/
def Mem (iv : Interval) (is : List ℤ) : Prop := List.Forall₂ (fun (a : Axis) i => a.min ≤ i ∧ i < a.min + a.dim) iv is

/-- Number of cells of a box with positive dimensions. -/
def card (iv : Interval) : ℤ := (iv.map Axis.dim).prod

/-- Column-major (first coordinate fastest) rank of a cell: `Σ_d (i_d - min_d) * Π_{e<d} dim_e`. -/
def rank (iv : Interval) (is : List ℤ) : ℤ :=
  ∑ d : Fin iv.length, (is.getD d 0 - iv[d].min) * ∏ e : Fin d, (iv[e.castLE d.isLt.le]).dim

/-- The range of `int`. -/
def I32 (z : ℤ) : Prop := -2147483648 ≤ z ∧ z ≤ 2147483647

/-- All the cells have `int` coordinates and all the dimensions are positive. -/
def Proper (iv : Interval) : Prop := ∀ a ∈ iv, 0 < a.dim ∧ I32 a.min ∧ I32 a.dim ∧ I32 (a.min + a.dim - 1)

/-- The bounds (`min_`, `dimensions_`, `last()`) are representable. -/
def Repr (iv : Interval) : Prop := ∀ a ∈ iv, I32 a.min ∧ I32 a.dim ∧ I32 (a.min + a.dim)

/-- The two cells differ by one in exactly one coordinate. -/
def Adjacent (x y : List ℤ) : Prop :=
  x.length = y.length ∧ ∃ d < x.length, (y.getD d 0 = x.getD d 0 + 1 ∨ y.getD d 0 = x.getD d 0 - 1) ∧
    ∀ e < x.length, e ≠ d → y.getD e 0 = x.getD e 0

end Verif.Interval.Spec
