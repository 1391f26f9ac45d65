import Verif.Grid.Model

/-!
Model of what is left of a `Grid` (common/include/rofl/common/grid.h) when an initialisation throws. The initialisations first set the domain, then resize the storage; when the
memory cannot be allocated the exception (`std::bad_alloc`, `std::length_error`) leaves the storage as it was (strong guarantee of `std::vector::resize` for values whose copy does
not throw) and the domain as it is.
-/
namespace Verif.Grid
open Verif Verif.Interval
variable {α : Type}

/-- `data_.resize(n)`: `ok n` tells whether a storage of `n` elements can be allocated; a storage that does not grow is not allocated again. `none` is the exception,
grid.h:41, 48, 58, 63, 68, 73. -/
def tryResize (ok : Nat → Bool) (z : α) (v : Vec α) (n : Nat) : Option (Vec α) :=
  if n ≤ v.len ∨ ok n then some ⟨n, fun i => if i < v.len then v.val i else z⟩ else none

/-- The initialisations, grid.h:54-74. -/
inductive Init
  | bounds (min size : List Int)
  | dims (size : List Int)
  | center (center win : List Int)
  | minMax (min max : List Int)

/-- The new value of `domain_`, grid.h:57, 62, 67, 72. -/
def Init.domain : Init → Outcome Interval
  | .bounds lo n => .ok (Interval.initBounds lo n)
  | .dims n => .ok (Interval.initBounds (n.map fun _ => 0) n)
  | .center c w => initCentered c w
  | .minMax lo hi => Interval.initMinMax lo hi

/-- The grid after the initialisation, and whether the exception was thrown, grid.h:54-74. -/
def tryInit (ok : Nat → Bool) (z : α) (g : Grid α) (i : Init) : Outcome (Grid α × Bool) := do
  let dom ← i.domain
  return match tryResize ok z g.data (size dom) with
    | some d => (⟨d, dom⟩, false)
    | none => (⟨g.data, dom⟩, true)

end Verif.Grid
