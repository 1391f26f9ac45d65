import Verif.Functions.Model

/-!
Model of `PnebiLUT::printLUT`, common/src/functions.cpp:328-342: the rows written, each one with the index, the abscissa and the values printed. The formatting of the numbers is not
modelled.
-/
namespace Verif.LutPrint
open Verif Functions

variable {K : Type}

/-- A row of the output, functions.cpp:331-335: index, abscissa, values. -/
structure Row (K : Type) where
  index : Nat
  x : K
  vals : List K

/-- The values printed for a point, functions.cpp:332-334, 338-340: `for (int j = 0; j <= k && j < y.size(); ++j)`. -/
def vals (p : Point K) (k : Int) : List K := (List.range (min (k + 1).toNat p.y.len)).map p.y.val

/-- The loop over the points, functions.cpp:330-336, from index `i`; `fuel` bounds the number of iterations. The sum `i += incr` may overflow. -/
def printLoop (lut : List (Point K)) (k incr : Int) : (fuel : Nat) → (i : Int) → Outcome (List (Row K))
  | 0, _ => .error .fuel
  | fuel + 1, i =>
    if Cxx.toSize i < lut.length then do
      match lut[Cxx.toSize i]? with
      | none => .error (.ub .outOfBounds)
      | some p => do
        let i' ← Cxx.int (i + incr)
        let r ← printLoop lut k incr fuel i'
        return ⟨Cxx.toSize i, p.x, vals p k⟩ :: r
    else .ok []

/-- `printLUT(out, n, k)`, functions.cpp:328-342. The integer `n` is converted to `size_t` in the division; `back()` of an empty vector is undefined. -/
def printLUT (l : Lut K) (n k : Int) : Outcome (List (Row K)) :=
  if Cxx.toSize n = 0 then .error (.ub .divZero) else do
    let incr := max (Cxx.ofSize (l.lut.length / Cxx.toSize n)) 1
    let rows ← printLoop l.lut k incr (l.lut.length + 1) 0
    match l.lut.getLast? with
    | none => .error (.ub .outOfBounds)
    | some p => return rows ++ [⟨l.lut.length - 1, p.x, vals p k⟩]

end Verif.LutPrint
