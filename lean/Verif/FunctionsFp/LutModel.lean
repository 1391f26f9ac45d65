import Verif.FunctionsFp.PnebiVectorModel

/-!
Model of the class `PnebiLUT` (common/include/rofl/common/functions.h, common/src/functions.cpp) in `double` arithmetic, for orders `n ≥ 0`. The function `exp` of the C library
is a parameter.
-/
namespace Verif.FunctionsFp
open Verif Ieee Fp Float.Model

/-- Constructor of `PnebiPoint`, functions.h:175-177: the vector has `n + 1` zeros. -/
def Point.new (exp : Dbl → Dbl) (n : ℕ) (x : Dbl) : Outcome (Functions.Point Dbl) := do
  let y ← evaluatePnebiVector exp n x ⟨n + 1, fun _ => d 0 1⟩
  return ⟨x, y⟩

/-- `std::max`, functions.cpp:259. -/
def stdMax (a b : Dbl) : Dbl := if a < b then b else a

/-- `std::min`, functions.cpp:259. -/
def stdMin (a b : Dbl) : Dbl := if b < a then b else a

/-- `std::numeric_limits<double>::min()`, functions.cpp:259: `__DBL_MIN__`, 2.2250738585072014e-308. -/
def dblMin : Dbl := d 22250738585072014 324

/-- `-10.0 * std::numeric_limits<double>::min()`, functions.cpp:259. -/
def derivMax : Dbl := -d 100 1 * dblMin

/-- Loop of `init`, functions.cpp:255-263: `m` iterations; the points pushed, in order. -/
def lutLoop (exp : Dbl → Dbl) (n : ℕ) (tol : Dbl) : (m : ℕ) → (x deriv y0prev : Dbl) → Outcome (List (Functions.Point Dbl))
  | 0, _, _, _ => .ok []
  | m + 1, x, deriv, y0prev => do
    let x := x - tol / deriv
    let p ← Point.new exp n x
    let y0 ← p.y.get 0
    let ratio := deriv * (y0prev - y0) / tol
    let y1 ← p.y.get 1
    let deriv := stdMin (stdMax (y1 - y0) ratio) derivMax
    let r ← lutLoop exp n tol m x deriv y0
    return p :: r

/-- `ceil(x)`, functions.cpp:242, as an integer; `none` for NaN and infinities. -/
def ceil? (a : Dbl) : Option ℤ :=
  match a.x with
  | .finite s m e _ => some (if 0 ≤ e then s.apply (m * 2 ^ e.toNat : ℕ) else -(-(s.apply m) / 2 ^ (-e).toNat))
  | .zero _ => some 0
  | _ => none

/-- `(int) ceil(x)`, functions.cpp:242: undefined for NaN, for an infinity and when the value is not an `int`. -/
def castCeil (x : Dbl) : Outcome Int :=
  match ceil? x with
  | none => .error (.ub .overflow)
  | some n => Cxx.int n

/-- `init`, functions.cpp:220-265, for `n ≥ 0`; `lut_.reserve` of a negative number fails. -/
def Lut.init (exp : Dbl → Dbl) (n : ℕ) (tol : Dbl) : Outcome (Functions.Lut Dbl) := do
  let c ← castCeil (d 20 1 / tol)
  let lutNum ← Cxx.int (c + 20)
  if lutNum < 0 then .error .throw else do
    let p ← Point.new exp n (d 0 1)
    let y1 ← p.y.get 1
    let y0 ← p.y.get 0
    let deriv := y1 - y0
    let r ← lutLoop exp n tol (lutNum - 1).toNat (d 0 1) deriv y0
    return ⟨p :: r, n⟩

/-- The precondition of `std::upper_bound`: the points not after `x` come first. -/
def partitioned (lut : List (Functions.Point Dbl)) (x : Dbl) : Prop := ∀ i j : Fin lut.length, i < j → x < lut[i].x → x < lut[j].x

instance (lut : List (Functions.Point Dbl)) (x : Dbl) : Decidable (partitioned lut x) := by unfold partitioned; infer_instance

/-- The points `lower` and `upper` (`none` if it is the end), functions.cpp:279-282, 312-315. Without the precondition the search is undefined. -/
def bracket (exp : Dbl → Dbl) (lut : List (Functions.Point Dbl)) (x : Dbl) : Outcome (Functions.Point Dbl × Option (Functions.Point Dbl)) := do
  let tmp ← Point.new exp 0 x
  if partitioned lut tmp.x then
    match lut.findIdx fun p => decide (tmp.x < p.x) with
    | 0 => .error (.ub .iterInvalid)
    | i + 1 => match lut[i]? with
      | none => .error (.ub .outOfBounds)
      | some lower => .ok (lower, lut[i + 1]?)
  else .error (.ub .iterInvalid)

/-- `eval(k, x)`, functions.cpp:267-293. -/
def Lut.eval (exp : Dbl → Dbl) (l : Functions.Lut Dbl) (k : Int) (x : Dbl) : Outcome Dbl :=
  if l.lut.isEmpty then .ok (d 0 1) else do
    let x := if x < d 0 1 then -x else x
    Cxx.assert (0 ≤ k ∧ k < l.orderMax)
    match ← bracket exp l.lut x with
    | (lower, none) => lower.y.get k
    | (lower, some upper) => do
      let w := (x - lower.x) / (upper.x - lower.x)
      let a ← lower.y.get k
      let b ← upper.y.get k
      return (d 10 1 - w) * a + w * b

/-- `eval(x, y)`, functions.cpp:295-326: the vector `y` after the call. -/
def Lut.evalVec (exp : Dbl → Dbl) (l : Functions.Lut Dbl) (x : Dbl) (y : Vec Dbl) : Outcome (Vec Dbl) :=
  if l.lut.isEmpty then .ok y else do
    let x := if x < d 0 1 then -x else x
    let y := growD y (l.orderMax + 1).toNat
    match ← bracket exp l.lut x with
    | (lower, none) =>
      if lower.y.len ≤ y.len then return ⟨y.len, fun i => if i < lower.y.len then lower.y.val i else y.val i⟩
      else .error (.ub .outOfBounds)
    | (lower, some upper) =>
      let w := (x - lower.x) / (upper.x - lower.x)
      return ⟨y.len, fun i => if i < lower.y.len ∧ i < upper.y.len ∧ i < y.len then (d 10 1 - w) * lower.y.val i + w * upper.y.val i else y.val i⟩

end Verif.FunctionsFp
