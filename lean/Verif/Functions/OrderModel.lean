import Verif.Functions.Model

/-!
Model of `evaluatePnebiVector` and of the initialisation of `PnebiLUT` (common/src/functions.cpp) for every order of type `int`, also negative ones, and with the arithmetic of `int` on the
order; otherwise as in Verif/Functions/Model.lean (exact scalars).
-/
namespace Verif.Functions
open Verif

variable {K : Type} [Field K] [LinearOrder K] [FloorRing K]

/-- `max_size()` of a `std::vector<double>`, functions.cpp:166, functions.h:175. -/
def maxDoubles : Nat := 1152921504606846975

/-- `max_size()` of a `std::vector<PnebiPoint>` (elements of 32 bytes), functions.cpp:250. -/
def maxPoints : Nat := 288230376151711743

/-- `(int) sqrt(40.0 * n)`: the conversion of a NaN is undefined, functions.cpp:183. -/
def castSqrt40 (n : Int) : Outcome Int := if n < 0 then .error (.ub .overflow) else Cxx.int (Nat.sqrt (40 * n.toNat))

/-- `if (pnebis.size() < n + 1) pnebis.resize(n + 1);`, functions.cpp:165-167: the `int` is converted to `size_t`. -/
def growInt (v : Vec K) (m : Int) : Outcome (Vec K) := if v.len < Cxx.toSize m ∧ maxDoubles < Cxx.toSize m then .error .throw else .ok (grow v (Cxx.toSize m))

/-- `evaluatePnebiVector`, functions.cpp:163-206. -/
def pnebiVectorInt (L : Libm K) (n : Int) (x : K) (pnebis : Vec K) : Outcome (Vec K) := do
  let m ← Cxx.int (n + 1)
  let pnebis ← growInt pnebis m
  let x := fabs x
  if x < 1 / 1000000 then
    Vec.set ⟨pnebis.len, fun _ => 0⟩ 0 2
  else do
    let r ← castSqrt40 n
    let t ← Cxx.int (n + r)
    let k ← Cxx.int (2 * t)
    let s ← backLoop n.toNat (2 / x) k.toNat ⟨0, 1, pnebis⟩
    let p0 ← s.pnebis.get 0
    return scale (evaluatePnebi0Polynom L x / p0) s.pnebis

/-- Constructor of `PnebiPoint`, functions.h:175-177. -/
def pointInt (L : Libm K) (n : Int) (x : K) : Outcome (Point K) := do
  let m ← Cxx.int (n + 1)
  if maxDoubles < Cxx.toSize m then .error .throw
  else do
    let y ← pnebiVectorInt L n x ⟨Cxx.toSize m, fun _ => 0⟩
    return ⟨x, y⟩

/-- Loop of `init`, functions.cpp:255-263: `m` iterations. -/
def lutLoopInt (L : Libm K) (n : Int) (tol : K) : (m : Nat) → (x deriv y0prev : K) → Outcome (List (Point K))
  | 0, _, _, _ => .ok []
  | m + 1, x, deriv, y0prev => do
    let x := x - tol / deriv
    let p ← pointInt L n x
    let y0 ← p.y.get 0
    let ratio := deriv * (y0prev - y0) / tol
    let y1 ← p.y.get 1
    let deriv := min (max (y1 - y0) ratio) derivMax
    let r ← lutLoopInt L n tol m x deriv y0
    return p :: r

/-- `init`, functions.cpp:220-265; `reserve` throws for a negative number of points. -/
def lutInitInt (L : Libm K) (n : Int) (tol : K) : Outcome (Lut K) :=
  if tol = 0 then .error (.ub .overflow) else do
    let c ← Cxx.int ⌈2 / tol⌉
    let lutNum ← Cxx.int (c + 20)
    if maxPoints < Cxx.toSize lutNum then .error .throw
    else do
      let p ← pointInt L n 0
      let y1 ← p.y.get 1
      let y0 ← p.y.get 0
      let deriv := y1 - y0
      let r ← lutLoopInt L n tol (lutNum - 1).toNat 0 deriv y0
      return ⟨p :: r, n⟩

end Verif.Functions
