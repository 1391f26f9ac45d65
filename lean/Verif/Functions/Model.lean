import Verif.Cxx.Vec
import Mathlib.Algebra.Order.Floor.Ring
import Mathlib.Algebra.Order.Field.Basic
import Mathlib.Data.Nat.Sqrt

/-!
Model of common/src/functions.cpp and of the angle functions of geometry/src/base_geometry2.cpp. The scalar type `K` stands for
`double` (or `float`): any ordered field with floor, so rounding is not modelled and the `float` and `double` versions of a function
coincide. The functions of `<cmath>` other than `floor`, `ceil`, `fabs`, `fmod` and `copysign` are the parameters `Libm`.
A NaN result is `none` where it can arise.
-/
namespace Verif.Functions

/-- `M_PI` and functions of `<cmath>`, functions.cpp:19-30. -/
structure Libm (K : Type) where
  pi : K
  cos : K → K
  sin : K → K
  exp : K → K
  sqrt : K → K
  /-- `atan2(y, x)` -/
  atan2 : K → K → K

variable {K : Type} [Field K] [LinearOrder K] [FloorRing K]

/-- `fabs`, functions.cpp:95-96. -/
def fabs (x : K) : K := if x < 0 then -x else x

/-- `fmod(a, m)`: `a - m * trunc(a / m)`, functions.cpp:358-360. -/
def fmod (a m : K) : K := a - m * (if 0 ≤ a / m then ⌊a / m⌋ else ⌈a / m⌉)

/-- `copysign(x, y)`; the sign of a zero `y` is positive, functions.cpp:102. -/
def copysign (x y : K) : K := if y < 0 then -fabs x else fabs x

/-- `fastCosSin`, functions.cpp:47-58 (`fastCosSinf`, 34-45): the pair (c, s). -/
def fastCosSin (L : Libm K) (x : K) : K × K :=
  let factor := 1 / (2 * L.pi)
  let x := x * factor
  let c := x - (1 / 4 + ⌊x + 1 / 4⌋)
  let c := c * (16 * (fabs c - 1 / 2))
  let c := c + 225 / 1000 * c * (fabs c - 1)
  let s := x - ⌊x + 1 / 2⌋
  let s := s * (16 * (1 / 2 - fabs s))
  let s := s + 225 / 1000 * s * (fabs s - 1)
  (c, s)

/-- `fastAtan`, functions.cpp:71-80 (`fastAtanf`, 60-69). -/
def fastAtan (x : K) : K :=
  let a1 := 9998660 / 10000000
  let a3 := -3302995 / 10000000
  let a5 := 1801410 / 10000000
  let a7 := -851330 / 10000000
  let a9 := 208351 / 10000000
  let x2 := x * x
  let x4 := x2 * x2
  x * (a1 + x2 * (a3 + a7 * x4) + x4 * (a5 + a9 * x4))

/-- `fastAtan2(x, y)`, functions.cpp:94-104 (`fastAtan2f`, 82-92); 0/0 is NaN. -/
def fastAtan2 (L : Libm K) (x y : K) : Option K :=
  let ay := fabs y
  let ax := fabs x
  let invert := ax < ay
  let d := if invert then ay else ax
  if d = 0 then none else
    let z := if invert then ax / ay else ay / ax
    let th := fastAtan z
    let th := if invert then L.pi / 2 - th else th
    let th := if x < 0 then L.pi - th else th
    some (copysign th y)

/-- `K_2PI`, functions.h:28. -/
def k2pi : K := 628318530718 / 100000000000

/-- `K_2PI` as a `float`, geometry types.h:43 (rounded to 24 bits: 6.2831854820251465). -/
def k2pif : K := 13176795 / 2097152

/-- `normalize360`, functions.cpp:106-108. -/
def normalize360 (angle : K) : K := angle - k2pi * ⌊angle / k2pi⌋

/-- `normalize180`, functions.cpp:110-112. -/
def normalize180 (L : Libm K) (angle : K) : K := angle - L.pi * ⌊angle / L.pi⌋

/-- `normalizeAngle2Pi`, base_geometry2.cpp:42-44. -/
def normalizeAngle2Pi (angle : K) : K := angle - k2pif * ⌊angle / k2pif⌋

/-- `n = (coeffs.size() / 2) - 1`: unsigned arithmetic, then conversion to `int`; functions.cpp:121, 394. -/
def fourierOrder (size : Nat) : Int := Cxx.ofSize (Cxx.toSize ((size / 2 : Nat) - 1))

/-- Loop of `evaluateFourier`, functions.cpp:129-135: iterations `k, k + 1, …`, `m` of them. -/
def fourierLoop (cth2 sth2 : K) (coeffs : Vec K) : (m : Nat) → (k : Int) → (cth sth val : K) → Outcome K
  | 0, _, _, _, val => .ok val
  | m + 1, k, cth, sth, val => do
    let i ← Cxx.int (2 * k)
    let a ← coeffs.get i
    let j ← Cxx.int (i + 1)
    let b ← coeffs.get j
    let val := val + (a * cth + b * sth)
    let ctmp := cth2 * cth - sth2 * sth
    let stmp := sth2 * cth + cth2 * sth
    fourierLoop cth2 sth2 coeffs m (k + 1) ctmp stmp val

/-- `evaluateFourier`, functions.cpp:114-137. -/
def evaluateFourier (L : Libm K) (coeffs : Vec K) (theta : K) : Outcome K :=
  fourierLoop (L.cos theta) (L.sin theta) coeffs (fourierOrder coeffs.len + 1).toNat 0 1 0 0

/-- `evaluatePnebi0Polynom`, functions.cpp:143-161. -/
def evaluatePnebi0Polynom (L : Libm K) (x : K) : K :=
  let x := fabs x
  let t := x / (375 / 100)
  if t < 1 then
    let t2 := t * t
    let val := 1 + t2 * (35156229 / 10000000 + t2 * (30899424 / 10000000 + t2 * (12067492 / 10000000 + t2 * (2659732 / 10000000 +
      t2 * (360768 / 10000000 + t2 * (45813 / 10000000))))))
    2 * L.exp (-x) * val
  else
    let tinv := 1 / t
    let val := 39894228 / 100000000 + tinv * (1328592 / 100000000 + tinv * (225319 / 100000000 + tinv * (-157565 / 100000000 + tinv *
      (916281 / 100000000 + tinv * (-2057706 / 100000000 + tinv * (2635537 / 100000000 + tinv * (-1647633 / 100000000 +
        tinv * (392377 / 100000000))))))))
    2 * val / L.sqrt x

/-- Every element multiplied by `c`, functions.cpp:194-196, 203-205. -/
def scale (c : K) (v : Vec K) : Vec K := ⟨v.len, fun i => c * v.val i⟩

/-- `pnebis.resize(m)` if it is shorter, functions.cpp:165-167. -/
def grow (v : Vec K) (m : Nat) : Vec K := if v.len < m then ⟨m, fun i => if i < v.len then v.val i else 0⟩ else v

/-- `seqPrev`, `seqCurr` and `pnebis` in the back recursion, functions.cpp:164. -/
structure Seq (K : Type) where
  prev : K
  curr : K
  pnebis : Vec K

/-- One iteration of the back recursion, functions.cpp:184-199. -/
def backStep (n : Nat) (factor : K) (k : Nat) (s : Seq K) : Outcome (Seq K) := do
  let next := s.prev + factor * k * s.curr
  let prev := s.curr
  let curr := next
  let pnebis ← (if k ≤ n then s.pnebis.set k prev else .ok s.pnebis)
  if 10000000000 < curr then
    return ⟨prev * (1 / 10000000000), curr * (1 / 10000000000), scale (1 / 10000000000) pnebis⟩
  else
    return ⟨prev, curr, pnebis⟩

/-- The iterations `k, k - 1, …, 0` of the back recursion, functions.cpp:183-200. -/
def backLoop (n : Nat) (factor : K) : Nat → Seq K → Outcome (Seq K)
  | 0, s => backStep n factor 0 s
  | k + 1, s => do
    let s ← backStep n factor (k + 1) s
    backLoop n factor k s

/-- `evaluatePnebiVector`, functions.cpp:163-206, for `n ≥ 0`; `(int) sqrt(40.0 * n)` is the integer square root. -/
def evaluatePnebiVector (L : Libm K) (n : Nat) (x : K) (pnebis : Vec K) : Outcome (Vec K) := do
  let pnebis := grow pnebis (n + 1)
  let x := fabs x
  if x < 1 / 1000000 then
    Vec.set ⟨pnebis.len, fun _ => 0⟩ 0 2
  else do
    let s ← backLoop n (2 / x) (2 * (n + Nat.sqrt (40 * n))) ⟨0, 1, pnebis⟩
    let p0 ← s.pnebis.get 0
    return scale (evaluatePnebi0Polynom L x / p0) s.pnebis

/-- `PnebiPoint`, functions.h:171-186. -/
structure Point (K : Type) where
  x : K
  y : Vec K

/-- Constructor of `PnebiPoint`, functions.h:175-177. -/
def Point.new (L : Libm K) (n : Nat) (x : K) : Outcome (Point K) := do
  let y ← evaluatePnebiVector L n x ⟨n + 1, fun _ => 0⟩
  return ⟨x, y⟩

/-- `PnebiLUT`, functions.h:231-233 (`tolerance_` is never read). -/
structure Lut (K : Type) where
  lut : List (Point K)
  orderMax : Int

/-- Default constructor, functions.cpp:212-214. -/
def Lut.new : Lut K := ⟨[], 0⟩

/-- `-10.0 * std::numeric_limits<double>::min()`, functions.cpp:259. -/
def derivMax : K := -10 * (1 / 2 ^ 1022)

/-- Loop of `init`, functions.cpp:255-263: `m` iterations; the points pushed, in order. -/
def lutLoop (L : Libm K) (n : Nat) (tol : K) : (m : Nat) → (x deriv y0prev : K) → Outcome (List (Point K))
  | 0, _, _, _ => .ok []
  | m + 1, x, deriv, y0prev => do
    let x := x - tol / deriv
    let p ← Point.new L n x
    let y0 ← p.y.get 0
    let ratio := deriv * (y0prev - y0) / tol
    let y1 ← p.y.get 1
    let deriv := min (max (y1 - y0) ratio) derivMax
    let r ← lutLoop L n tol m x deriv y0
    return p :: r

/-- `init`, functions.cpp:220-265, for `n ≥ 0`. The conversion of a floating point number out of the range of `int` is undefined. -/
def Lut.init (L : Libm K) (n : Nat) (tol : K) : Outcome (Lut K) :=
  if tol = 0 then .error (.ub .overflow) else do
    let c ← Cxx.int ⌈2 / tol⌉
    let lutNum ← Cxx.int (c + 20)
    let p ← Point.new L n 0
    let y1 ← p.y.get 1
    let y0 ← p.y.get 0
    let deriv := y1 - y0
    let r ← lutLoop L n tol (lutNum - 1).toNat 0 deriv y0
    return ⟨p :: r, n⟩

/-- `std::upper_bound(lut_.begin(), lut_.end(), tmp)`, functions.cpp:279, 312: the table is sorted (C54), so the binary search finds
the first point with a larger abscissa. -/
def upperBound (lut : List (Point K)) (x : K) : Nat := lut.findIdx fun p => decide (x < p.x)

/-- The points `lower` and `upper` (`none` if it is the end), functions.cpp:279-281, 312-314. -/
def bracket (lut : List (Point K)) (x : K) : Outcome (Point K × Option (Point K)) :=
  match upperBound lut x with
  | 0 => .error (.ub .iterInvalid)
  | i + 1 => match lut[i]? with
    | none => .error (.ub .outOfBounds)
    | some lower => .ok (lower, lut[i + 1]?)

/-- `eval(k, x)`, functions.cpp:267-293. -/
def Lut.eval (l : Lut K) (k : Int) (x : K) : Outcome K :=
  if l.lut.isEmpty then .ok 0 else do
    let x := fabs x
    Cxx.assert (0 ≤ k ∧ k < l.orderMax)
    match ← bracket l.lut x with
    | (lower, none) => lower.y.get k
    | (lower, some upper) => do
      let w := (x - lower.x) / (upper.x - lower.x)
      let a ← lower.y.get k
      let b ← upper.y.get k
      return (1 - w) * a + w * b

/-- `eval(x, y)`, functions.cpp:295-326: the vector `y` after the call. -/
def Lut.evalVec (l : Lut K) (x : K) (y : Vec K) : Outcome (Vec K) :=
  if l.lut.isEmpty then .ok y else do
    let x := fabs x
    let y := grow y (l.orderMax + 1).toNat
    match ← bracket l.lut x with
    | (lower, none) =>
      if lower.y.len ≤ y.len then return ⟨y.len, fun i => if i < lower.y.len then lower.y.val i else y.val i⟩
      else .error (.ub .outOfBounds)
    | (lower, some upper) =>
      let w := (x - lower.x) / (upper.x - lower.x)
      return ⟨y.len, fun i => if i < lower.y.len ∧ i < upper.y.len ∧ i < y.len then (1 - w) * lower.y.val i + w * upper.y.val i else y.val i⟩

/-- `fmod(a, 2.0 * M_PI)` and the correction, functions.cpp:358-361. -/
def normMod (L : Libm K) (a : K) : K :=
  let amod := fmod a (2 * L.pi)
  if amod < 0 then amod + 2 * L.pi else amod

/-- `findLUCos` for ordered arguments, functions.cpp:353-384. -/
def findLUCosOrd (L : Libm K) (a b : K) : K × K :=
  if 2 * L.pi ≤ b - a then (-1, 1)
  else
    let amod := normMod L a
    let bmod := normMod L b
    if bmod < amod then
      (if bmod < L.pi ∧ L.pi < amod then min (L.cos amod) (L.cos bmod) else -1, 1)
    else
      (if amod < L.pi ∧ L.pi < bmod then -1 else min (L.cos amod) (L.cos bmod), max (L.cos amod) (L.cos bmod))

/-- `findLUCos`, functions.cpp:348-385: (cmin, cmax). -/
def findLUCos (L : Libm K) (a b : K) : K × K := if b < a then findLUCosOrd L b a else findLUCosOrd L a b

/-- Loop of `findLUFourier`, functions.cpp:404-416: iterations `k, k + 1, …`, `m` of them. -/
def luFourierLoop (L : Libm K) (coeffs : Vec K) (theta0 theta1 : K) : (m : Nat) → (k : Int) → (fmin fmax : K) → Outcome (K × K)
  | 0, _, fmin, fmax => .ok (fmin, fmax)
  | m + 1, k, fmin, fmax => do
    let i ← Cxx.int (2 * k)
    let a ← coeffs.get i
    let j ← Cxx.int (i + 1)
    let b ← coeffs.get j
    let amplitude := L.sqrt (a * a + b * b)
    let phase := L.atan2 b a
    let c := findLUCos L (i * theta0 - phase) (i * theta1 - phase)
    luFourierLoop L coeffs theta0 theta1 m (k + 1) (fmin + amplitude * c.1) (fmax + amplitude * c.2)

/-- `findLUFourier`, functions.cpp:387-417: (fourierMin, fourierMax). -/
def findLUFourier (L : Libm K) (coeffs : Vec K) (theta0 theta1 : K) : Outcome (K × K) := do
  let n := fourierOrder coeffs.len
  let c0 ← coeffs.get 0
  luFourierLoop L coeffs (min theta0 theta1) (max theta0 theta1) n.toNat 1 c0 c0

end Verif.Functions
