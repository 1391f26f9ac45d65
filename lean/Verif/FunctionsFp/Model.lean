import Verif.Ieee.Fp

/-!
Model of the fast trigonometric functions and of the normalisation of angles of common/src/functions.cpp in floating point arithmetic: `Dbl` is `double`,
`Flt` is `float`. Every operation is rounded separately to the type of the expression (no fused multiply-add, no extended precision).
-/
namespace Verif.FunctionsFp
open Ieee Fp Float.Model

/-- A literal of type `double`, e.g. functions.cpp:72. -/
abbrev d (m : ℕ) (e : ℕ) : Dbl := lit .binary64 m (-(e : ℤ))

/-- A literal of type `float`, e.g. functions.cpp:61. -/
abbrev f (m : ℕ) (e : ℕ) : Flt := lit .binary32 m (-(e : ℤ))

/-- `M_PI`, functions.cpp:99. -/
def mPi : Dbl := d 314159265358979323846 20

/-- `M_PI_2`, functions.cpp:100. -/
def mPi2 : Dbl := d 157079632679489661923 20

/-- `K_2PI`, functions.h:28. -/
def k2pi : Dbl := d 628318530718 11

/-- `factor`, functions.cpp:48. -/
def factor : Dbl := d 10 1 / (d 20 1 * mPi)

/-- The cosine part of `fastCosSin` after the scaling of `x`, functions.cpp:51-53. -/
def fastCos (x : Dbl) : Dbl :=
  let c := x - (d 25 2 + floor (x + d 25 2))
  let c := c * (d 160 1 * (abs c - d 5 1))
  c + d 225 3 * c * (abs c - d 10 1)

/-- The sine part of `fastCosSin` after the scaling of `x`, functions.cpp:55-57. -/
def fastSin (x : Dbl) : Dbl :=
  let s := x - floor (x + d 5 1)
  let s := s * (d 160 1 * (d 5 1 - abs s))
  s + d 225 3 * s * (abs s - d 10 1)

/-- `fastCosSin`, functions.cpp:47-58: the pair (c, s). -/
def fastCosSin (x : Dbl) : Dbl × Dbl :=
  let x := x * factor
  (fastCos x, fastSin x)

/-- A `float` used as a `double`, e.g. functions.cpp:39. -/
abbrev wide (a : Flt) : Dbl := conv a

/-- A `double` stored in a `float`, e.g. functions.cpp:39. -/
abbrev narrow (a : Dbl) : Flt := conv a

/-- `factor` of `fastCosSinf`, functions.cpp:35. -/
def factorf : Flt := narrow factor

/-- The reduction of the cosine part of `fastCosSinf`, functions.cpp:38. The unqualified `floor` is the global one: that of `double` (`dbl`), or also that of `float` if some
header brings in the overloads of `std`. -/
def redCosf (dbl : Bool) (x : Flt) : Flt :=
  let u := x + f 25 2
  if dbl then narrow (wide x - (wide (f 25 2) + floor (wide u))) else x - (f 25 2 + floor u)

/-- The reduction of the sine part of `fastCosSinf`, functions.cpp:42: the literal `0.5` makes it a computation in `double`. -/
def redSinf (x : Flt) : Flt := narrow (wide x - floor (wide x + d 5 1))

/-- functions.cpp:40 and 44. -/
def parabf (c : Flt) : Flt := narrow (wide c + d 225 3 * wide c * wide (abs c - f 10 1))

/-- functions.cpp:39-40. -/
def shapeCosf (c : Flt) : Flt := parabf (narrow (wide c * (d 160 1 * wide (abs c - f 5 1))))

/-- functions.cpp:43-44. -/
def shapeSinf (s : Flt) : Flt := parabf (narrow (wide s * (d 160 1 * (d 5 1 - wide (abs s)))))

/-- `fastCosSinf`, functions.cpp:34-45: the pair (c, s). -/
def fastCosSinf (dbl : Bool) (x : Flt) : Flt × Flt :=
  let x := x * factorf
  (shapeCosf (redCosf dbl x), shapeSinf (redSinf x))

/-- `fastAtan`, functions.cpp:71-80. -/
def fastAtan (x : Dbl) : Dbl :=
  let a1 := d 9998660 7
  let a3 := -d 3302995 7
  let a5 := d 1801410 7
  let a7 := -d 851330 7
  let a9 := d 208351 7
  let x2 := x * x
  let x4 := x2 * x2
  x * (a1 + x2 * (a3 + a7 * x4) + x4 * (a5 + a9 * x4))

/-- `fastAtan2(x, y)`, functions.cpp:94-104. -/
def fastAtan2 (x y : Dbl) : Dbl :=
  let ay := abs y
  let ax := abs x
  let invert := decide (ax < ay)
  let z := if invert then ax / ay else ay / ax
  let th := fastAtan z
  let th := if invert then mPi2 - th else th
  let th := if x < lit _ 0 0 then mPi - th else th
  copysign th y

/-- `normalize360`, functions.cpp:106-108. -/
def normalize360 (angle : Dbl) : Dbl := angle - k2pi * floor (angle / k2pi)

/-- `normalize180`, functions.cpp:110-112. -/
def normalize180 (angle : Dbl) : Dbl := angle - mPi * floor (angle / mPi)

/-- `fastAtanf`, functions.cpp:60-69. -/
def fastAtanf (x : Flt) : Flt :=
  let a1 := f 9998660 7
  let a3 := -f 3302995 7
  let a5 := f 1801410 7
  let a7 := -f 851330 7
  let a9 := f 208351 7
  let x2 := x * x
  let x4 := x2 * x2
  x * (a1 + x2 * (a3 + a7 * x4) + x4 * (a5 + a9 * x4))

/-- `fastAtan2f(x, y)`, functions.cpp:82-92: the differences from `M_PI_2` and `M_PI` are computed in `double` and rounded to `float`. -/
def fastAtan2f (x y : Flt) : Flt :=
  let ay := abs y
  let ax := abs x
  let invert := decide (ax < ay)
  let z := if invert then ax / ay else ay / ax
  let th := fastAtanf z
  let th := if invert then conv (mPi2 - conv th) else th
  let th := if x < lit _ 0 0 then conv (mPi - conv th) else th
  copysign th y

end Verif.FunctionsFp
