import Verif.FunctionsFp.Model

/-!
Model of the angle and orientation functions of geometry/src/base_geometry2.cpp in floating point arithmetic: `Scalar` is `float` (types.h:39). Every operation is rounded
separately.
-/
namespace Verif.Geometry2Fp
open Ieee Fp Float.Model FunctionsFp

/-- `Vector2` (types.h:72). -/
abbrev V2f := Flt × Flt

/-- `K_2PI`, types.h:43: the literal of type `double` stored in a `float`. -/
def k2pif : Flt := narrow (d 628318530718 11)

/-- `normalizeAngle2Pi`, base_geometry2.cpp:42-44. The unqualified `floor` is the global one: that of `double` (`dbl`), whose result makes the rest a computation in `double`, or
also that of `float` if some header brings in the overloads of `std`. -/
def normalizeAngle2Pi (dbl : Bool) (angle : Flt) : Flt :=
  if dbl then narrow (wide angle - wide k2pif * floor (wide (angle / k2pif))) else angle - k2pif * floor (angle / k2pif)

/-- `insideAngleInterval(x, y, pBeg, pEnd)`, base_geometry2.cpp:46-62. -/
def insideCone (x y : Flt) (pBeg pEnd : V2f) : Bool :=
  let scalarE := -pEnd.1 * y + pEnd.2 * x
  let scalarB := pBeg.1 * y - pBeg.2 * x
  if pBeg.1 * pEnd.2 - pEnd.1 * pBeg.2 < lit _ 0 0 then
    !(decide (lit _ 0 0 < -scalarE) && decide (lit _ 0 0 < -scalarB))
  else
    decide (lit _ 0 0 < scalarE) && decide (lit _ 0 0 < scalarB)

/-- `insideAngleInterval(angle, intervBeg, intervEnd)`, base_geometry2.cpp:64-70. -/
def insideAngleInterval (dbl : Bool) (angle intervBeg intervEnd : Flt) : Bool :=
  decide (normalizeAngle2Pi dbl (angle - intervBeg) < normalizeAngle2Pi dbl (intervEnd - intervBeg))

/-- `insideAngleIntervalEq`, base_geometry2.cpp:72-74. -/
def insideAngleIntervalEq (dbl : Bool) (angle intervBeg intervEnd : Flt) : Bool :=
  decide (normalizeAngle2Pi dbl (angle - intervBeg) ≤ normalizeAngle2Pi dbl (intervEnd - intervBeg))

/-- `ccw`, base_geometry2.cpp:76-78. -/
def ccw (p1 p2 p3 : V2f) : Flt := (p2.1 - p1.1) * (p3.2 - p1.2) - (p2.2 - p1.2) * (p3.1 - p1.1)

end Verif.Geometry2Fp
