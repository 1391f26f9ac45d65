import Verif.HoughFp.Model
import Verif.GisFp.Model

/-!
Model of the initialisation of the plane detector, /repo/geometry/src/hough_plane_detector.cpp:37-87, in floating point: the members are of type `float`
(`rofl::Scalar`, types.h:39), the literals and `M_PI` of type `double`. The trigonometric functions are parameters; which of the overloads is called is left
open, as in the model of gis.cpp.
-/
namespace Verif.HoughFp
open Verif Hough Ieee Fp Float.Model FunctionsFp GisFp

/-- The normal of a cell, hough_plane_detector.cpp:79-84; `ct` and `st` are stored in a `float`. -/
def normal (T : Trig) (thetaMin phiMin thetaRes phiRes : Flt) (itheta iphi : Int) : V3 Flt :=
  let theta := thetaRes * TlsFp.ofInt .binary32 itheta + thetaMin
  let phi := phiRes * TlsFp.ofInt .binary32 iphi + phiMin
  if T.dbl then
    let ct : Flt := narrow (T.cos (wide theta))
    let st : Flt := narrow (T.sin (wide theta))
    (narrow (wide ct * T.cos (wide phi)), narrow (wide ct * T.sin (wide phi)), st)
  else (T.cosf theta * T.cosf phi, T.cosf theta * T.sinf phi, T.sinf theta)

/-- `init(isize, paramMin, paramRes)`, hough_plane_detector.cpp:59-87; `maxSize` is the longest vector. -/
def init (T : Trig) (maxSize : Nat) (d : Plane Flt) (thetaNum phiNum rhoNum : Int) (thetaMin phiMin rhoMin thetaRes phiRes rhoRes : Flt) : Outcome (Plane Flt) := do
  let t ← Grid.initDims maxSize 0 d.transform [thetaNum, phiNum, rhoNum]
  let s ← Grid.initDims maxSize 0 d.spectrum [thetaNum, phiNum]
  let l ← Grid.initDims maxSize (0, 0, 0) d.lut [thetaNum, phiNum]
  let l ← forN thetaNum (fun itheta l => forN phiNum (fun iphi l =>
    Grid.write l [itheta, iphi] (normal T thetaMin phiMin thetaRes phiRes itheta iphi)) l) l
  return { d with
    transform := Grid.fill t 0, spectrum := Grid.fill s 0, lut := l, thetaNum := thetaNum, phiNum := phiNum, rhoNum := rhoNum,
    thetaMin := thetaMin, phiMin := phiMin, rhoMin := rhoMin, thetaRes := thetaRes, phiRes := phiRes, rhoRes := rhoRes }

/-- `init(thetaNum, phiNum, rhoNum, rhoRes)`, hough_plane_detector.cpp:48-57: the angles are divided in `double` and stored in `float`; the halved number of cells is converted to `float`. -/
def initSizes (T : Trig) (maxSize : Nat) (d : Plane Flt) (thetaNum phiNum rhoNum : Int) (rhoRes : Flt) : Outcome (Plane Flt) :=
  init T maxSize d thetaNum phiNum rhoNum (narrow (FunctionsFp.d 0 1)) (narrow (FunctionsFp.d 0 1)) (TlsFp.ofInt .binary32 (-(rhoNum.tdiv 2)) * rhoRes)
    (narrow (FunctionsFp.d 5 1 * mPi / TlsFp.ofInt .binary64 thetaNum)) (narrow (FunctionsFp.d 20 1 * mPi / TlsFp.ofInt .binary64 phiNum)) rhoRes

/-- Default constructor, hough_plane_detector.cpp:22-35. -/
def Plane.new : Plane Flt := ⟨Grid.new 0 3, Grid.new 0 2, Grid.new (0, 0, 0) 2, 0, 0, 0, 0, 0, 0, 0, 0, 0, 1, 1, 1⟩

end Verif.HoughFp
