import Verif.HoughFp.InitModel
import Verif.Hough.Line

/-!
Model of the initialisation and of the normals and angles reported by the line detector, /repo/geometry/src/hough_line_detector.cpp:43-71, 153-168, in floating point: the members are
of type `float` (`rofl::Scalar`, types.h:39), `M_PI` of type `double`. The trigonometric functions are parameters; which of the overloads is called is left open, as in the model of
gis.cpp.
-/
namespace Verif.HoughFp
open Verif Hough Ieee Fp Float.Model FunctionsFp GisFp

/-- The vector of an angle stored in vectors of `float`, hough_line_detector.cpp:69, 166. -/
def unitf (T : Trig) (theta : Flt) : Flt × Flt :=
  if T.dbl then (narrow (T.cos (wide theta)), narrow (T.sin (wide theta))) else (T.cosf theta, T.sinf theta)

/-- `init(isize, paramMin, paramRes)`, hough_line_detector.cpp:52-71; `maxSize` is the longest vector. -/
def lineInit (T : Trig) (maxSize : Nat) (d : Line Flt) (thetaNum rhoNum : Int) (thetaMin rhoMin thetaRes rhoRes : Flt) : Outcome (Line Flt) := do
  let t ← Grid.initDims maxSize 0 d.transform [thetaNum, rhoNum]
  let s ← Grid.resize maxSize 0 d.spectrum (Cxx.toSize thetaNum)
  let l ← Grid.resize maxSize (0, 0) d.lut (Cxx.toSize thetaNum)
  let l ← forN thetaNum (fun itheta l => Vec.set l itheta (unitf T (thetaRes * TlsFp.ofInt .binary32 itheta + thetaMin))) l
  return { d with
    transform := Grid.fill t 0, spectrum := fillVec s, lut := l, thetaNum := thetaNum, rhoNum := rhoNum, thetaMin := thetaMin, rhoMin := rhoMin,
    thetaRes := thetaRes, rhoRes := rhoRes }

/-- `init(thetaNum, rhoNum, rhoRes)`, hough_line_detector.cpp:43-50: the angle is divided in `double` and stored in `float`. -/
def lineInitSizes (T : Trig) (maxSize : Nat) (d : Line Flt) (thetaNum rhoNum : Int) (rhoRes : Flt) : Outcome (Line Flt) :=
  lineInit T maxSize d thetaNum rhoNum (narrow (FunctionsFp.d 0 1)) (narrow (FunctionsFp.d 0 1)) (narrow (mPi / TlsFp.ofInt .binary64 thetaNum)) rhoRes

/-- `findSpectrumAngleMax`, hough_line_detector.cpp:153-159. -/
def findSpectrumAngleMax (d : Line Flt) (angleMaxima : List Flt) : Outcome (List Flt) := do
  let hs ← d.findSpectrumMax
  return angleMaxima ++ hs.map fun is => d.thetaMin + d.thetaRes * TlsFp.ofInt .binary32 (is.getD 0 0)

/-- `findNormalMax`, hough_line_detector.cpp:161-168. -/
def findNormalMax (T : Trig) (d : Line Flt) (normals : List (Flt × Flt)) : Outcome (List (Flt × Flt)) := do
  let hs ← d.findSpectrumMax
  return normals ++ hs.map fun is => unitf T (d.thetaMin + d.thetaRes * TlsFp.ofInt .binary32 (is.getD 0 0))

/-- Default constructor, hough_line_detector.cpp:22-31. -/
def Line.newf : Line Flt := ⟨Grid.new 0 2, Vec.empty 0, Vec.empty (0, 0), 0, 0, 0, 0, 0, 0, 1, 1⟩

end Verif.HoughFp
