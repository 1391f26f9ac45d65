import Verif.HoughFp.Model
import Verif.Hough.Line

/-!
Model of the windows given in the units of the parameters, /repo/geometry/src/hough_plane_detector.cpp:192-196 and hough_line_detector.cpp:125-128, in the
arithmetic of `float` (`rofl::Scalar`, types.h:39). The quotient is rounded to `float`; `ceil` is exact in `float` and in `double`, so that the overload is immaterial.
-/
namespace Verif.HoughFp
open Verif Hough Ieee Fp Float.Model

/-- `ceil` of a finite number, as an integer, hough_plane_detector.cpp:193-195. -/
def ceil? {spec : Format} (a : Fp spec) : Option ℤ :=
  match a.x with
  | .finite s m e _ =>
    if 0 ≤ e then some (s.apply (m * 2 ^ e.toNat : ℕ))
    else match s with
      | .positive => some (((m + 2 ^ (-e).toNat - 1) / 2 ^ (-e).toNat : ℕ) : ℤ)
      | .negative => some (-((m / 2 ^ (-e).toNat : ℕ) : ℤ))
  | .zero _ => some 0
  | _ => none

/-- `(int) ceil(x)`, hough_plane_detector.cpp:193-195, hough_line_detector.cpp:126-127: undefined for NaN, for an infinity and when the value is not an `int`. -/
def castCeil (x : Flt) : Outcome Int :=
  match ceil? x with
  | none => .error (.ub .overflow)
  | some n => Cxx.int n

/-- `setPeakWindow(thetaWin, phiWin, rhoWin)`, hough_plane_detector.cpp:192-196. -/
def setPeakWindowPlane (d : Plane Flt) (thetaWin phiWin rhoWin : Flt) : Outcome (Plane Flt) := do
  let t ← castCeil (thetaWin / d.thetaRes)
  let p ← castCeil (phiWin / d.phiRes)
  let r ← castCeil (rhoWin / d.rhoRes)
  return { d with ithetaWin := t, iphiWin := p, irhoWin := r }

/-- `setPeakWindow(thetaWin, rhoWin)`, hough_line_detector.cpp:125-128. -/
def setPeakWindowLine (d : Line Flt) (thetaWin rhoWin : Flt) : Outcome (Line Flt) := do
  let t ← castCeil (thetaWin / d.thetaRes)
  let r ← castCeil (rhoWin / d.rhoRes)
  return { d with ithetaWin := t, irhoWin := r }

end Verif.HoughFp
