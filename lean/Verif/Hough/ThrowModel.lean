import Verif.Hough.Line
import Verif.Grid.ThrowModel

/-!
Model of what is left of a Hough detector (/repo/geometry/src/hough_line_detector.cpp, /repo/geometry/src/hough_plane_detector.cpp) when its initialisation throws. The sizes and the
parameters are set first, then three storages are enlarged one after the other; an exception of the first, second or third one leaves the following members as they were. `okT`, `okS` and
`okN` tell which numbers of elements can be allocated for the transform, the spectrum and the normals.
-/
namespace Verif.Hough
open Verif Functions

variable {K : Type} [Field K] [LinearOrder K] [FloorRing K]

/-- `init(isize, paramMin, paramRes)`, hough_line_detector.cpp:52-71: the detector after the call, and whether an exception was thrown. -/
def Line.tryInit (L : Libm K) (okT okS okN : Nat → Bool) (d : Line K) (thetaNum rhoNum : Int) (thetaMin rhoMin thetaRes rhoRes : K) : Outcome (Line K × Bool) := do
  let d := { d with thetaNum := thetaNum, rhoNum := rhoNum, thetaMin := thetaMin, rhoMin := rhoMin, thetaRes := thetaRes, rhoRes := rhoRes }
  let (t, thrown) ← Grid.tryInit okT 0 d.transform (.dims [thetaNum, rhoNum])
  let d := { d with transform := t }
  if thrown then return (d, true)
  match Grid.tryResize okS 0 d.spectrum (Cxx.toSize thetaNum) with
  | none => return (d, true)
  | some s =>
    let d := { d with spectrum := s }
    match Grid.tryResize okN (0, 0) d.lut (Cxx.toSize thetaNum) with
    | none => return (d, true)
    | some l =>
      let l ← forN thetaNum (fun itheta l => Vec.set l itheta (L.cos (thetaRes * itheta + thetaMin), L.sin (thetaRes * itheta + thetaMin))) l
      return ({ d with transform := Grid.fill t 0, spectrum := fillVec s, lut := l }, false)

/-- `init(isize, paramMin, paramRes)`, hough_plane_detector.cpp:59-87: the detector after the call, and whether an exception was thrown. -/
def Plane.tryInit (L : Libm K) (okT okS okN : Nat → Bool) (d : Plane K) (thetaNum phiNum rhoNum : Int) (thetaMin phiMin rhoMin thetaRes phiRes rhoRes : K) :
    Outcome (Plane K × Bool) := do
  let d := { d with
    thetaNum := thetaNum, phiNum := phiNum, rhoNum := rhoNum, thetaMin := thetaMin, phiMin := phiMin, rhoMin := rhoMin, thetaRes := thetaRes, phiRes := phiRes, rhoRes := rhoRes }
  let (t, thrown) ← Grid.tryInit okT 0 d.transform (.dims [thetaNum, phiNum, rhoNum])
  let d := { d with transform := t }
  if thrown then return (d, true)
  let (s, thrown) ← Grid.tryInit okS 0 d.spectrum (.dims [thetaNum, phiNum])
  let d := { d with spectrum := s }
  if thrown then return (d, true)
  let (l, thrown) ← Grid.tryInit okN (0, 0, 0) d.lut (.dims [thetaNum, phiNum])
  let d := { d with lut := l }
  if thrown then return (d, true)
  let l ← forN thetaNum (fun itheta l => forN phiNum (fun iphi l =>
    Grid.write l [itheta, iphi] (normal L thetaMin phiMin thetaRes phiRes itheta iphi)) l) l
  return ({ d with transform := Grid.fill t 0, spectrum := Grid.fill s 0, lut := l }, false)

end Verif.Hough
