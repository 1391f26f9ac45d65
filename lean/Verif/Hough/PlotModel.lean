import Verif.Hough.Model

/-! Model of `plotPlane` of /repo/geometry/app/test_hough_plane_detector.cpp: the points near a plane and their centre. Scalars are an ordered field (exact arithmetic instead of `float`);
the coefficients, copied for the viewer, are left out. -/
namespace Verif.Hough
open Verif

variable {K : Type} [Field K] [LinearOrder K]

/-- The value whose absolute value is `dist`, test_hough_plane_detector.cpp:205. -/
def planeValue (params : V3 K × K) (p : V3 K) : K := p.1 * params.1.1 + p.2.1 * params.1.2.1 + p.2.2 * params.1.2.2 + params.2

/-- The body of the loop on the points, test_hough_plane_detector.cpp:204-212: the sums and the number of the near points. -/
def plotStep (params : V3 K × K) (distMax : K) (acc : V3 K × Int) (p : V3 K) : Outcome (V3 K × Int) :=
  if |planeValue params p| < distMax then do
    let n ← Cxx.int (acc.2 + 1)
    return ((acc.1.1 + p.1, acc.1.2.1 + p.2.1, acc.1.2.2 + p.2.2), n)
  else return acc

/-- `plotPlane`, test_hough_plane_detector.cpp:192-218: `(x, y, z)` and `n`. -/
def plotPlane (params : V3 K × K) (cloud : List (V3 K)) (distMax : K) : Outcome (V3 K × Int) := do
  let (s, n) ← cloud.foldlM (plotStep params distMax) ((0, 0, 0), 0)
  if n > 0 then return ((s.1 / n, s.2.1 / n, s.2.2 / n), n) else return (s, n)

end Verif.Hough
