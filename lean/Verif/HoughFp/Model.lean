import Verif.Hough.Model
import Verif.TlsFp.Model

/-!
Model of the votes and of the plane parameters of /repo/geometry/src/hough_plane_detector.cpp in the arithmetic of `float` (`rofl::Scalar`, types.h:39). The grids,
the counters and the loops are those of the model with exact scalars.
-/
namespace Verif.HoughFp
open Verif Hough Ieee Fp Float.Model

/-- The truncation of a finite number. -/
def toInt? {spec : Format} (a : Fp spec) : Option ℤ :=
  match a.x with
  | .finite s m e _ => some (s.apply (if 0 ≤ e then m * 2 ^ e.toNat else m / 2 ^ (-e).toNat : ℕ))
  | .zero _ => some 0
  | _ => none

/-- `(int) x`, hough_plane_detector.cpp:215: undefined for NaN, for an infinity and when the truncated value is not an `int`. -/
def castInt (x : Flt) : Outcome Int :=
  match toInt? x with
  | none => .error (.ub .overflow)
  | some n => Cxx.int n

/-- The projection of a point, hough_plane_detector.cpp:213. -/
def project (n p : V3 Flt) : Flt := n.1 * p.1 + n.2.1 * p.2.1 + n.2.2 * p.2.2

/-- The index of a point along rho, hough_plane_detector.cpp:213-215. -/
def index (rhoMin rhoRes : Flt) (n p : V3 Flt) : Outcome Int := castInt ((project n p - rhoMin) / rhoRes)

/-- The loop over the points, hough_plane_detector.cpp:212-220. -/
def voteAll (rhoMin rhoRes : Flt) (rhoNum itheta iphi : Int) (n : V3 Flt) (points : List (V3 Flt)) (t : Grid.Grid Nat) : Outcome (Grid.Grid Nat) :=
  points.foldlM (fun t p => do
    let irho ← index rhoMin rhoRes n p
    vote rhoNum itheta iphi irho t) t

/-- `insert(points)`, hough_plane_detector.cpp:198-236. -/
def insert (d : Plane Flt) (points : List (V3 Flt)) : Outcome (Plane Flt) := do
  let phiNotify ← Cxx.idiv d.phiNum 8
  let t ← forN d.thetaNum (fun itheta t => forN d.phiNum (fun iphi t => do
    let _ ← Cxx.imod iphi phiNotify
    let n ← Grid.read d.lut [itheta, iphi]
    voteAll d.rhoMin d.rhoRes d.rhoNum itheta iphi n points t) t) d.transform
  let s ← forN d.thetaNum (fun itheta s => forN d.phiNum (fun iphi s => do
    let e ← energy t d.rhoNum itheta iphi
    Grid.write s [itheta, iphi] e) s) d.spectrum
  return { d with transform := t, spectrum := s }

/-- `getPlaneParam(indices)`, hough_plane_detector.cpp:161-169: the normal and the last parameter; `irho` is converted to `float`. -/
def getPlaneParam (d : Plane Flt) (itheta iphi irho : Int) : Outcome (V3 Flt × Flt) := do
  Cxx.assert (0 ≤ itheta ∧ itheta < d.thetaNum)
  Cxx.assert (0 ≤ iphi ∧ iphi < d.phiNum)
  Cxx.assert (0 ≤ irho ∧ irho < d.rhoNum)
  let n ← d.getNormal itheta iphi
  return (n, -(d.rhoRes * TlsFp.ofInt .binary32 irho + d.rhoMin))

end Verif.HoughFp
