import Verif.Grid.Model
import Verif.PeakFinder.Model
import Verif.Functions.Model

/-! Model of /repo/geometry/src/hough_plane_detector.cpp and of the template of
/repo/geometry/include/rofl/geometry/hough_plane_detector.h.

Scalars are an ordered field with floor (exact arithmetic instead of `float`); counters are `size_t`. A conversion of a floating point
value to `int` is undefined when the truncated value is not an `int`. The output and the timers of the profiler are left out (but not the
test for the output, which divides). -/
namespace Verif.Hough
open Verif Functions

variable {K : Type} [Field K] [LinearOrder K] [FloorRing K]

/-- `Vector3`, types.h:78. -/
abbrev V3 (K : Type) := K × K × K

/-- Arithmetic of `size_t`, hough_plane_detector.cpp:218, 231. -/
def wrap (n : Nat) : Nat := n % 18446744073709551616

/-- A floating point division, `none` for an infinity or NaN, hough_plane_detector.cpp:193-195, 215. -/
def fdiv (a b : K) : Option K := if b = 0 then none else some (a / b)

/-- Truncation towards zero, hough_plane_detector.cpp:215. -/
def trunc (x : K) : Int := if 0 ≤ x then ⌊x⌋ else ⌈x⌉

/-- `(int) x` for a floating point `x`, hough_plane_detector.cpp:215. -/
def castInt : Option K → Outcome Int
  | none => .error (.ub .overflow)
  | some x => Cxx.int (trunc x)

/-- `for (int i = 0; i < n; ++i) s = f(i, s);`, hough_plane_detector.cpp:78, 82, 204-205, 225-229. -/
def forN {σ : Type} (n : Int) (f : Int → σ → Outcome σ) (s : σ) : Outcome σ := (List.range n.toNat).foldlM (fun s (i : Nat) => f i s) s

/-- Members of `HoughPlaneDetector`, hough_plane_detector.h:314-328. -/
structure Plane (K : Type) where
  transform : Grid.Grid Nat
  spectrum : Grid.Grid Nat
  lut : Grid.Grid (V3 K)
  thetaNum : Int
  phiNum : Int
  rhoNum : Int
  thetaMin : K
  phiMin : K
  rhoMin : K
  thetaRes : K
  phiRes : K
  rhoRes : K
  ithetaWin : Int
  iphiWin : Int
  irhoWin : Int

/-- Default constructor, hough_plane_detector.cpp:22-35. -/
def Plane.new : Plane K :=
  ⟨Grid.new 0 3, Grid.new 0 2, Grid.new (0, 0, 0) 2, 0, 0, 0, 0, 0, 0, 0, 0, 0, 1, 1, 1⟩

/-- The normal of the cell, hough_plane_detector.cpp:79-84. -/
def normal (L : Libm K) (thetaMin phiMin thetaRes phiRes : K) (itheta iphi : Int) : V3 K :=
  let theta := thetaRes * itheta + thetaMin
  let phi := phiRes * iphi + phiMin
  (L.cos theta * L.cos phi, L.cos theta * L.sin phi, L.sin theta)

/-- `init(isize, paramMin, paramRes)`, hough_plane_detector.cpp:59-87; `maxSize` is the longest vector. -/
def Plane.init (L : Libm K) (maxSize : Nat) (d : Plane K) (thetaNum phiNum rhoNum : Int) (thetaMin phiMin rhoMin thetaRes phiRes rhoRes : K) :
    Outcome (Plane K) := do
  let t ← Grid.initDims maxSize 0 d.transform [thetaNum, phiNum, rhoNum]
  let s ← Grid.initDims maxSize 0 d.spectrum [thetaNum, phiNum]
  let l ← Grid.initDims maxSize (0, 0, 0) d.lut [thetaNum, phiNum]
  let l ← forN thetaNum (fun itheta l => forN phiNum (fun iphi l =>
    Grid.write l [itheta, iphi] (normal L thetaMin phiMin thetaRes phiRes itheta iphi)) l) l
  return { d with
    transform := Grid.fill t 0, spectrum := Grid.fill s 0, lut := l, thetaNum := thetaNum, phiNum := phiNum, rhoNum := rhoNum,
    thetaMin := thetaMin, phiMin := phiMin, rhoMin := rhoMin, thetaRes := thetaRes, phiRes := phiRes, rhoRes := rhoRes }

/-- `init(thetaNum, phiNum, rhoNum, rhoRes)`, hough_plane_detector.cpp:48-57. The resolutions of an empty range of angles, infinite in the code, are not
used. -/
def Plane.initSizes (L : Libm K) (maxSize : Nat) (d : Plane K) (thetaNum phiNum rhoNum : Int) (rhoRes : K) : Outcome (Plane K) :=
  d.init L maxSize thetaNum phiNum rhoNum 0 0 (-((rhoNum.tdiv 2 : Int) : K) * rhoRes) (1 / 2 * L.pi / thetaNum) (2 * L.pi / phiNum) rhoRes

/-- `getHoughTransform`, hough_plane_detector.cpp:125-137. -/
def Plane.getHoughTransform (d : Plane K) (itheta iphi irho : Int) : Outcome Nat := do
  Cxx.assert (0 ≤ itheta ∧ itheta < d.thetaNum)
  Cxx.assert (0 ≤ iphi ∧ iphi < d.phiNum)
  Cxx.assert (0 ≤ irho ∧ irho < d.rhoNum)
  Grid.read d.transform [itheta, iphi, irho]

/-- `getHoughSpectrum`, hough_plane_detector.cpp:139-149. -/
def Plane.getHoughSpectrum (d : Plane K) (itheta iphi : Int) : Outcome Nat := do
  Cxx.assert (0 ≤ itheta ∧ itheta < d.thetaNum)
  Cxx.assert (0 ≤ iphi ∧ iphi < d.phiNum)
  Grid.read d.spectrum [itheta, iphi]

/-- `getNormal`, hough_plane_detector.cpp:151-159. -/
def Plane.getNormal (d : Plane K) (itheta iphi : Int) : Outcome (V3 K) := do
  Cxx.assert (0 ≤ itheta ∧ itheta < d.thetaNum)
  Cxx.assert (0 ≤ iphi ∧ iphi < d.phiNum)
  Grid.read d.lut [itheta, iphi]

/-- `getPlaneParam(indices)`, hough_plane_detector.cpp:161-169: the normal and the last parameter. -/
def Plane.getPlaneParam (d : Plane K) (itheta iphi irho : Int) : Outcome (V3 K × K) := do
  Cxx.assert (0 ≤ itheta ∧ itheta < d.thetaNum)
  Cxx.assert (0 ≤ iphi ∧ iphi < d.phiNum)
  Cxx.assert (0 ≤ irho ∧ irho < d.rhoNum)
  let n ← d.getNormal itheta iphi
  return (n, -(d.rhoRes * irho + d.rhoMin))

/-- `getPlaneParam(itheta, iphi, irho)`, hough_plane_detector.cpp:171-179. -/
def Plane.getPlaneParam3 (d : Plane K) (itheta iphi irho : Int) : Outcome (V3 K × K) := do
  Cxx.assert (0 ≤ itheta ∧ itheta < d.thetaNum)
  Cxx.assert (0 ≤ iphi ∧ iphi < d.phiNum)
  Cxx.assert (0 ≤ irho ∧ irho < d.rhoNum)
  let n ← d.getNormal itheta iphi
  return (n, -(d.rhoRes * irho))

/-- `setZero`, hough_plane_detector.cpp:181-184. -/
def Plane.setZero (d : Plane K) : Plane K := { d with transform := Grid.fill d.transform 0, spectrum := Grid.fill d.spectrum 0 }

/-- `setPeakWindow(ithetaWin, iphiWin, irhoWin)`, hough_plane_detector.cpp:186-190. -/
def Plane.setPeakWindow (d : Plane K) (ithetaWin iphiWin irhoWin : Int) : Plane K :=
  { d with ithetaWin := ithetaWin, iphiWin := iphiWin, irhoWin := irhoWin }

/-- `(int) ceil(x)`, hough_plane_detector.cpp:193-195. -/
def castCeil : Option K → Outcome Int
  | none => .error (.ub .overflow)
  | some x => Cxx.int ⌈x⌉

/-- `setPeakWindow(thetaWin, phiWin, rhoWin)`, hough_plane_detector.cpp:192-196. -/
def Plane.setPeakWindowScalar (d : Plane K) (thetaWin phiWin rhoWin : K) : Outcome (Plane K) := do
  let t ← castCeil (fdiv thetaWin d.thetaRes)
  let p ← castCeil (fdiv phiWin d.phiRes)
  let r ← castCeil (fdiv rhoWin d.rhoRes)
  return { d with ithetaWin := t, iphiWin := p, irhoWin := r }

/-- The projection of a point, hough_plane_detector.cpp:213. -/
def project (n p : V3 K) : K := n.1 * p.1 + n.2.1 * p.2.1 + n.2.2 * p.2.2

/-- `houghTransform_.value(indicesAngle)++` if the index is valid, hough_plane_detector.cpp:216-219. -/
def vote (rhoNum itheta iphi irho : Int) (t : Grid.Grid Nat) : Outcome (Grid.Grid Nat) :=
  if 0 ≤ irho ∧ irho < rhoNum then do
    let v ← Grid.read t [itheta, iphi, irho]
    Grid.write t [itheta, iphi, irho] (wrap (v + 1))
  else .ok t

/-- The loop over the points, hough_plane_detector.cpp:212-220. -/
def voteAll (rhoMin rhoRes : K) (rhoNum itheta iphi : Int) (n : V3 K) (points : List (V3 K)) (t : Grid.Grid Nat) : Outcome (Grid.Grid Nat) :=
  points.foldlM (fun t p => do
    let irho ← castInt (fdiv (project n p - rhoMin) rhoRes)
    vote rhoNum itheta iphi irho t) t

/-- The loop over `irho` of the spectrum, hough_plane_detector.cpp:227-232. -/
def energy (t : Grid.Grid Nat) (rhoNum itheta iphi : Int) : Outcome Nat :=
  forN rhoNum (fun irho hs => do
    let v ← Grid.read t [itheta, iphi, irho]
    return wrap (hs + wrap (v * v))) 0

/-- `insert(points)`, hough_plane_detector.cpp:198-236. -/
def Plane.insert (d : Plane K) (points : List (V3 K)) : Outcome (Plane K) := do
  let phiNotify ← Cxx.idiv d.phiNum 8
  let t ← forN d.thetaNum (fun itheta t => forN d.phiNum (fun iphi t => do
    let _ ← Cxx.imod iphi phiNotify
    let n ← Grid.read d.lut [itheta, iphi]
    voteAll d.rhoMin d.rhoRes d.rhoNum itheta iphi n points t) t) d.transform
  let s ← forN d.thetaNum (fun itheta s => forN d.phiNum (fun iphi s => do
    let e ← energy t d.rhoNum itheta iphi
    Grid.write s [itheta, iphi] e) s) d.spectrum
  return { d with transform := t, spectrum := s }

/-- `insert(beg, end, converter)`, hough_plane_detector.h:352-373, for the converted points. -/
def Plane.insertRange (d : Plane K) (points : List (V3 K)) : Outcome (Plane K) := d.setZero.insert points

/-- `std::greater<Counter>`, hough_plane_detector.cpp:239, 262, 294. -/
def greater (a b : Nat) : Bool := decide (b < a)

/-- The values of a grid as the map of a peak finder (which only evaluates cells of the domain), hough_plane_detector.cpp:243-245, 270-272, 312-314. -/
def valueOf (g : Grid.Grid Nat) (is : List Int) : Nat := match Grid.read g is with
  | .ok v => v
  | .error _ => 0

/-- A peak finder with the given domain and window, hough_plane_detector.cpp:242-247, 267-269, 306-309. -/
def finder (size win : List Int) : PeakFinder.Finder Nat :=
  ((PeakFinder.Finder.new size.length 0 greater).setDomainSize size).setPeakWindow win

/-- `findSpectrumMax`, hough_plane_detector.cpp:238-249: the cells appended to `hsMaxima`. -/
def Plane.findSpectrumMax (d : Plane K) : Outcome (List (List Int)) :=
  PeakFinder.detect (finder [d.thetaNum, d.phiNum] [d.ithetaWin, d.iphiWin]) (valueOf d.spectrum)

/-- `findNormalMax`, hough_plane_detector.cpp:251-259. -/
def Plane.findNormalMax (d : Plane K) : Outcome (List (V3 K)) := do
  let hs ← d.findSpectrumMax
  hs.mapM fun h => Grid.read d.lut h

/-- `findParallelPlanes(itheta, iphi, indicesMaxima)`, hough_plane_detector.cpp:261-281, and the search for a normal, lines 311-321; the search evaluates all the
cells of the normal. -/
def Plane.findRho (d : Plane K) (itheta iphi : Int) : Outcome (List (List Int)) := do
  forN d.rhoNum (fun irho _ => do
    let _ ← Grid.read d.transform [itheta, iphi, irho]
    return ()) ()
  let r ← PeakFinder.detect (finder [d.rhoNum] [d.irhoWin]) (fun is => valueOf d.transform (itheta :: iphi :: is))
  return r.map fun is => itheta :: iphi :: is

/-- `getPlaneParam(indices)` for an array of indices, hough_plane_detector.cpp:161-169. -/
def Plane.param (d : Plane K) (is : List Int) : Outcome (V3 K × K) := d.getPlaneParam (is.getD 0 0) (is.getD 1 0) (is.getD 2 0)

/-- `findParallelPlanes(itheta, iphi, planeParams)`, hough_plane_detector.cpp:283-291. -/
def Plane.findParallelPlanes (d : Plane K) (itheta iphi : Int) : Outcome (List (V3 K × K)) := do
  let r ← d.findRho itheta iphi
  r.mapM d.param

/-- The evaluation of the cells compared by the sort, hough_plane_detector.cpp:298; one cell is not compared. -/
def checkCells (g : Grid.Grid Nat) (l : List (List Int)) : Outcome Unit :=
  if l.length < 2 then .ok () else l.forM fun is => do
    let _ ← Grid.read g is
    return ()

/-- `findPlanes(hypotheses)`, hough_plane_detector.cpp:293-325; `srt` is `std::sort`, `hyp` the previous content of `hypotheses`. -/
def Plane.findPlanes (srt : (List Int → List Int → Bool) → List (List Int) → List (List Int)) (d : Plane K) (hyp : List (List Int)) :
    Outcome (List (List Int)) := do
  let hs ← d.findSpectrumMax
  let rs ← hs.mapM fun h => d.findRho (h.getD 0 0) (h.getD 1 0)
  checkCells d.transform (hyp ++ rs.flatten)
  return srt (fun a b => greater (valueOf d.transform a) (valueOf d.transform b)) (hyp ++ rs.flatten)

/-- `findPlanes(planeParams)`, hough_plane_detector.cpp:327-335. -/
def Plane.findPlaneParams (srt : (List Int → List Int → Bool) → List (List Int) → List (List Int)) (d : Plane K) : Outcome (List (V3 K × K)) := do
  let hyp ← d.findPlanes srt []
  hyp.mapM d.param

end Verif.Hough
