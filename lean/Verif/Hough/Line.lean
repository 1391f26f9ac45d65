import Verif.Hough.Model

/-! Model of /repo/geometry/src/hough_line_detector.cpp. The insertion through iterators and `findLines(linesParams)` of
/repo/geometry/include/rofl/geometry/hough_line_detector.h:175-176, 219 are declared but defined nowhere. Scalars as in `Verif.Hough.Model`. -/
namespace Verif.Hough
open Verif Functions

variable {K : Type} [Field K] [LinearOrder K] [FloorRing K]

/-- Members of `HoughLineDetector`, hough_line_detector.h:222-232. -/
structure Line (K : Type) where
  transform : Grid.Grid Nat
  spectrum : Vec Nat
  lut : Vec (K × K)
  thetaNum : Int
  rhoNum : Int
  thetaMin : K
  rhoMin : K
  thetaRes : K
  rhoRes : K
  ithetaWin : Int
  irhoWin : Int

/-- Default constructor, hough_line_detector.cpp:22-31. -/
def Line.new : Line K := ⟨Grid.new 0 2, Vec.empty 0, Vec.empty (0, 0), 0, 0, 0, 0, 0, 0, 1, 1⟩

/-- `std::fill(begin, end, 0)`, hough_line_detector.cpp:66, 117. -/
def fillVec (v : Vec Nat) : Vec Nat := ⟨v.len, fun i => if i < v.len then 0 else v.val i⟩

/-- `init(isize, paramMin, paramRes)`, hough_line_detector.cpp:52-71. -/
def Line.init (L : Libm K) (maxSize : Nat) (d : Line K) (thetaNum rhoNum : Int) (thetaMin rhoMin thetaRes rhoRes : K) : Outcome (Line K) := do
  let t ← Grid.initDims maxSize 0 d.transform [thetaNum, rhoNum]
  let s ← Grid.resize maxSize 0 d.spectrum (Cxx.toSize thetaNum)
  let l ← Grid.resize maxSize (0, 0) d.lut (Cxx.toSize thetaNum)
  let l ← forN thetaNum (fun itheta l => Vec.set l itheta (L.cos (thetaRes * itheta + thetaMin), L.sin (thetaRes * itheta + thetaMin))) l
  return { d with
    transform := Grid.fill t 0, spectrum := fillVec s, lut := l, thetaNum := thetaNum, rhoNum := rhoNum, thetaMin := thetaMin, rhoMin := rhoMin,
    thetaRes := thetaRes, rhoRes := rhoRes }

/-- `init(thetaNum, rhoNum, rhoRes)`, hough_line_detector.cpp:43-50. -/
def Line.initSizes (L : Libm K) (maxSize : Nat) (d : Line K) (thetaNum rhoNum : Int) (rhoRes : K) : Outcome (Line K) :=
  d.init L maxSize thetaNum rhoNum 0 0 (L.pi / thetaNum) rhoRes

/-- `getHoughTransform`, hough_line_detector.cpp:97-108. -/
def Line.getHoughTransform (d : Line K) (itheta irho : Int) : Outcome Nat := do
  Cxx.assert (0 ≤ itheta ∧ itheta < d.thetaNum)
  Cxx.assert (0 ≤ irho ∧ irho < d.rhoNum)
  Grid.read d.transform [itheta, irho]

/-- `getHoughSpectrum`, hough_line_detector.cpp:110-113. -/
def Line.getHoughSpectrum (d : Line K) (itheta : Int) : Outcome Nat := do
  Cxx.assert (0 ≤ itheta ∧ itheta < d.thetaNum)
  d.spectrum.get itheta

/-- `setZero`, hough_line_detector.cpp:115-118. -/
def Line.setZero (d : Line K) : Line K := { d with transform := Grid.fill d.transform 0, spectrum := fillVec d.spectrum }

/-- `setPeakWindow(ithetaWin, irhoWin)`, hough_line_detector.cpp:120-123. -/
def Line.setPeakWindow (d : Line K) (ithetaWin irhoWin : Int) : Line K := { d with ithetaWin := ithetaWin, irhoWin := irhoWin }

/-- `setPeakWindow(thetaWin, rhoWin)`, hough_line_detector.cpp:125-128. -/
def Line.setPeakWindowScalar (d : Line K) (thetaWin rhoWin : K) : Outcome (Line K) := do
  let t ← castCeil (fdiv thetaWin d.thetaRes)
  let r ← castCeil (fdiv rhoWin d.rhoRes)
  return { d with ithetaWin := t, irhoWin := r }

/-- `insert(points)`, hough_line_detector.cpp:130-132. -/
def Line.insert (d : Line K) (_points : List (K × K)) : Line K := d

/-- The values of a vector as the map of a peak finder (which only evaluates valid indices), hough_line_detector.cpp:137-139. -/
def valueVec (v : Vec Nat) (is : List Int) : Nat := v.val (is.getD 0 0).toNat

/-- `findSpectrumIndicesMax`, hough_line_detector.cpp:134-143: the elements appended to `indicesMaxima`; the search evaluates all the cells. -/
def Line.findSpectrumMax (d : Line K) : Outcome (List (List Int)) := do
  forN d.thetaNum (fun itheta _ => do
    let _ ← d.spectrum.get itheta
    return ()) ()
  PeakFinder.detect (finder [d.thetaNum] [d.ithetaWin]) (valueVec d.spectrum)

/-- `findSpectrumIndexMax`, hough_line_detector.cpp:145-151; `indexMaxima` is the previous content. -/
def Line.findSpectrumIndexMax (d : Line K) (indexMaxima : List Int) : Outcome (List Int) := do
  let hs ← d.findSpectrumMax
  return indexMaxima ++ hs.map fun is => is.getD 0 0

/-- `findSpectrumAngleMax`, hough_line_detector.cpp:153-159. -/
def Line.findSpectrumAngleMax (d : Line K) (angleMaxima : List K) : Outcome (List K) := do
  let hs ← d.findSpectrumMax
  return angleMaxima ++ hs.map fun is => d.thetaMin + d.thetaRes * (is.getD 0 0 : Int)

/-- `findNormalMax`, hough_line_detector.cpp:161-168. -/
def Line.findNormalMax (L : Libm K) (d : Line K) (normals : List (K × K)) : Outcome (List (K × K)) := do
  let hs ← d.findSpectrumMax
  return normals ++ hs.map fun is =>
    let theta := d.thetaMin + d.thetaRes * (is.getD 0 0 : Int)
    (L.cos theta, L.sin theta)

/-- The search of the best rho for a normal, hough_line_detector.cpp:181-190; it evaluates all the cells of the normal. -/
def Line.findRho (d : Line K) (itheta : Int) : Outcome (List (List Int)) := do
  forN d.rhoNum (fun irho _ => do
    let _ ← Grid.read d.transform [itheta, irho]
    return ()) ()
  let r ← PeakFinder.detect (finder [d.rhoNum] [d.irhoWin]) (fun is => valueOf d.transform (itheta :: is))
  return r.map fun is => itheta :: is

/-- `findLines(linesIndices)`, hough_line_detector.cpp:170-192; `lines` is the previous content. -/
def Line.findLines (d : Line K) (lines : List (List Int)) : Outcome (List (List Int)) := do
  let hs ← d.findSpectrumMax
  let rs ← hs.mapM fun h => d.findRho (h.getD 0 0)
  return lines ++ rs.flatten

/-- Calls of the public interface that change a detector, hough_line_detector.h:47-156. -/
inductive LineOp (K : Type)
  | init (thetaNum rhoNum : Int) (thetaMin rhoMin thetaRes rhoRes : K)
  | setZero
  | setPeakWindow (ithetaWin irhoWin : Int)
  | setPeakWindowScalar (thetaWin rhoWin : K)
  | insert (points : List (K × K))

/-- One call, hough_line_detector.h:47-156. -/
def Line.step (L : Libm K) (maxSize : Nat) (d : Line K) : LineOp K → Outcome (Line K)
  | .init a b c e f g => d.init L maxSize a b c e f g
  | .setZero => .ok d.setZero
  | .setPeakWindow a b => .ok (d.setPeakWindow a b)
  | .setPeakWindowScalar a b => d.setPeakWindowScalar a b
  | .insert ps => .ok (d.insert ps)

end Verif.Hough
