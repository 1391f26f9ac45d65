import Verif.PlaneAligner.Model
import Verif.Ieee.Cast
import Verif.Ieee.Sqrt

/-!
Model of `rofl::PointCloudPlaneAligner`, pcl/include/rofl/pcl/point_cloud_plane_aligner.h, in `float` arithmetic (`Scalar` is `float`, geometry/types.h:39).

Simplifications as in Verif/PlaneAligner/Model.lean, except that every operation is rounded (no fused operations). Eigen and PCL: a sum of three terms is made in one of the two orders of `sum3`;
the order at each place of the code is a parameter (`o`). `inverse` of a 3 × 3 matrix: determinant from the cofactors of the first column, reciprocal of the determinant, products with the
cofactors (Eigen/src/LU/InverseImpl.h).
-/
namespace Verif.PlaneAligner
open Verif Ieee Ieee.Fp Float.Model

/-- The sum of three terms, `a + (b + c)` or `(a + b) + c`, point_cloud_plane_aligner.h:113, 128, 149, 156. -/
def sum3 (assocRight : Bool) (a b c : Flt) : Flt := if assocRight then a + (b + c) else a + b + c

namespace V3

/-- `dot`, point_cloud_plane_aligner.h:128, 149. -/
def dotF (o : Bool) (a b : V3 Flt) : Flt := sum3 o (a.x * b.x) (a.y * b.y) (a.z * b.z)
/-- Sum of vectors, point_cloud_plane_aligner.h:142-144, 155. -/
def addF (a b : V3 Flt) : V3 Flt := ⟨a.x + b.x, a.y + b.y, a.z + b.z⟩
/-- Difference of vectors, point_cloud_plane_aligner.h:128, 149. -/
def subF (a b : V3 Flt) : V3 Flt := ⟨a.x - b.x, a.y - b.y, a.z - b.z⟩
/-- Product by a scalar, point_cloud_plane_aligner.h:128, 149, 156. -/
def smulF (k : Flt) (a : V3 Flt) : V3 Flt := ⟨k * a.x, k * a.y, k * a.z⟩
/-- Division by a scalar, point_cloud_plane_aligner.h:113, 129, 149. -/
def sdivF (a : V3 Flt) (k : Flt) : V3 Flt := ⟨a.x / k, a.y / k, a.z / k⟩
/-- The opposite, point_cloud_plane_aligner.h:79, 155. -/
def negF (a : V3 Flt) : V3 Flt := ⟨-a.x, -a.y, -a.z⟩
/-- `cross`, point_cloud_plane_aligner.h:130, and the cofactors, line 156. -/
def crossF (a b : V3 Flt) : V3 Flt := ⟨a.y * b.z - a.z * b.y, a.z * b.x - a.x * b.z, a.x * b.y - a.y * b.x⟩

/-- `normalize()`, point_cloud_plane_aligner.h:113, 129. -/
def normalizeF (o : Bool) (a : V3 Flt) : V3 Flt := if 0 < dotF o a a then sdivF a (Fp.sqrt (dotF o a a)) else a

/-- `cwiseAbs().maxCoeff(&idxMax)`, point_cloud_plane_aligner.h:114. -/
def maxIdxF (a : V3 Flt) : Nat :=
  if a.x.abs < a.y.abs then if a.y.abs < a.z.abs then 2 else 1 else if a.x.abs < a.z.abs then 2 else 0

end V3

open V3

/-- The choice of the axis x, point_cloud_plane_aligner.h:118-126. -/
def axisXF (idxMax : Nat) : V3 Flt := match idxMax with
  | 0 => ⟨0, 0, (1 : ℕ)⟩
  | 1 => ⟨0, 0, (1 : ℕ)⟩
  | _ => ⟨(1 : ℕ), 0, 0⟩

/-- The axes, point_cloud_plane_aligner.h:112-131. -/
def axesF (o : Nat → Bool) (normal : V3 Flt) : V3 Flt × V3 Flt × V3 Flt :=
  let az := normalizeF (o 0) normal
  let ax := axisXF (maxIdxF az)
  let ax := normalizeF (o 1) (subF ax (smulF (dotF (o 2) ax az) az))
  (ax, crossF az ax, az)

/-- `Rot.inverse()` for the matrix of columns `a`, `b`, `c`: its rows, point_cloud_plane_aligner.h:156. -/
def inverse3F (o : Nat → Bool) (a b c : V3 Flt) : V3 Flt × V3 Flt × V3 Flt :=
  let c0 := crossF b c
  let det := dotF (o 3) c0 a
  let invdet := ((1 : ℕ) : Flt) / det
  (smulF invdet c0, smulF invdet (crossF c a), smulF invdet (crossF a b))

/-- `Transform3::Identity()`, point_cloud_plane_aligner.h:154. -/
def idF : T3 Flt := ⟨⟨(1 : ℕ), 0, 0⟩, ⟨0, (1 : ℕ), 0⟩, ⟨0, 0, (1 : ℕ)⟩, ⟨0, 0, 0⟩⟩

/-- `pretranslate(v)`, point_cloud_plane_aligner.h:155. -/
def pretranslateF (v : V3 Flt) (T : T3 Flt) : T3 Flt := { T with t := addF T.t v }

/-- A row of the product with the linear part, point_cloud_plane_aligner.h:156. -/
def rowF (o : Bool) (r : V3 Flt) (T : T3 Flt) : V3 Flt :=
  ⟨sum3 o (r.x * T.r0.x) (r.y * T.r1.x) (r.z * T.r2.x), sum3 o (r.x * T.r0.y) (r.y * T.r1.y) (r.z * T.r2.y), sum3 o (r.x * T.r0.z) (r.y * T.r1.z) (r.z * T.r2.z)⟩

/-- `prerotate(R)` for the matrix of rows `a`, `b`, `c`, point_cloud_plane_aligner.h:156. -/
def prerotateF (o : Bool) (a b c : V3 Flt) (T : T3 Flt) : T3 Flt :=
  ⟨rowF o a T, rowF o b T, rowF o c T, ⟨dotF o a T.t, dotF o b T.t, dotF o c T.t⟩⟩

/-- Attributes, point_cloud_plane_aligner.h:163-168. -/
structure AlignerF where
  cloud : Option (List (V3 Flt))
  normal : V3 Flt
  const : Flt
  transform : T3 Flt
  planeTol : Flt

/-- `setPlaneCoeffs`, point_cloud_plane_aligner.h:75-81 (the comparison in `double` is exact). -/
def AlignerF.setPlaneCoeffs (s : AlignerF) (n : V3 Flt) (d : Flt) : AlignerF :=
  if 0 < d then { s with normal := n, const := d } else { s with normal := negF n, const := -d }

/-- The test of the inliers, point_cloud_plane_aligner.h:140-141. -/
def AlignerF.isInlier (s : AlignerF) (p : V3 Flt) : Bool :=
  decide ((p.x * s.normal.x + p.y * s.normal.y + p.z * s.normal.z + s.const).abs < s.planeTol)

/-- The loop on the points, point_cloud_plane_aligner.h:139-147: sum and number of the inliers. -/
def inliersF (s : AlignerF) (points : List (V3 Flt)) : V3 Flt × Nat :=
  points.foldl (fun acc p => if s.isInlier p then (addF acc.1 p, acc.2 + 1) else acc) (⟨0, 0, 0⟩, 0)

/-- `centerPlane`, point_cloud_plane_aligner.h:148-150. -/
def centerF (o : Bool) (az sum : V3 Flt) (inlierNum : Nat) : V3 Flt :=
  if inlierNum > 0 then sdivF (subF sum (smulF (dotF o sum az) az)) (inlierNum : ℕ) else sum

/-- `compute`, point_cloud_plane_aligner.h:104-157; a null cloud is dereferenced at line 139. -/
def AlignerF.compute (o : Nat → Bool) (s : AlignerF) : Outcome AlignerF := do
  let (ax, ay, az) := axesF o s.normal
  match s.cloud with
  | none => .error (.ub .outOfBounds)
  | some points =>
    let (sum, inlierNum) := inliersF s points
    let c := centerF (o 5) az sum inlierNum
    let R := inverse3F o ax ay az
    return { s with transform := prerotateF (o 4) R.1 R.2.1 R.2.2 (pretranslateF (negF c) idF) }

end Verif.PlaneAligner
