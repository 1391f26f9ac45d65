import Verif.Cxx.Basic
import Mathlib.Algebra.Field.Defs
import Mathlib.Algebra.Order.Group.Unbundled.Abs

/-!
Model of `rofl::PointCloudPlaneAligner`, pcl/include/rofl/pcl/point_cloud_plane_aligner.h.

Simplifications. Exact arithmetic in an ordered field with a square root (parameter). The points are triples of coordinates; the
other fields of a point are not modelled. The point cloud has at most `INT_MAX` points. Eigen and PCL: `normalize` (Eigen/src/Core/Dot.h: a vector of
null norm is not changed), `maxCoeff(&i)` (index of the first maximum), `cross`, `inverse` of a 3 × 3 matrix by cofactors, `pretranslate` and
`prerotate` (products on the left), `pcl::transformPointCloud` (the transformation of each point). A matrix with non-finite coefficients is `none`.
-/
namespace Verif.PlaneAligner
open Verif

/-- `Vector3`, or the coordinates of a point, types.h:78. -/
structure V3 (K : Type) where
  x : K
  y : K
  z : K
  deriving DecidableEq, Repr

/-- `Transform3`: rows of the linear part, and translation, types.h:81. -/
structure T3 (K : Type) where
  r0 : V3 K
  r1 : V3 K
  r2 : V3 K
  t : V3 K
  deriving DecidableEq, Repr

variable {K : Type} [Field K] [LinearOrder K]

namespace V3

/-- Sum of vectors, point_cloud_plane_aligner.h:142-144. -/
def add (a b : V3 K) : V3 K := ⟨a.x + b.x, a.y + b.y, a.z + b.z⟩
/-- Difference of vectors, point_cloud_plane_aligner.h:128, 149. -/
def sub (a b : V3 K) : V3 K := ⟨a.x - b.x, a.y - b.y, a.z - b.z⟩
/-- Product by a scalar, point_cloud_plane_aligner.h:128. -/
def smul (k : K) (a : V3 K) : V3 K := ⟨k * a.x, k * a.y, k * a.z⟩
/-- Division by a scalar, point_cloud_plane_aligner.h:113, 149. -/
def sdiv (a : V3 K) (k : K) : V3 K := ⟨a.x / k, a.y / k, a.z / k⟩
/-- `dot`, point_cloud_plane_aligner.h:128. -/
def dot (a b : V3 K) : K := a.x * b.x + a.y * b.y + a.z * b.z
/-- `cross`, point_cloud_plane_aligner.h:130. -/
def cross (a b : V3 K) : V3 K := ⟨a.y * b.z - a.z * b.y, a.z * b.x - a.x * b.z, a.x * b.y - a.y * b.x⟩

/-- `normalize()`, point_cloud_plane_aligner.h:113, 129. -/
def normalize (sqrt : K → K) (a : V3 K) : V3 K := if dot a a > 0 then sdiv a (sqrt (dot a a)) else a

/-- `cwiseAbs().maxCoeff(&idxMax)`, point_cloud_plane_aligner.h:114. -/
def maxIdx (a : V3 K) : Nat :=
  if |a.y| > |a.x| then if |a.z| > |a.y| then 2 else 1 else if |a.z| > |a.x| then 2 else 0

end V3

open V3

/-- `Transform3::Identity()`, point_cloud_plane_aligner.h:154. -/
def T3.id : T3 K := ⟨⟨1, 0, 0⟩, ⟨0, 1, 0⟩, ⟨0, 0, 1⟩, ⟨0, 0, 0⟩⟩

/-- `pretranslate(v)`, point_cloud_plane_aligner.h:155. -/
def T3.pretranslate (v : V3 K) (T : T3 K) : T3 K := { T with t := add T.t v }

/-- `prerotate(R)` for the matrix of rows `a`, `b`, `c`, point_cloud_plane_aligner.h:156. -/
def T3.prerotate (a b c : V3 K) (T : T3 K) : T3 K :=
  let row (r : V3 K) : V3 K := add (add (smul r.x T.r0) (smul r.y T.r1)) (smul r.z T.r2)
  ⟨row a, row b, row c, ⟨dot a T.t, dot b T.t, dot c T.t⟩⟩

/-- The transformed point, point_cloud_plane_aligner.h:160. -/
def T3.apply (T : T3 K) (p : V3 K) : V3 K := ⟨dot T.r0 p + T.t.x, dot T.r1 p + T.t.y, dot T.r2 p + T.t.z⟩

/-- The rows of the inverse of the matrix of columns `a`, `b`, `c`, point_cloud_plane_aligner.h:156. -/
def inverse3 (a b c : V3 K) : Option (V3 K × V3 K × V3 K) :=
  let det := dot a (cross b c)
  if det = 0 then none else some (sdiv (cross b c) det, sdiv (cross c a) det, sdiv (cross a b) det)

/-- Attributes, point_cloud_plane_aligner.h:163-168: `cloud_` may be null; `plane_` is normal and constant. -/
structure Aligner (K : Type) where
  cloud : Option (List (V3 K))
  normal : V3 K
  const : K
  transform : Option (T3 K)
  planeTol : K

/-- Constructor, point_cloud_plane_aligner.h:47 (0.02f is the nearest `float`). -/
def Aligner.new : Aligner K := ⟨none, ⟨0, 0, 1⟩, 0, some T3.id, 5368709 / 268435456⟩

/-- `setInputCloud`, point_cloud_plane_aligner.h:59-61. -/
def Aligner.setInputCloud (s : Aligner K) (cloud : List (V3 K)) : Aligner K := { s with cloud := some cloud }

/-- `setPlaneCoeffs`, point_cloud_plane_aligner.h:75-81. -/
def Aligner.setPlaneCoeffs (s : Aligner K) (n : V3 K) (d : K) : Aligner K :=
  if d > 0 then { s with normal := n, const := d } else { s with normal := smul (-1) n, const := -d }

/-- `setPlaneTol`, point_cloud_plane_aligner.h:83-85. -/
def Aligner.setPlaneTol (s : Aligner K) (tol : K) : Aligner K := { s with planeTol := tol }

/-- The choice of the axis x, point_cloud_plane_aligner.h:118-126. -/
def axisX (idxMax : Nat) : V3 K := match idxMax with
  | 0 => ⟨0, 0, 1⟩
  | 1 => ⟨0, 0, 1⟩
  | _ => ⟨1, 0, 0⟩

/-- The axes, point_cloud_plane_aligner.h:112-131. -/
def axes (sqrt : K → K) (normal : V3 K) : V3 K × V3 K × V3 K :=
  let az := normalize sqrt normal
  let ax := axisX (maxIdx az)
  let ax := normalize sqrt (sub ax (smul (dot ax az) az))
  (ax, cross az ax, az)

/-- The loop on the points, point_cloud_plane_aligner.h:137-147: sum and number of the inliers. -/
def inliers (s : Aligner K) (points : List (V3 K)) : V3 K × Nat :=
  points.foldl (fun acc p => if |p.x * s.normal.x + p.y * s.normal.y + p.z * s.normal.z + s.const| < s.planeTol then (add acc.1 p, acc.2 + 1) else acc) (⟨0, 0, 0⟩, 0)

/-- `centerPlane`, point_cloud_plane_aligner.h:148-150. -/
def center (az sum : V3 K) (inlierNum : Nat) : V3 K :=
  if inlierNum > 0 then sdiv (sub sum (smul (dot sum az) az)) inlierNum else sum

/-- `compute`, point_cloud_plane_aligner.h:104-157; a null cloud is dereferenced at line 139. -/
def Aligner.compute (sqrt : K → K) (s : Aligner K) : Outcome (Aligner K) := do
  let (ax, ay, az) := axes sqrt s.normal
  match s.cloud with
  | none => .error (.ub .outOfBounds)
  | some points =>
    let (sum, inlierNum) := inliers s points
    let c := center az sum inlierNum
    return { s with transform := (inverse3 ax ay az).map fun R => (T3.id.pretranslate (smul (-1) c)).prerotate R.1 R.2.1 R.2.2 }

/-- `transform`, point_cloud_plane_aligner.h:159-161. -/
def Aligner.transformCloud (s : Aligner K) : Outcome (Option (List (V3 K))) :=
  match s.cloud with
  | none => .error (.ub .outOfBounds)
  | some points => .ok (s.transform.map fun T => points.map T.apply)

end Verif.PlaneAligner
