import Verif.Geometry2Fp.Model
import Verif.Geometry2.Model

/-!
Model of the conversion of a pose to a transformation, /repo/geometry/src/base_geometry2.cpp:26-36, in the arithmetic of `float` (`rofl::Scalar`, types.h:39). The matrix
operations are those of Eigen: the rotation matrix is made of the results of `cos` and `sin` for `float` (parameters), and each coefficient of a product is the sum of two
products, every operation rounded.
-/
namespace Verif.Geometry2Fp
open Ieee Fp Float.Model FunctionsFp Geometry2

/-- The functions `cos` and `sin` of the C library for `float`, called by the rotation of base_geometry2.cpp:30. -/
structure Trigf where
  cos : Flt → Flt
  sin : Flt → Flt

/-- Zero and one of a matrix of `float`, base_geometry2.cpp:28. -/
def zerof : Flt := narrow (d 0 1)
def onef : Flt := narrow (d 10 1)

/-- `Transform2::Identity()`, base_geometry2.cpp:28. -/
def identity : T2 Flt := ⟨onef, zerof, zerof, zerof, onef, zerof⟩

/-- `prerotate(Rotation2D(theta))`: product of the rotation matrix and `[L | t]`, base_geometry2.cpp:30. -/
def prerotate (L : Trigf) (theta : Flt) (T : T2 Flt) : T2 Flt :=
  let c := L.cos theta
  let s := L.sin theta
  ⟨c * T.l00 + -s * T.l10, c * T.l01 + -s * T.l11, c * T.t0 + -s * T.t1, s * T.l00 + c * T.l10, s * T.l01 + c * T.l11, s * T.t0 + c * T.t1⟩

/-- `pretranslate(v)`: adds `v` to the translation, base_geometry2.cpp:31. -/
def pretranslate (v : V2f) (T : T2 Flt) : T2 Flt := { T with t0 := T.t0 + v.1, t1 := T.t1 + v.2 }

/-- `poseToIsometry2(x, y, theta, transf)`, base_geometry2.cpp:26-32. -/
def poseToIsometry2 (L : Trigf) (x y theta : Flt) : T2 Flt := pretranslate (x, y) (prerotate L theta identity)

/-- `poseToIsometry2(pose, transf)`, base_geometry2.cpp:34-36. -/
def poseToIsometry2v (L : Trigf) (pose : Flt × Flt × Flt) : T2 Flt := poseToIsometry2 L pose.1 pose.2.1 pose.2.2

end Verif.Geometry2Fp
