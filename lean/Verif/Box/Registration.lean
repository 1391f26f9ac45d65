import Verif.Box.Model
import Mathlib.LinearAlgebra.Matrix.Determinant.Basic
import Mathlib.LinearAlgebra.Matrix.Notation
import Mathlib.LinearAlgebra.Matrix.Permutation

/-! Model of the other functions of `BoxRegistration`, /repo/geometry/include/rofl/geometry/box_registration.h, in exact arithmetic.

The decompositions of Eigen are parameters: the inverse of a matrix, the singular value decomposition and the eigenvalue decomposition of
a symmetric matrix. Loops that accumulate a sum over the cloud are written as sums. -/
namespace Verif.Box
open Verif Matrix

variable {K : Type} [Field K] [LinearOrder K] {D n : ℕ}

/-- `Point`, box_registration.h:45. -/
abbrev Point (K : Type) (D : ℕ) := Fin D → K

/-- `SquareMatrix`, box_registration.h:48. -/
abbrev Mat (K : Type) (D : ℕ) := Matrix (Fin D) (Fin D) K

/-- `Transform`: the linear part and the translation, box_registration.h:47. -/
structure Transf (K : Type) (D : ℕ) where
  linear : Mat K D
  transl : Point K D

/-- Application of a transformation to a point, box_registration.h:166. -/
def Transf.apply (T : Transf K D) (p : Point K D) : Point K D := T.linear *ᵥ p + T.transl

/-- `transf.inverse()` of an affine transformation, given the inverse of the linear part, box_registration.h:155. -/
def Transf.inverse (inv : Mat K D → Mat K D) (T : Transf K D) : Transf K D := ⟨inv T.linear, -(inv T.linear *ᵥ T.transl)⟩

/-- A point as the argument of `associate`, box_registration.h:166. -/
def ext (p : Point K D) : ℕ → K := fun i => if h : i < D then p ⟨i, h⟩ else 0

/-- The loop of box_registration.h:164-167: the points of the box associated to the points of the cloud (the loop stops at the first failure). -/
def modelPoints (dims : Point K D) (tinv : Transf K D) (cloud : Fin n → Point K D) : Outcome (Fin n → Point K D) :=
  if ∀ i, (associate D (ext dims) (ext (tinv.apply (cloud i))) (fun _ => 0)).isOk then
    .ok fun i => match associate D (ext dims) (ext (tinv.apply (cloud i))) (fun _ => 0) with
      | .ok p => fun d => p d
      | .error _ => 0
  else .error .abort

/-- box_registration.h:170-177: the mean of the points (`sum * 1.0 / n`, which is NaN without points, see `computeTransform`). -/
def mean (p : Fin n → Point K D) : Point K D := fun d => (∑ i, p i d) * 1 / n

/-- box_registration.h:180-183: the matrix `S`. -/
def scatter (src dst : Fin n → Point K D) : Mat K D := ∑ i, vecMulVec (src i - mean src) (dst i - mean dst)

/-- box_registration.h:185-192: the sign of the determinant. -/
def detSign (U V : Mat K D) : K := if (V * Uᵀ).det > 0 then 1 else -1

/-- box_registration.h:193: `I(1,1) = d`. -/
def flip (d : K) : Mat K D := Matrix.diagonal fun i => if (i : ℕ) = 1 then d else 1

/-- `computeTransform`, box_registration.h:152-204; `svd S` gives `matrixU()` and `matrixV()`. `none` where the result is NaN (empty cloud). -/
def computeTransform (inv : Mat K D → Mat K D) (svd : Mat K D → Mat K D × Mat K D) (dims : Point K D) (cloud : Fin n → Point K D)
    (T : Transf K D) : Outcome (Option (Transf K D)) := do
  let src ← modelPoints dims (T.inverse inv) cloud
  if n = 0 then return none
  let UV := svd (scatter src cloud)
  if ¬ 1 < D then .error (.ub .outOfBounds)
  else
    let R := UV.2 * flip (detSign UV.1 UV.2) * UV.1ᵀ
    return some ⟨R, mean cloud - R *ᵥ mean src⟩

/-- The matrix of an Eigen `PermutationMatrix` with the given indices: the component `i` of a vector goes to the position `p i`, box_registration.h:51, 236. -/
def permMat (p : Equiv.Perm (Fin D)) : Mat K D := Matrix.of fun a b => if a = p b then 1 else 0

/-- `perm_` after `setDimension`, box_registration.h:69-80: the inverse of the indices sorted by dimension; `srt` is the result of `std::sort`. -/
def setDimension (srt : Point K D → Equiv.Perm (Fin D)) (dims : Point K D) : Equiv.Perm (Fin D) := (srt dims)⁻¹

/-- box_registration.h:222-228: the matrix `covar`. -/
def covar (cloud : Fin n → Point K D) : Mat K D :=
  ((1 : K) * 1 / (n - 1)) • (1 + ∑ i, vecMulVec (cloud i - mean cloud) (cloud i - mean cloud))

/-- `estimateInitTranform`, box_registration.h:206-239; `eig` gives `eigenvectors()`, in columns. -/
def estimateInitTransform (eig : Mat K D → Mat K D) (perm : Equiv.Perm (Fin D)) (cloud : Fin n → Point K D) : Transf K D :=
  if n < 2 then ⟨1, 0⟩ else ⟨eig (covar cloud) * permMat perm, mean cloud⟩

end Verif.Box
