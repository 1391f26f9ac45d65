import Verif.Box.InitProps

/-! Property theorem C81 (see properties.jsonl), exact condition. -/
namespace Verif.Box
open Verif Matrix Finset

variable {K : Type} [Field K] [LinearOrder K] [IsStrictOrderedRing K] {D n : ℕ}

/-- C81, exact condition: the initial transformation is a rotation exactly when the orientation of the matrix of eigenvectors is the sign of the permutation that sorts the sizes. -/
theorem C81_iff (eig : Mat K D → Mat K D) (srt : Point K D → Equiv.Perm (Fin D)) (dims : Point K D) (cloud : Fin n → Point K D) (hn : 2 ≤ n)
    (hs : SortsAxes dims (srt dims)) (he : ∃ ev, IsEig (covar cloud) (eig (covar cloud)) ev) :
    (InitOk dims cloud (estimateInitTransform eig (setDimension srt dims) cloud) ∧ Rotation (estimateInitTransform eig (setDimension srt dims) cloud).linear) ↔
      (eig (covar cloud)).det = ((Equiv.Perm.sign (srt dims) : ℤ) : K) := by
  have h1 := (C81_init_partial eig srt dims cloud hs he).1 hn
  have hdet : (estimateInitTransform eig (setDimension srt dims) cloud).linear.det = (eig (covar cloud)).det * ((Equiv.Perm.sign (srt dims) : ℤ) : K) := by
    unfold estimateInitTransform
    rw [if_neg (not_lt.2 hn), det_mul, permMat_det, setDimension, Equiv.Perm.sign_inv]
  obtain ⟨ev, -, e2, -⟩ := he
  constructor
  · rintro ⟨-, -, h⟩
    rw [hdet] at h
    rcases Int.units_eq_one_or (Equiv.Perm.sign (srt dims)) with hsg | hsg <;> rw [hsg] at h ⊢ <;> rcases ortho_det e2 with h3 | h3 <;> rw [h3] at h ⊢ <;> first | (norm_num at h; done) | norm_num
  · intro h
    refine ⟨h1, h1.ortho, ?_⟩
    rw [hdet, h]
    rcases Int.units_eq_one_or (Equiv.Perm.sign (srt dims)) with hsg | hsg <;> rw [hsg] <;> norm_num

/-- In the plane, sizes 1 and 2 keep the eigenvectors of the identity matrix as they are, and the condition holds. -/
example : (1 : Mat ℚ 2).det = ((Equiv.Perm.sign (1 : Equiv.Perm (Fin 2)) : ℤ) : ℚ) := by simp

/-- Sizes 2 and 1 need an exchange and the condition fails. -/
example : (1 : Mat ℚ 2).det ≠ ((Equiv.Perm.sign (Equiv.swap (0 : Fin 2) 1) : ℤ) : ℚ) := by
  rw [Equiv.Perm.sign_swap (by decide), det_one]; norm_num

end Verif.Box
