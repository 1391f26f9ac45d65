import Verif.Box.RegistrationProps
import Mathlib.LinearAlgebra.Matrix.ToLinearEquiv

/-! Property theorems C80 (see properties.jsonl), exact condition: when the step of the registration is optimal, and how far it is from the optimum. -/
namespace Verif.Box
open Verif Matrix Finset

variable {K : Type} [Field K] [LinearOrder K] [IsStrictOrderedRing K] {D n : ℕ}

theorem dot_pos {v : Point K D} (hv : v ≠ 0) : 0 < v ⬝ᵥ v := by
  obtain ⟨i, hi⟩ := Function.ne_iff.1 hv
  unfold dotProduct
  exact sum_pos' (fun j _ => mul_self_nonneg _) ⟨i, mem_univ i, mul_self_pos.2 hi⟩

/-- The trace of an orthogonal matrix of determinant -1. -/
theorem trace_reflection {M : Mat K D} (h : Mᵀ * M = 1) (hd : M.det = -1) : M.trace ≤ D - 2 := by
  have h0 : (M + 1).det = 0 := by
    have e : M + 1 = M * (M + 1)ᵀ := by
      rw [transpose_add, transpose_one, Matrix.mul_add, ortho_comm h, Matrix.mul_one, add_comm]
    have e' := congrArg det e
    rw [det_mul, det_transpose, hd] at e'
    linarith
  obtain ⟨v, hv, hv'⟩ := exists_mulVec_eq_zero_iff.2 h0
  rw [add_mulVec, one_mulVec] at hv'
  have hMv : M *ᵥ v = -v := eq_neg_of_add_eq_zero_left hv'
  have hp := dot_pos hv
  set s := v ⬝ᵥ v
  set H : Mat K D := 1 - (2 / s) • vecMulVec v v with hH
  have hvv : vecMulVec v v * vecMulVec v v = s • vecMulVec v v := by
    rw [vecMulVec_mul_vecMulVec]
    ext i j
    simp only [vecMulVec_apply, Matrix.smul_apply, Pi.smul_apply, smul_eq_mul, s]
    ring
  have hHH : Hᵀ * H = 1 := by
    have ht : Hᵀ = H := by rw [hH, transpose_sub, transpose_one, transpose_smul, transpose_vecMulVec]
    rw [ht, hH, Matrix.sub_mul, Matrix.mul_sub, Matrix.mul_sub, Matrix.one_mul, Matrix.mul_one, Matrix.one_mul, smul_mul_smul_comm, hvv, smul_smul]
    rw [show 2 / s * (2 / s) * s = 2 * (2 / s) by field_simp]
    module
  have ht : (H * M).trace = M.trace + 2 := by
    rw [hH, Matrix.sub_mul, Matrix.one_mul, trace_sub, Matrix.smul_mul, trace_smul, trace_mul_comm, mul_vecMulVec, trace_vecMulVec, hMv, neg_dotProduct, smul_eq_mul]
    show M.trace - 2 / s * -s = _
    field_simp
    ring
  have hle : (H * M).trace ≤ D := by
    have := sum_le_sum fun i (_ : i ∈ univ) => ortho_diag (ortho_mul hHH h) i
    rw [sum_const, card_univ, Fintype.card_fin, nsmul_eq_mul, mul_one] at this
    exact this
  linarith

/-- With a reflection the trace is at most the sum of the singular values less twice the last. -/
theorem trace_le_reflection (hD : 0 < D) {U V Q : Mat K D} (hU : Uᵀ * U = 1) (hV : Vᵀ * V = 1) (hQ : Rotation Q) (hdet : V.det * U.det = -1) {σ : Fin D → K}
    (h0 : ∀ i, 0 ≤ σ i) (hσ : Antitone σ) : (Q * (U * diagonal σ * Vᵀ)).trace ≤ ∑ i, σ i - 2 * σ ⟨D - 1, by omega⟩ := by
  rw [trace_svd]
  have h := ortho_mul (ortho_mul (ortho_tr hV) hQ.1) hU
  have hd : (Vᵀ * Q * U).det = -1 := by rw [det_mul, det_mul, det_transpose, hQ.2, mul_one, hdet]
  have ht := trace_reflection h hd
  set M := Vᵀ * Q * U
  set l := σ ⟨D - 1, by omega⟩
  have e : ∑ i, M i i * σ i = ∑ i, M i i * (σ i - l) + M.trace * l := by
    simp only [mul_sub, sum_sub_distrib, trace, diag_apply, sum_mul]
    ring
  have h1 : ∑ i, M i i * (σ i - l) ≤ ∑ i, (σ i - l) := sum_le_sum fun i _ =>
    mul_le_of_le_one_left (sub_nonneg.2 (hσ (Fin.le_def.2 (by show (i : ℕ) ≤ D - 1; omega)))) (ortho_diag h i)
  have h2 : ∑ i : Fin D, (σ i - l) = ∑ i, σ i - D * l := by simp [sum_sub_distrib]
  have h3 : M.trace * l ≤ (D - 2) * l := mul_le_mul_of_nonneg_right ht (h0 _)
  rw [e]
  linarith

/-- The sign corrected at the coordinate `j`. -/
def flipAt (j : Fin D) (d : K) : Mat K D := diagonal fun i => if i = j then d else 1

omit [LinearOrder K] [IsStrictOrderedRing K] in
theorem flipAt_ortho (j : Fin D) {d : K} (hd : d = 1 ∨ d = -1) : (flipAt j d : Mat K D)ᵀ * flipAt j d = 1 := by
  rw [flipAt, diagonal_transpose, diagonal_mul_diagonal, ← diagonal_one]
  congr 1
  funext i
  rcases hd with rfl | rfl <;> split <;> simp

omit [LinearOrder K] [IsStrictOrderedRing K] in
theorem flipAt_det (j : Fin D) (d : K) : (flipAt j d : Mat K D).det = d := by
  rw [flipAt, det_diagonal, prod_eq_single j]
  · simp
  · intro b _ hb
    rw [if_neg hb]
  · intro h; exact absurd (mem_univ _) h

theorem flipAt_rotation (j : Fin D) {U V : Mat K D} (hU : Uᵀ * U = 1) (hV : Vᵀ * V = 1) : Rotation (V * flipAt j (detSign U V) * Uᵀ) := by
  obtain ⟨h1, h2⟩ := detSign_eq hU hV
  refine ⟨ortho_mul (ortho_mul hV (flipAt_ortho j h2)) (ortho_tr hU), ?_⟩
  rw [det_mul, det_mul, det_transpose, flipAt_det, h1]
  rcases ortho_det hU with h3 | h3 <;> rcases ortho_det hV with h4 | h4 <;> rw [h3, h4] <;> norm_num

omit [LinearOrder K] [IsStrictOrderedRing K] in
theorem flipAt_trace (j : Fin D) {U V : Mat K D} (hU : Uᵀ * U = 1) (hV : Vᵀ * V = 1) (d : K) (σ : Fin D → K) :
    (V * flipAt j d * Uᵀ * (U * diagonal σ * Vᵀ)).trace = ∑ i, σ i - (1 - d) * σ j := by
  rw [trace_svd]
  have : Vᵀ * (V * flipAt j d * Uᵀ) * U = flipAt j d := by
    rw [show Vᵀ * (V * flipAt j d * Uᵀ) * U = (Vᵀ * V) * flipAt j d * (Uᵀ * U) by simp only [Matrix.mul_assoc], hU, hV, Matrix.one_mul, Matrix.mul_one]
  rw [this]
  have e : ∀ i, (flipAt j d : Mat K D) i i * σ i = σ i - if i = j then (1 - d) * σ j else 0 := by
    intro i
    simp only [flipAt, diagonal_apply_eq]
    split_ifs with h
    · rw [h]; ring
    · ring
  simp only [e, sum_sub_distrib, sum_ite_eq', mem_univ, if_true]

/-- C80: correcting the sign at the last singular value would give the best rigid motion, in every dimension. -/
theorem C80_last (hD : 0 < D) (hn : 0 < n) (src cloud : Fin n → Point K D) {U V : Mat K D} {σ : Fin D → K} (h : IsSVD (scatter src cloud) U V σ) (Q : Transf K D)
    (hQ : Rotation Q.linear) :
    cost ⟨V * flipAt ⟨D - 1, by omega⟩ (detSign U V) * Uᵀ, mean cloud - (V * flipAt ⟨D - 1, by omega⟩ (detSign U V) * Uᵀ) *ᵥ mean src⟩ src cloud ≤ cost Q src cloud := by
  obtain ⟨s1, s2, s3, s4, s5⟩ := h
  refine cost_le hn (flipAt_rotation _ s3 s4).1 hQ.1 _ src cloud ?_
  obtain ⟨d1, d2⟩ := detSign_eq s3 s4
  rw [s5, flipAt_trace _ s3 s4]
  rcases d2 with d2 | d2
  · rw [d2, sub_self, zero_mul, sub_zero]
    exact trace_le s3 s4 hQ.1 s1
  · refine le_trans (trace_le_reflection hD s3 s4 hQ (by rw [← d1, d2]) s1 s2) (le_of_eq ?_)
    rw [d2]; ring

/-- C80: the sum of the squared distances after the step exceeds the least one by four times the difference of the second and of the last singular value when
a reflection is corrected, and not at all otherwise. -/
theorem C80_excess (inv : Mat K D → Mat K D) (svd : Mat K D → Mat K D × Mat K D) (dims : Point K D) (cloud : Fin n → Point K D) (T : Transf K D) (hD : 1 < D) (hn : 0 < n)
    (src : Fin n → Point K D) (hsrc : modelPoints dims (T.inverse inv) cloud = .ok src) (σ : Fin D → K)
    (hsvd : IsSVD (scatter src cloud) (svd (scatter src cloud)).1 (svd (scatter src cloud)).2 σ) :
    ∃ T' B, computeTransform inv svd dims cloud T = .ok (some T') ∧ Rotation B.linear ∧ (∀ Q, Rotation Q.linear → cost B src cloud ≤ cost Q src cloud) ∧
      cost T' src cloud = cost B src cloud +
        if ((svd (scatter src cloud)).2 * (svd (scatter src cloud)).1ᵀ).det = 1 then 0 else 4 * (σ ⟨1, hD⟩ - σ ⟨D - 1, by omega⟩) := by
  have hlast := C80_last (by omega) hn src cloud hsvd
  refine ⟨_, ⟨(svd (scatter src cloud)).2 * flipAt ⟨D - 1, by omega⟩ (detSign (svd (scatter src cloud)).1 (svd (scatter src cloud)).2) * (svd (scatter src cloud)).1ᵀ,
    mean cloud - ((svd (scatter src cloud)).2 * flipAt ⟨D - 1, by omega⟩ (detSign (svd (scatter src cloud)).1 (svd (scatter src cloud)).2) *
      (svd (scatter src cloud)).1ᵀ) *ᵥ mean src⟩, compute_eq hD hn hsrc, flipAt_rotation ⟨D - 1, by omega⟩ hsvd.2.2.1 hsvd.2.2.2.1, hlast, ?_⟩
  clear hlast
  obtain ⟨s1, s2, s3, s4, s5⟩ := hsvd
  generalize (svd (scatter src cloud)).1 = U at *
  generalize (svd (scatter src cloud)).2 = V at *
  have hflip : ∀ d : K, flip d = flipAt (⟨1, hD⟩ : Fin D) d := by
    intro d
    unfold flip flipAt
    congr 1
    funext i
    simp only [Fin.ext_iff]
  rw [hflip, cost_eq hn _ (flipAt_rotation _ s3 s4).1, cost_eq hn _ (flipAt_rotation _ s3 s4).1]
  dsimp only
  rw [sub_self, sub_self, zero_dotProduct, mul_zero, add_zero, add_zero, s5, flipAt_trace _ s3 s4, flipAt_trace _ s3 s4]
  obtain ⟨d1, d2⟩ := detSign_eq s3 s4
  rw [det_mul, det_transpose, ← d1]
  rcases d2 with d2 | d2
  · rw [if_pos d2, d2]; ring
  · rw [if_neg (by rw [d2]; norm_num), d2]; ring

/-- C80, exact condition: the step gives the best rigid motion exactly when no reflection has to be corrected or the second singular value is the last one or equal to it. -/
theorem C80_iff (inv : Mat K D → Mat K D) (svd : Mat K D → Mat K D × Mat K D) (dims : Point K D) (cloud : Fin n → Point K D) (T : Transf K D) (hD : 1 < D) (hn : 0 < n)
    (src : Fin n → Point K D) (hsrc : modelPoints dims (T.inverse inv) cloud = .ok src) (σ : Fin D → K)
    (hsvd : IsSVD (scatter src cloud) (svd (scatter src cloud)).1 (svd (scatter src cloud)).2 σ) :
    (∃ T', computeTransform inv svd dims cloud T = .ok (some T') ∧ ∀ Q, Rotation Q.linear → cost T' src cloud ≤ cost Q src cloud) ↔
      ((svd (scatter src cloud)).2 * (svd (scatter src cloud)).1ᵀ).det = 1 ∨ σ ⟨1, hD⟩ = σ ⟨D - 1, by omega⟩ := by
  obtain ⟨T', B, h1, h2, h3, h4⟩ := C80_excess inv svd dims cloud T hD hn src hsrc σ hsvd
  constructor
  · rintro ⟨T'', e1, e2⟩
    obtain rfl : T' = T'' := Option.some.inj (Except.ok.inj (h1.symm.trans e1))
    have h5 := e2 B h2
    rw [h4] at h5
    split_ifs at h5 with hdet
    · exact Or.inl hdet
    · right
      have := hsvd.2.1 (Fin.le_def.2 (by show 1 ≤ D - 1; omega) : (⟨1, hD⟩ : Fin D) ≤ ⟨D - 1, by omega⟩)
      linarith
  · intro hc
    refine ⟨T', h1, fun Q hQ => ?_⟩
    rw [h4]
    refine le_trans (le_of_eq ?_) (h3 Q hQ)
    split_ifs with hdet
    · ring
    · rw [hc.resolve_left hdet]; ring

/-- The reflection of the third axis: the best rotation of the points to their mirror images is the identity, as the last singular value is the smallest. -/
example : (diagonal ![1, 1, -1] : Mat ℚ 3).trace ≤ 3 - 2 := trace_reflection (D := 3) (by decide +kernel) (by decide +kernel)

end Verif.Box
