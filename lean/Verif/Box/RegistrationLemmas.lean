import Verif.Box.Registration
import Verif.Box.Props
import Mathlib.LinearAlgebra.Matrix.Trace
import Mathlib.LinearAlgebra.Matrix.NonsingularInverse
import Mathlib.LinearAlgebra.Matrix.ToLin
import Mathlib.Tactic.FieldSimp
import Mathlib.Tactic.FinCases
import Mathlib.Tactic.LinearCombination

/-! Spec and lemmas for the registration of a box. -/
namespace Verif.Box
open Verif Matrix Finset

variable {K : Type} [Field K] [LinearOrder K] [IsStrictOrderedRing K] {D n : ℕ}

/-- A rotation. -/
def Rotation (R : Mat K D) : Prop := Rᵀ * R = 1 ∧ R.det = 1

/-- `U` and `V` are the matrices of a singular value decomposition of `S`. -/
def IsSVD (S U V : Mat K D) (σ : Fin D → K) : Prop :=
  (∀ i, 0 ≤ σ i) ∧ Antitone σ ∧ Uᵀ * U = 1 ∧ Vᵀ * V = 1 ∧ S = U * diagonal σ * Vᵀ

/-- The sum of the squared distances between the points `dst` and the transformed points `src`. -/
def cost (T : Transf K D) (src dst : Fin n → Point K D) : K := ∑ i, (dst i - T.apply (src i)) ⬝ᵥ (dst i - T.apply (src i))

omit [LinearOrder K] [IsStrictOrderedRing K] in
theorem sum_centered [CharZero K] (hn : 0 < n) (p : Fin n → Point K D) : ∑ i, (p i - mean p) = 0 := by
  funext d
  have h : (n : K) ≠ 0 := Nat.cast_ne_zero.2 hn.ne'
  simp only [Finset.sum_apply, Pi.sub_apply, mean, sum_sub_distrib, sum_const, card_univ, Fintype.card_fin, nsmul_eq_mul, Pi.zero_apply]
  field_simp
  ring

omit [LinearOrder K] [IsStrictOrderedRing K] in
theorem ortho_dot {R : Mat K D} (h : Rᵀ * R = 1) (x : Point K D) : (R *ᵥ x) ⬝ᵥ (R *ᵥ x) = x ⬝ᵥ x := by
  rw [dotProduct_mulVec, vecMul_mulVec, h]
  rw [vecMul_one]

omit [LinearOrder K] [IsStrictOrderedRing K] in
theorem dot_trace (R : Mat K D) (a b : Point K D) : a ⬝ᵥ (R *ᵥ b) = (R * vecMulVec b a).trace := by
  rw [mul_vecMulVec, trace_vecMulVec, dotProduct_comm]

omit [IsStrictOrderedRing K] in
/-- The cost in terms of the centered points and of the matrix `S`. -/
theorem cost_eq [CharZero K] (hn : 0 < n) (T : Transf K D) (hT : T.linearᵀ * T.linear = 1) (src dst : Fin n → Point K D) :
    cost T src dst = ∑ i, ((dst i - mean dst) ⬝ᵥ (dst i - mean dst) + (src i - mean src) ⬝ᵥ (src i - mean src)) -
      2 * (T.linear * scatter src dst).trace +
      n * ((mean dst - T.linear *ᵥ mean src - T.transl) ⬝ᵥ (mean dst - T.linear *ᵥ mean src - T.transl)) := by
  set e := mean dst - T.linear *ᵥ mean src - T.transl
  have h1 : ∀ i, dst i - T.apply (src i) = ((dst i - mean dst) - T.linear *ᵥ (src i - mean src)) + e := fun i => by
    simp only [Transf.apply, mulVec_sub, e]; abel
  have h2 : ∀ i, (dst i - T.apply (src i)) ⬝ᵥ (dst i - T.apply (src i)) =
      ((dst i - mean dst) ⬝ᵥ (dst i - mean dst) + (src i - mean src) ⬝ᵥ (src i - mean src)) -
        2 * (T.linear * vecMulVec (src i - mean src) (dst i - mean dst)).trace +
        2 * (((dst i - mean dst) - T.linear *ᵥ (src i - mean src)) ⬝ᵥ e) + e ⬝ᵥ e := fun i => by
    rw [h1, ← dot_trace, ← ortho_dot hT (src i - mean src)]
    generalize T.linear *ᵥ (src i - mean src) = y
    generalize dst i - mean dst = x
    simp only [add_dotProduct, dotProduct_add, sub_dotProduct, dotProduct_sub, dotProduct_comm e, dotProduct_comm y x]
    ring
  unfold cost
  rw [sum_congr rfl fun i _ => h2 i, sum_add_distrib, sum_add_distrib, sum_sub_distrib, ← mul_sum, ← mul_sum, ← trace_sum, ← mul_sum,
    ← sum_dotProduct, sum_sub_distrib, sum_centered hn]
  have h3 : ∑ i, T.linear *ᵥ (src i - mean src) = 0 := by
    rw [← mulVec_sum, sum_centered hn, mulVec_zero]
  rw [h3, sub_zero, zero_dotProduct, sum_const, card_univ, Fintype.card_fin, nsmul_eq_mul]
  unfold scatter
  ring

theorem dot_self_nonneg (x : Point K D) : 0 ≤ x ⬝ᵥ x := sum_nonneg fun i _ => mul_self_nonneg _

/-- The best transformation has the largest trace and matches the centroids. -/
theorem cost_le (hn : 0 < n) {R Q : Mat K D} (hR : Rᵀ * R = 1) (hQ : Qᵀ * Q = 1) (t : Point K D) (src dst : Fin n → Point K D)
    (h : (Q * scatter src dst).trace ≤ (R * scatter src dst).trace) :
    cost ⟨R, mean dst - R *ᵥ mean src⟩ src dst ≤ cost ⟨Q, t⟩ src dst := by
  rw [cost_eq hn _ hR, cost_eq hn _ hQ]
  dsimp only
  rw [sub_self, zero_dotProduct, mul_zero, add_zero]
  have := mul_nonneg (Nat.cast_nonneg (α := K) n) (dot_self_nonneg (mean dst - Q *ᵥ mean src - t))
  linarith

omit [IsStrictOrderedRing K] [LinearOrder K] in
theorem trace_svd (Q U V : Mat K D) (σ : Fin D → K) : (Q * (U * diagonal σ * Vᵀ)).trace = ∑ i, (Vᵀ * Q * U) i i * σ i := by
  have : (Q * (U * diagonal σ * Vᵀ)).trace = (Vᵀ * Q * U * diagonal σ).trace := by
    rw [show Q * (U * diagonal σ * Vᵀ) = (Q * U * diagonal σ) * Vᵀ by simp only [Matrix.mul_assoc], trace_mul_comm]
    simp only [Matrix.mul_assoc]
  rw [this, trace]
  simp only [diag_apply, mul_diagonal]

omit [LinearOrder K] [IsStrictOrderedRing K] in
theorem ortho_comm {U : Mat K D} (h : Uᵀ * U = 1) : U * Uᵀ = 1 := mul_eq_one_comm.1 h

omit [LinearOrder K] [IsStrictOrderedRing K] in
theorem ortho_mul {A B : Mat K D} (hA : Aᵀ * A = 1) (hB : Bᵀ * B = 1) : (A * B)ᵀ * (A * B) = 1 := by
  rw [transpose_mul, show Bᵀ * Aᵀ * (A * B) = Bᵀ * (Aᵀ * A) * B by simp only [Matrix.mul_assoc], hA, Matrix.mul_one, hB]

omit [LinearOrder K] [IsStrictOrderedRing K] in
theorem ortho_tr {A : Mat K D} (hA : Aᵀ * A = 1) : Aᵀᵀ * Aᵀ = 1 := by rw [transpose_transpose]; exact ortho_comm hA

theorem ortho_diag {M : Mat K D} (h : Mᵀ * M = 1) (i : Fin D) : M i i ≤ 1 := by
  have h1 : ∑ k, M k i * M k i = 1 := by
    have := congrFun (congrFun h i) i
    rwa [mul_apply, one_apply_eq] at this
  have h2 : M i i * M i i ≤ 1 := by
    rw [← h1]
    exact single_le_sum (f := fun k => M k i * M k i) (fun k _ => mul_self_nonneg _) (mem_univ i)
  nlinarith

omit [LinearOrder K] [IsStrictOrderedRing K] in
theorem ortho_det {U : Mat K D} (h : Uᵀ * U = 1) : U.det = 1 ∨ U.det = -1 := by
  have := congrArg det h
  rw [det_mul, det_transpose, det_one] at this
  exact mul_self_eq_one_iff.1 this

omit [IsStrictOrderedRing K] [LinearOrder K] in
theorem flip_det (hD : 1 < D) (d : K) : (flip d : Mat K D).det = d := by
  rw [flip, det_diagonal, prod_eq_single ⟨1, hD⟩]
  · simp
  · intro b _ hb
    rw [if_neg]
    intro h
    exact hb (Fin.ext h)
  · intro h; exact absurd (mem_univ _) h

omit [IsStrictOrderedRing K] [LinearOrder K] in
theorem flip_ortho {d : K} (hd : d = 1 ∨ d = -1) : (flip d : Mat K D)ᵀ * flip d = 1 := by
  rw [flip, diagonal_transpose, diagonal_mul_diagonal, ← diagonal_one]
  congr 1
  funext i
  rcases hd with rfl | rfl <;> split <;> simp

theorem detSign_eq {U V : Mat K D} (hU : Uᵀ * U = 1) (hV : Vᵀ * V = 1) : detSign U V = V.det * U.det ∧ (detSign U V = 1 ∨ detSign U V = -1) := by
  unfold detSign
  rw [det_mul, det_transpose]
  rcases ortho_det hU with h1 | h1 <;> rcases ortho_det hV with h2 | h2 <;> rw [h1, h2] <;> norm_num

/-- The matrix computed from the decomposition is a rotation. -/
theorem result_rotation (hD : 1 < D) {U V : Mat K D} (hU : Uᵀ * U = 1) (hV : Vᵀ * V = 1) : Rotation (V * flip (detSign U V) * Uᵀ) := by
  obtain ⟨h1, h2⟩ := detSign_eq hU hV
  refine ⟨ortho_mul (ortho_mul hV (flip_ortho h2)) (ortho_tr hU), ?_⟩
  rw [det_mul, det_mul, det_transpose, flip_det hD, h1]
  rcases ortho_det hU with h3 | h3 <;> rcases ortho_det hV with h4 | h4 <;> rw [h3, h4] <;> norm_num

/-- Its trace against the decomposed matrix. -/
theorem result_trace {U V : Mat K D} (hU : Uᵀ * U = 1) (hV : Vᵀ * V = 1) (d : K) (σ : Fin D → K) :
    (V * flip d * Uᵀ * (U * diagonal σ * Vᵀ)).trace = ∑ i : Fin D, (if (i : ℕ) = 1 then d else 1) * σ i := by
  rw [trace_svd]
  have : Vᵀ * (V * flip d * Uᵀ) * U = flip d := by
    rw [show Vᵀ * (V * flip d * Uᵀ) * U = (Vᵀ * V) * flip d * (Uᵀ * U) by simp only [Matrix.mul_assoc], hU, hV, Matrix.one_mul, Matrix.mul_one]
  rw [this]
  simp [flip]

/-- No orthogonal matrix has a larger trace than the result without reflection. -/
theorem trace_le {U V Q : Mat K D} (hU : Uᵀ * U = 1) (hV : Vᵀ * V = 1) (hQ : Qᵀ * Q = 1) {σ : Fin D → K} (hσ : ∀ i, 0 ≤ σ i) :
    (Q * (U * diagonal σ * Vᵀ)).trace ≤ ∑ i, σ i := by
  rw [trace_svd]
  refine sum_le_sum fun i _ => ?_
  have h := ortho_diag (ortho_mul (ortho_mul (ortho_tr hV) hQ) hU) i
  exact mul_le_of_le_one_left (hσ i) h

/-- In the plane no rotation has a larger trace than the result, also with a reflection. -/
theorem trace_le_plane {U V Q : Mat K 2} (hU : Uᵀ * U = 1) (hV : Vᵀ * V = 1) (hQ : Rotation Q) (hdet : V.det * U.det = -1) {σ : Fin 2 → K}
    (hσ : Antitone σ) : (Q * (U * diagonal σ * Vᵀ)).trace ≤ σ 0 - σ 1 := by
  rw [trace_svd]
  have h := ortho_mul (ortho_mul (ortho_tr hV) hQ.1) hU
  have hd : (Vᵀ * Q * U).det = -1 := by rw [det_mul, det_mul, det_transpose, hQ.2, mul_one, hdet]
  set M := Vᵀ * Q * U
  have h0 := ortho_diag h 0
  have c00 := congrFun (congrFun h 0) 0
  have c11 := congrFun (congrFun h 1) 1
  simp only [mul_apply, Fin.sum_univ_two, transpose_apply, one_apply_eq] at c00 c11
  rw [det_fin_two] at hd
  have hs : (M 0 0 + M 1 1) ^ 2 + (M 0 1 - M 1 0) ^ 2 = 0 := by linear_combination c00 + c11 + 2 * hd
  have h1 : M 0 0 + M 1 1 = 0 := by
    have : (M 0 0 + M 1 1) ^ 2 = 0 := by nlinarith [sq_nonneg (M 0 0 + M 1 1), sq_nonneg (M 0 1 - M 1 0)]
    exact pow_eq_zero_iff two_ne_zero |>.1 this
  have hσ01 : σ 1 ≤ σ 0 := hσ (by decide)
  rw [Fin.sum_univ_two, show M 1 1 = -M 0 0 by linear_combination h1]
  nlinarith

end Verif.Box
