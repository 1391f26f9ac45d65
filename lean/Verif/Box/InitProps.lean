import Verif.Box.RegistrationProps
import Mathlib.Order.Fin.Basic

/-! Property theorems C81 (see properties.jsonl). -/
namespace Verif.Box
open Verif Matrix Finset

variable {K : Type} [Field K] [LinearOrder K] [IsStrictOrderedRing K] {D n : ℕ}

/-- `E` and `ev` are eigenvectors and eigenvalues of the symmetric matrix `C`, in increasing order. -/
def IsEig (C E : Mat K D) (ev : Fin D → K) : Prop := Monotone ev ∧ Eᵀ * E = 1 ∧ C * E = E * diagonal ev

/-- `p` sorts the axes by size. -/
def SortsAxes (dims : Point K D) (p : Equiv.Perm (Fin D)) : Prop := Monotone (dims ∘ p)

/-- The sample covariance of the cloud. -/
def covariance (cloud : Fin n → Point K D) : Mat K D :=
  Matrix.of fun a b => (∑ i, (cloud i a - mean cloud a) * (cloud i b - mean cloud b)) / (n - 1)

/-- The initial transformation: the centroid, orthonormal axes along the principal directions of the cloud, and larger sizes of the box
along directions of larger variance. -/
structure InitOk (dims : Point K D) (cloud : Fin n → Point K D) (T : Transf K D) : Prop where
  centroid : ∀ d, T.transl d * n = ∑ i, cloud i d
  ortho : T.linearᵀ * T.linear = 1
  axes : ∃ v : Fin D → K, covariance cloud * T.linear = T.linear * diagonal v ∧ ∀ i j, dims i < dims j → v i ≤ v j

/-- C81: the initial transformation is moreover a rotation. -/
def C81_statement (K : Type) [Field K] [LinearOrder K] [IsStrictOrderedRing K] (D : ℕ) : Prop :=
  ∀ (n : ℕ) (eig : Mat K D → Mat K D) (srt : Point K D → Equiv.Perm (Fin D)) (dims : Point K D) (cloud : Fin n → Point K D),
    2 ≤ n → Sizes dims → SortsAxes dims (srt dims) → (∃ ev, IsEig (covar cloud) (eig (covar cloud)) ev) →
    InitOk dims cloud (estimateInitTransform eig (setDimension srt dims) cloud) ∧
      Rotation (estimateInitTransform eig (setDimension srt dims) cloud).linear

omit [LinearOrder K] [IsStrictOrderedRing K] in
theorem permMat_eq (p : Equiv.Perm (Fin D)) : (permMat p : Mat K D) = (p.permMatrix K)ᵀ := by
  ext a b
  simp [permMat, Equiv.Perm.permMatrix, PEquiv.toMatrix_apply, eq_comm]

omit [LinearOrder K] [IsStrictOrderedRing K] in
theorem permMat_det (p : Equiv.Perm (Fin D)) : (permMat p : Mat K D).det = (Equiv.Perm.sign p : ℤ) := by
  rw [permMat_eq, det_transpose, det_permutation]

omit [LinearOrder K] [IsStrictOrderedRing K] in
theorem permMat_ortho (p : Equiv.Perm (Fin D)) : (permMat p : Mat K D)ᵀ * permMat p = 1 := by
  ext a b
  rw [mul_apply, sum_eq_single (p b)]
  · simp [permMat, one_apply, eq_comm]
  · intro c _ hc
    simp [permMat, hc]
  · intro h; exact absurd (mem_univ _) h

omit [LinearOrder K] [IsStrictOrderedRing K] in
theorem diag_permMat (p : Equiv.Perm (Fin D)) (v : Fin D → K) : diagonal v * permMat p = permMat p * diagonal (v ∘ p) := by
  ext a b
  rw [diagonal_mul, mul_diagonal]
  by_cases h : a = p b
  · simp [permMat, h]
  · simp [permMat, h]

omit [LinearOrder K] [IsStrictOrderedRing K] in
theorem covar_eq (cloud : Fin n → Point K D) : covar cloud = ((1 : K) / (n - 1)) • 1 + covariance cloud := by
  ext a b
  simp only [covar, covariance, Matrix.smul_apply, Matrix.add_apply, Matrix.sum_apply, vecMulVec_apply, Pi.sub_apply, of_apply, smul_eq_mul]
  ring

/-- C81, the part that holds: all except the orientation; fewer than two points give the identity. -/
theorem C81_init_partial (eig : Mat K D → Mat K D) (srt : Point K D → Equiv.Perm (Fin D)) (dims : Point K D) (cloud : Fin n → Point K D)
    (hs : SortsAxes dims (srt dims)) (he : ∃ ev, IsEig (covar cloud) (eig (covar cloud)) ev) :
    (2 ≤ n → InitOk dims cloud (estimateInitTransform eig (setDimension srt dims) cloud)) ∧
    (n < 2 → estimateInitTransform eig (setDimension srt dims) cloud = ⟨1, 0⟩) := by
  refine ⟨fun hn => ?_, fun hn => if_pos hn⟩
  obtain ⟨ev, e1, e2, e3⟩ := he
  unfold estimateInitTransform
  rw [if_neg (not_lt.2 hn)]
  generalize eig (covar cloud) = E at *
  have hn0 : (n : K) ≠ 0 := Nat.cast_ne_zero.2 (by omega)
  refine ⟨fun d => ?_, ortho_mul e2 (permMat_ortho _), fun d => ev (setDimension srt dims d) - 1 / (n - 1), ?_, fun i j hij => ?_⟩
  · simp only [mean]
    field_simp
  · have h1 : covariance cloud = covar cloud - ((1 : K) / (n - 1)) • 1 := by rw [covar_eq, add_sub_cancel_left]
    dsimp only
    rw [h1, Matrix.sub_mul, ← Matrix.mul_assoc, e3, Matrix.mul_assoc, diag_permMat, Matrix.smul_mul, Matrix.one_mul,
      show diagonal (fun d => ev (setDimension srt dims d) - 1 / ((n : K) - 1)) = diagonal (ev ∘ setDimension srt dims) - ((1 : K) / (n - 1)) • 1 by
        rw [smul_one_eq_diagonal, ← diagonal_sub]; rfl,
      Matrix.mul_sub, Matrix.mul_smul, Matrix.mul_one, Matrix.mul_assoc]
  · dsimp only
    have : setDimension srt dims i ≤ setDimension srt dims j := by
      by_contra hc
      have h2 := hs (not_le.1 hc).le
      have h3 : ∀ k, srt dims (setDimension srt dims k) = k := fun k => (srt dims).apply_symm_apply k
      simp only [Function.comp_apply, h3] at h2
      exact absurd h2 (not_le.2 hij)
    linarith [e1 this]

/-- A permutation that sorts sizes in increasing order is the identity. -/
theorem sorts_one {p : Equiv.Perm (Fin D)} (h : Monotone p) : p = 1 := by
  have h1 : StrictMono p := h.strictMono_of_injective p.injective
  have := Subsingleton.elim (OrderIso.refl (Fin D)) (h1.orderIsoOfSurjective p p.surjective)
  refine Equiv.ext fun i => ?_
  have h2 := congrArg (fun e : Fin D ≃o Fin D => e i) this
  simpa using h2.symm

/-- C81 fails for every eigenvalue solver, every cloud of at least two points and every dimension from 2: for some sizes of the box the
initial transformation is a reflection. -/
theorem C81_orientation_violated (hD : 1 < D) (eig : Mat K D → Mat K D) (srt : Point K D → Equiv.Perm (Fin D))
    (hs : ∀ dims, SortsAxes dims (srt dims)) (cloud : Fin n → Point K D) (hn : 2 ≤ n)
    (he : ∃ ev, IsEig (covar cloud) (eig (covar cloud)) ev) :
    ∃ dims : Point K D, (∀ d, 0 < dims d) ∧ (estimateInitTransform eig (setDimension srt dims) cloud).linear.det = -1 := by
  obtain ⟨ev, -, e2, -⟩ := he
  have key : ∀ s : Equiv.Perm (Fin D), srt (fun i => ((s i : ℕ) : K) + 1) = s⁻¹ := fun s => by
    have h := hs fun i => ((s i : ℕ) : K) + 1
    have h1 : Monotone (s * srt fun i => ((s i : ℕ) : K) + 1) := fun a b hab => by
      have := h hab
      simpa using this
    exact eq_inv_of_mul_eq_one_right (sorts_one h1)
  have hdet : ∀ s : Equiv.Perm (Fin D), (estimateInitTransform eig (setDimension srt fun i => ((s i : ℕ) : K) + 1) cloud).linear.det =
      (eig (covar cloud)).det * (Equiv.Perm.sign s : ℤ) := fun s => by
    unfold estimateInitTransform
    rw [if_neg (not_lt.2 hn), det_mul, permMat_det, setDimension, key, inv_inv]
  have hpos : ∀ s : Equiv.Perm (Fin D), ∀ d, (0 : K) < ((s d : ℕ) : K) + 1 := fun s d => by positivity
  rcases ortho_det e2 with h | h
  · refine ⟨_, hpos (Equiv.swap ⟨0, by omega⟩ ⟨1, hD⟩), ?_⟩
    rw [hdet, h, Equiv.Perm.sign_swap (by simp)]
    norm_num
  · refine ⟨_, hpos 1, ?_⟩
    rw [hdet, h]
    norm_num

/-- The statement of C81 is false in the plane: sizes 2 and 1 with the eigenvectors in the identity matrix. -/
theorem C81_violated : ¬ C81_statement ℚ 2 := by
  intro h
  have hc : (covar ![![0, 0], ![0, 2]] : Mat ℚ 2) = diagonal ![1, 3] := by
    ext a b; fin_cases a <;> fin_cases b <;> simp [covar, mean, vecMulVec, Matrix.sum_apply] <;> norm_num
  have h1 := h 2 (fun _ => 1) (fun _ => Equiv.swap 0 1) ![2, 1] ![![0, 0], ![0, 2]] (le_refl 2) (fun d => by fin_cases d <;> norm_num)
    (fun a b hab => by fin_cases a <;> fin_cases b <;> first | exact absurd hab (by decide) | norm_num)
    ⟨![1, 3], fun a b hab => by fin_cases a <;> fin_cases b <;> first | exact absurd hab (by decide) | norm_num, by simp, by rw [hc]; simp⟩
  have h2 := h1.2.2
  rw [estimateInitTransform, if_neg (by omega), det_mul, det_one, one_mul, permMat_det] at h2
  revert h2
  decide

-- two points on a line
example : (covar ![![0, 0], ![0, 2]] : Mat ℚ 2) = !![1, 0; 0, 3] := by
  ext a b; fin_cases a <;> fin_cases b <;> simp [covar, mean, vecMulVec, Matrix.sum_apply] <;> norm_num

end Verif.Box
