import Verif.Box.IterateProps
import Verif.Box.InitProps
import Verif.Box.SymmetryProps
import Mathlib.LinearAlgebra.Matrix.Charpoly.Basic
import Mathlib.Algebra.Polynomial.Roots
import Mathlib.Data.List.Sort

/-! Property theorems C165 (see properties.jsonl): the registration of a box moves with the scene. -/
namespace Verif.Box
open Verif Matrix Finset

variable {K : Type} [Field K] [LinearOrder K] [IsStrictOrderedRing K] {D n : ℕ}

/-- First `T`, then `M`. -/
def Transf.comp (M T : Transf K D) : Transf K D := ⟨M.linear * T.linear, M.linear *ᵥ T.transl + M.transl⟩

/-- The moved cloud. -/
def moved (M : Transf K D) (cloud : Fin n → Point K D) : Fin n → Point K D := fun i => M.apply (cloud i)

/-- C165, full statement: moving the cloud and the box by the same rotation and translation moves the result of a step of the registration. -/
def C165_statement (K : Type) [Field K] [LinearOrder K] [IsStrictOrderedRing K] (D : ℕ) (inv : Mat K D → Mat K D) (svd : Mat K D → Mat K D × Mat K D) : Prop :=
  ∀ (n : ℕ) (dims : Point K D) (cloud src : Fin n → Point K D) (T M : Transf K D), 0 < n → Sizes dims → Rotation T.linear → Rotation M.linear →
    modelPoints dims (T.inverse inv) cloud = .ok src → SvdOk svd src cloud → SvdOk svd src (moved M cloud) →
    ∃ T', computeTransform inv svd dims cloud T = .ok (some T') ∧ computeTransform inv svd dims (moved M cloud) (M.comp T) = .ok (some (M.comp T'))

omit [IsStrictOrderedRing K] [LinearOrder K] in
theorem comp_apply (M T : Transf K D) (p : Point K D) : (M.comp T).apply p = M.apply (T.apply p) := by
  simp only [Transf.comp, Transf.apply, mulVec_add, mulVec_mulVec]
  abel

omit [IsStrictOrderedRing K] [LinearOrder K] in
theorem rotation_mul {A B : Mat K D} (hA : Rotation A) (hB : Rotation B) : Rotation (A * B) :=
  ⟨ortho_mul hA.1 hB.1, by rw [det_mul, hA.2, hB.2, one_mul]⟩

omit [IsStrictOrderedRing K] [LinearOrder K] in
theorem inv_rotation {inv : Mat K D → Mat K D} (hinv : ∀ M, Rotation M → inv M * M = 1) {M : Mat K D} (h : Rotation M) : inv M = Mᵀ := by
  have := congrArg (· * Mᵀ) (hinv M h)
  simpa [Matrix.mul_assoc, ortho_comm h.1] using this

omit [IsStrictOrderedRing K] [LinearOrder K] in
/-- The cloud seen from the box is the same. -/
theorem local_same {inv : Mat K D → Mat K D} (hinv : ∀ M, Rotation M → inv M * M = 1) {T M : Transf K D} (hT : Rotation T.linear) (hM : Rotation M.linear) (p : Point K D) :
    ((M.comp T).inverse inv).apply (M.apply p) = (T.inverse inv).apply p := by
  unfold Transf.inverse Transf.comp Transf.apply
  dsimp only
  rw [inv_rotation hinv hT, inv_rotation hinv (rotation_mul hM hT), transpose_mul]
  have e : T.linearᵀ * M.linearᵀ * M.linear = T.linearᵀ := by rw [Matrix.mul_assoc, hM.1, Matrix.mul_one]
  rw [mulVec_add, mulVec_add, mulVec_mulVec, mulVec_mulVec, e]
  abel

theorem model_same {inv : Mat K D → Mat K D} (hinv : ∀ M, Rotation M → inv M * M = 1) {T M : Transf K D} (hT : Rotation T.linear) (hM : Rotation M.linear) (dims : Point K D)
    (cloud : Fin n → Point K D) : modelPoints dims ((M.comp T).inverse inv) (moved M cloud) = modelPoints dims (T.inverse inv) cloud := by
  unfold modelPoints moved
  simp only [local_same hinv hT hM]

omit [LinearOrder K] [IsStrictOrderedRing K] in
theorem mean_moved [CharZero K] (hn : 0 < n) (M : Transf K D) (cloud : Fin n → Point K D) : mean (moved M cloud) = M.apply (mean cloud) := by
  have h : (n : K) ≠ 0 := Nat.cast_ne_zero.2 hn.ne'
  have e : ∀ p : Fin n → Point K D, mean p = (n : K)⁻¹ • ∑ i, p i := fun p => by
    funext d
    simp only [mean, Pi.smul_apply, Finset.sum_apply, smul_eq_mul]
    rw [mul_one, div_eq_inv_mul]
  rw [e, e]
  unfold moved Transf.apply
  rw [sum_add_distrib, smul_add, mulVec_smul, ← mulVec_sum, sum_const, card_univ, Fintype.card_fin, ← Nat.cast_smul_eq_nsmul K, smul_smul, inv_mul_cancel₀ h, one_smul]

omit [LinearOrder K] [IsStrictOrderedRing K] in
theorem scatter_moved [CharZero K] (hn : 0 < n) (M : Transf K D) (src cloud : Fin n → Point K D) : scatter src (moved M cloud) = scatter src cloud * M.linearᵀ := by
  unfold scatter
  rw [mean_moved hn, sum_mul]
  refine sum_congr rfl fun i _ => ?_
  rw [show moved M cloud i - M.apply (mean cloud) = M.linear *ᵥ (cloud i - mean cloud) by unfold moved Transf.apply; rw [mulVec_sub]; abel]
  rw [vecMulVec_mul, vecMul_transpose]

omit [IsStrictOrderedRing K] in
/-- Orthogonal diagonalisations of a matrix have the same values in the same order. -/
theorem same_values {A B : Mat K D} {f g : Fin D → K} (hA : Aᵀ * A = 1) (hB : Bᵀ * B = 1) (h : A * diagonal f * Aᵀ = B * diagonal g * Bᵀ) :
    (univ : Finset (Fin D)).val.map f = univ.val.map g := by
  have key : ∀ {A : Mat K D} {f : Fin D → K}, Aᵀ * A = 1 → (A * diagonal f * Aᵀ).charpoly.roots = univ.val.map f := by
    intro A f hA
    have := charpoly_units_conj ⟨A, Aᵀ, ortho_comm hA, hA⟩ (diagonal f)
    change (A * diagonal f * A⁻¹).charpoly = _ at this
    rw [inv_eq_left_inv hA] at this
    rw [this, charpoly_diagonal]
    have e := Polynomial.roots_multiset_prod_X_sub_C ((univ : Finset (Fin D)).val.map f)
    rw [Multiset.map_map] at e
    exact e
  rw [← key hA, ← key hB, h]

omit [Field K] [IsStrictOrderedRing K] in
theorem antitone_same {f g : Fin D → K} (hf : Antitone f) (hg : Antitone g) (h : (univ : Finset (Fin D)).val.map f = univ.val.map g) : f = g := by
  rw [Fin.univ_val_map, Fin.univ_val_map, Multiset.coe_eq_coe] at h
  exact List.ofFn_injective (h.eq_of_sortedGE (List.sortedGE_ofFn_iff.2 hf) (List.sortedGE_ofFn_iff.2 hg))

omit [Field K] [IsStrictOrderedRing K] in
theorem monotone_same {f g : Fin D → K} (hf : Monotone f) (hg : Monotone g) (h : (univ : Finset (Fin D)).val.map f = univ.val.map g) : f = g := by
  rw [Fin.univ_val_map, Fin.univ_val_map, Multiset.coe_eq_coe] at h
  exact List.ofFn_injective (h.eq_of_sortedLE (List.sortedLE_ofFn_iff.2 hf) (List.sortedLE_ofFn_iff.2 hg))

/-- The singular values are determined by the matrix. -/
theorem svd_values {S U V U' V' : Mat K D} {σ σ' : Fin D → K} (h : IsSVD S U V σ) (h' : IsSVD S U' V' σ') : σ' = σ := by
  obtain ⟨p, a, hU, hV, e⟩ := h
  obtain ⟨p', a', hU', hV', e'⟩ := h'
  have key : ∀ {U V : Mat K D} {σ : Fin D → K}, Uᵀ * U = 1 → S = U * diagonal σ * Vᵀ → Sᵀ * S = V * diagonal (σ * σ) * Vᵀ := by
    intro U V σ hU e
    rw [e, transpose_mul, transpose_mul, transpose_transpose, diagonal_transpose,
      show V * (diagonal σ * Uᵀ) * (U * diagonal σ * Vᵀ) = V * (diagonal σ * (Uᵀ * U) * diagonal σ) * Vᵀ by simp only [Matrix.mul_assoc], hU, Matrix.mul_one, diagonal_mul_diagonal]
    rfl
  have anti : ∀ {σ : Fin D → K}, (∀ i, 0 ≤ σ i) → Antitone σ → Antitone (σ * σ) := fun p a i j hij => mul_le_mul (a hij) (a hij) (p j) (p i)
  have := antitone_same (anti p' a') (anti p a) (same_values hV' hV ((key hU' e').symm.trans (key hU e)))
  funext i
  have hi := congrFun this i
  simp only [Pi.mul_apply] at hi
  exact (mul_self_inj (p' i) (p i)).1 hi

/-- The singular values do not vanish, and the matrix preserves the orientation or the second value is simple. -/
def Definite (S : Mat K D) (σ : Fin D → K) : Prop := (∀ i, σ i ≠ 0) ∧ (0 < S.det ∨ ∀ i j : Fin D, (j : ℕ) = 1 → i ≠ j → σ i ≠ σ j)

/-- The rotation computed from a decomposition of a definite matrix does not depend on the decomposition. -/
theorem result_unique {S U V U' V' : Mat K D} {σ σ' : Fin D → K} (h : IsSVD S U V σ) (h' : IsSVD S U' V' σ') (hd : Definite S σ) :
    V' * flip (detSign U' V') * U'ᵀ = V * flip (detSign U V) * Uᵀ := by
  have hσ := svd_values h h'
  subst hσ
  obtain ⟨p, a, hU, hV, e⟩ := h
  obtain ⟨-, -, hU', hV', e'⟩ := h'
  obtain ⟨hne, hor⟩ := hd
  have hU2 := ortho_comm hU
  have hV2 := ortho_comm hV
  have hU2' := ortho_comm hU'
  have hV2' := ortho_comm hV'
  -- the two decompositions differ by `A` and `W`
  set A := U'ᵀ * U with hA
  set W := V'ᵀ * V with hW
  have e1 : A * diagonal σ' = diagonal σ' * W := by
    have := congrArg (fun X => U'ᵀ * X * V) (e.symm.trans e')
    calc A * diagonal σ' = U'ᵀ * (U * diagonal σ' * Vᵀ) * V := by simp only [hA, Matrix.mul_assoc, hV, Matrix.mul_one]
      _ = U'ᵀ * (U' * diagonal σ' * V'ᵀ) * V := this
      _ = (U'ᵀ * U') * diagonal σ' * W := by simp only [hW, Matrix.mul_assoc]
      _ = _ := by rw [hU', Matrix.one_mul]
  have hAo : Aᵀ * A = 1 := ortho_mul (ortho_tr hU') hU
  have hWo : Wᵀ * W = 1 := ortho_mul (ortho_tr hV') hV
  have hAo2 := ortho_comm hAo
  have e2 : diagonal σ' * Aᵀ = Wᵀ * diagonal σ' := by
    have := congrArg transpose e1
    rwa [transpose_mul A, transpose_mul _ W, diagonal_transpose] at this
  have e3 : ∀ i j, W i j * (σ' j * σ' j - σ' i * σ' i) = 0 := by
    intro i j
    have e4 : W * diagonal (σ' * σ') = diagonal (σ' * σ') * W := by
      have hd2 : diagonal (σ' * σ') = diagonal σ' * diagonal σ' := by rw [diagonal_mul_diagonal]; rfl
      calc W * diagonal (σ' * σ') = W * (diagonal σ' * Aᵀ) * (A * diagonal σ') := by
            rw [hd2, show W * (diagonal σ' * Aᵀ) * (A * diagonal σ') = W * (diagonal σ' * (Aᵀ * A) * diagonal σ') by simp only [Matrix.mul_assoc], hAo, Matrix.mul_one]
        _ = W * (Wᵀ * diagonal σ') * (diagonal σ' * W) := by rw [e2, e1]
        _ = (W * Wᵀ) * (diagonal σ' * diagonal σ') * W := by simp only [Matrix.mul_assoc]
        _ = _ := by rw [ortho_comm hWo, Matrix.one_mul, hd2]
    have := congrFun (congrFun e4 i) j
    rw [mul_diagonal, diagonal_mul] at this
    simp only [Pi.mul_apply] at this
    linear_combination this
  have e5 : ∀ i j, σ' i ≠ σ' j → W i j = 0 := fun i j hij => by
    rcases mul_eq_zero.1 (e3 i j) with h | h
    · exact h
    · exact absurd ((mul_self_inj (p i) (p j)).1 (by linarith)) hij
  have e6 : A = W := by
    ext i j
    have := congrFun (congrFun e1 i) j
    rw [mul_diagonal, diagonal_mul] at this
    by_cases hij : σ' i = σ' j
    · rw [hij, mul_comm (σ' j)] at this
      exact mul_right_cancel₀ (hne j) this
    · rw [e5 i j hij, mul_zero] at this
      rw [e5 i j hij]
      exact (mul_eq_zero.1 this).resolve_right (hne j)
  have eV : V = V' * W := by rw [hW, ← Matrix.mul_assoc, hV2', Matrix.one_mul]
  have eU : U = U' * W := by rw [← e6, hA, ← Matrix.mul_assoc, hU2', Matrix.one_mul]
  have hs : detSign U V = detSign U' V' := by
    unfold detSign
    rw [show V * Uᵀ = V' * U'ᵀ by
      rw [eV, eU, transpose_mul, show V' * W * (Wᵀ * U'ᵀ) = V' * (W * Wᵀ) * U'ᵀ by simp only [Matrix.mul_assoc], ortho_comm hWo, Matrix.mul_one]]
  have hc : W * flip (detSign U' V') = flip (detSign U' V') * W := by
    rcases hor with hdet | hsim
    · have : detSign U' V' = 1 := by
        have hdS : 0 < U'.det * (∏ i, σ' i) * V'.det := by rw [e', det_mul, det_mul, det_diagonal, det_transpose] at hdet; exact hdet
        have hpr : 0 ≤ ∏ i, σ' i := prod_nonneg fun i _ => p i
        rcases (detSign_eq hU' hV').2 with h1 | h1
        · exact h1
        · exfalso
          rw [(detSign_eq hU' hV').1] at h1
          have : U'.det * (∏ i, σ' i) * V'.det = (V'.det * U'.det) * ∏ i, σ' i := by ring
          rw [this, h1] at hdS
          linarith
      rw [this]
      have : (flip (1 : K) : Mat K D) = 1 := by unfold flip; simp
      rw [this, Matrix.mul_one, Matrix.one_mul]
    · ext i j
      unfold flip
      rw [mul_diagonal, diagonal_mul]
      by_cases hij : i = j
      · rw [hij, mul_comm]
      · by_cases hi : (i : ℕ) = 1
        · rw [e5 i j (fun h => hsim j i hi (Ne.symm hij) h.symm), mul_zero, zero_mul]
        · by_cases hj : (j : ℕ) = 1
          · rw [e5 i j (hsim i j hj hij), mul_zero, zero_mul]
          · rw [if_neg hi, if_neg hj, mul_comm]
  rw [hs, eU, transpose_mul]
  rw [eV]
  calc _ = V' * (flip (detSign U' V') * (W * Wᵀ)) * U'ᵀ := by rw [ortho_comm hWo, Matrix.mul_one]
    _ = V' * (flip (detSign U' V') * W) * Wᵀ * U'ᵀ := by simp only [Matrix.mul_assoc]
    _ = V' * (W * flip (detSign U' V')) * Wᵀ * U'ᵀ := by rw [hc]
    _ = _ := by simp only [Matrix.mul_assoc]

/-- A decomposition turns with the matrix. -/
theorem svd_turned {S U V Q : Mat K D} {σ : Fin D → K} (h : IsSVD S U V σ) (hQ : Qᵀ * Q = 1) : IsSVD (S * Qᵀ) U (Q * V) σ := by
  obtain ⟨p, a, hU, hV, e⟩ := h
  refine ⟨p, a, hU, ortho_mul hQ hV, ?_⟩
  rw [e, transpose_mul]
  simp only [Matrix.mul_assoc]

theorem detSign_turned {U V Q : Mat K D} (hQ : Rotation Q) : detSign U (Q * V) = detSign U V := by
  unfold detSign
  rw [Matrix.mul_assoc, det_mul, hQ.2, one_mul]

/-- **C165** One step, when the rotation is determined. -/
theorem C165_step_partial (hD : 1 < D) (hn : 0 < n) (inv : Mat K D → Mat K D) (svd : Mat K D → Mat K D × Mat K D) (dims : Point K D) (hd : Sizes dims) (cloud : Fin n → Point K D)
    (T M : Transf K D) (hT : Rotation T.linear) (hM : Rotation M.linear) (hinv : ∀ M, Rotation M → inv M * M = 1) {src : Fin n → Point K D}
    (hs : modelPoints dims (T.inverse inv) cloud = .ok src) {σ : Fin D → K} (h1 : IsSVD (scatter src cloud) (svd (scatter src cloud)).1 (svd (scatter src cloud)).2 σ)
    (h2 : SvdOk svd src (moved M cloud)) (hdef : Definite (scatter src cloud) σ) :
    ∃ T', computeTransform inv svd dims cloud T = .ok (some T') ∧ computeTransform inv svd dims (moved M cloud) (M.comp T) = .ok (some (M.comp T')) := by
  refine ⟨_, compute_eq hD hn hs, ?_⟩
  have hs' : modelPoints dims ((M.comp T).inverse inv) (moved M cloud) = .ok src := by rw [model_same hinv hT hM]; exact hs
  rw [compute_eq hD hn hs']
  obtain ⟨σ', h2⟩ := h2
  have h3 := svd_turned h1 hM.1
  rw [← scatter_moved hn] at h3
  have hdet : (scatter src (moved M cloud)).det = (scatter src cloud).det := by rw [scatter_moved hn, det_mul, det_transpose, hM.2, mul_one]
  have key := result_unique h3 h2 ⟨hdef.1, by rw [hdet]; exact hdef.2⟩
  rw [key, detSign_turned hM, mean_moved hn]
  refine congrArg Except.ok (congrArg some ?_)
  unfold Transf.comp Transf.apply
  dsimp only
  rw [mulVec_sub, mulVec_mulVec]
  refine congrArg₂ Transf.mk (by simp only [Matrix.mul_assoc]) ?_
  simp only [Matrix.mul_assoc]
  abel

/-- **C165** A translation, for all the clouds and decompositions. -/
theorem C165_translate (hD : 1 < D) (hn : 0 < n) (inv : Mat K D → Mat K D) (svd : Mat K D → Mat K D × Mat K D) (dims : Point K D) (hd : Sizes dims) (cloud : Fin n → Point K D)
    (T : Transf K D) (hT : Rotation T.linear) (hinv : ∀ M, Rotation M → inv M * M = 1) (t : Point K D) :
    ∃ T', computeTransform inv svd dims cloud T = .ok (some T') ∧
      computeTransform inv svd dims (fun i => cloud i + t) ⟨T.linear, T.transl + t⟩ = .ok (some ⟨T'.linear, T'.transl + t⟩) := by
  obtain ⟨src, hs, -⟩ := modelPoints_ok (by omega) hd (T.inverse inv) cloud
  have hM : Rotation (⟨1, t⟩ : Transf K D).linear := ⟨by simp, by simp⟩
  have e1 : moved ⟨1, t⟩ cloud = fun i => cloud i + t := by funext i; simp [moved, Transf.apply]
  have e2 : (⟨1, t⟩ : Transf K D).comp T = ⟨T.linear, T.transl + t⟩ := by simp [Transf.comp]
  have hs' : modelPoints dims ((⟨T.linear, T.transl + t⟩ : Transf K D).inverse inv) (fun i => cloud i + t) = .ok src := by rw [← e1, ← e2, model_same hinv hT hM]; exact hs
  refine ⟨_, compute_eq hD hn hs, ?_⟩
  rw [compute_eq hD hn hs']
  have e3 : scatter src (fun i => cloud i + t) = scatter src cloud := by rw [← e1, scatter_moved hn, transpose_one, Matrix.mul_one]
  have e4 : mean (fun i => cloud i + t) = mean cloud + t := by rw [← e1, mean_moved hn, Transf.apply, one_mulVec]
  rw [e3, e4]
  refine congrArg Except.ok (congrArg some (congrArg₂ Transf.mk rfl (add_sub_right_comm _ _ _)))

theorem isSVD_scale {S U V : Mat K D} {σ : Fin D → K} (h : IsSVD S U V σ) {c : K} (hc : 0 < c) : IsSVD (c • S) U V (c • σ) := by
  obtain ⟨p, a, hU, hV, e⟩ := h
  refine ⟨fun i => mul_nonneg hc.le (p i), fun i j hij => mul_le_mul_of_nonneg_left (a hij) hc.le, hU, hV, ?_⟩
  rw [e, diagonal_smul, Matrix.mul_smul, Matrix.smul_mul]

omit [LinearOrder K] [IsStrictOrderedRing K] in
theorem mean_scale (c : K) (p : Fin n → Point K D) : mean (fun i => c • p i) = c • mean p := by
  funext d
  simp only [mean, Pi.smul_apply, smul_eq_mul, ← mul_sum]
  ring

/-- The associated points in another unit of length. -/
theorem model_scale (dims : Point K D) (hd : Sizes dims) (T : Transf K D) {c : K} (hc : 0 < c) (cloud src : Fin n → Point K D) (h : modelPoints dims T cloud = .ok src) :
    modelPoints (c • dims) ⟨T.linear, c • T.transl⟩ (fun i => c • cloud i) = .ok fun i => c • src i := by
  have hx : ∀ p : Point K D, ext (c • p) = fun i => c * ext p i := fun p => by
    funext i
    unfold ext
    split <;> simp
  have e : ∀ i, associate D (ext (c • dims)) (ext ((⟨T.linear, c • T.transl⟩ : Transf K D).apply (c • cloud i))) (fun _ => 0) =
      (associate D (ext dims) (ext (T.apply (cloud i))) (fun _ => 0)).map fun p i => c * p i := fun i => by
    have := C157_mirror D (ext dims) (ext (T.apply (cloud i))) (fun _ => 0) (fun _ => c) c hc (fun d h => by rw [ext_lt _ h]; exact hd _) (fun _ _ => Or.inl rfl)
    rw [← this, hx, show (⟨T.linear, c • T.transl⟩ : Transf K D).apply (c • cloud i) = c • T.apply (cloud i) by
      unfold Transf.apply; dsimp only; rw [mulVec_smul, smul_add], hx]
    simp
  unfold modelPoints at h ⊢
  split at h
  case isFalse => cases h
  case isTrue hok =>
    rw [if_pos]
    · refine congrArg _ ?_
      have h := Except.ok.inj h
      funext i
      rw [e i, ← congrFun h i]
      have := hok i
      cases hr : associate D (ext dims) (ext (T.apply (cloud i))) (fun _ => 0) with
      | error x => rw [hr] at this; exact absurd this Bool.false_ne_true
      | ok q => rfl
    · intro i
      rw [e i]
      have := hok i
      cases hr : associate D (ext dims) (ext (T.apply (cloud i))) (fun _ => 0) with
      | error x => rw [hr] at this; exact absurd this Bool.false_ne_true
      | ok q => rfl

/-- **C165** The unit of length, when the rotation is determined. -/
theorem C165_unit_partial (hD : 1 < D) (hn : 0 < n) (inv : Mat K D → Mat K D) (svd : Mat K D → Mat K D × Mat K D) (dims : Point K D) (hd : Sizes dims) (cloud : Fin n → Point K D)
    (T : Transf K D) {c : K} (hc : 0 < c) {src : Fin n → Point K D}
    (hs : modelPoints dims (T.inverse inv) cloud = .ok src) {σ : Fin D → K} (h1 : IsSVD (scatter src cloud) (svd (scatter src cloud)).1 (svd (scatter src cloud)).2 σ)
    (h2 : SvdOk svd (fun i => c • src i) fun i => c • cloud i) (hdef : Definite (scatter src cloud) σ) :
    ∃ T', computeTransform inv svd dims cloud T = .ok (some T') ∧
      computeTransform inv svd (c • dims) (fun i => c • cloud i) ⟨T.linear, c • T.transl⟩ = .ok (some ⟨T'.linear, c • T'.transl⟩) := by
  have hs' := model_scale dims hd (T.inverse inv) hc cloud src hs
  rw [show (⟨(T.inverse inv).linear, c • (T.inverse inv).transl⟩ : Transf K D) = Transf.inverse inv ⟨T.linear, c • T.transl⟩ by
    unfold Transf.inverse; dsimp only; rw [mulVec_smul, smul_neg]] at hs'
  refine ⟨_, compute_eq hD hn hs, ?_⟩
  rw [compute_eq hD hn hs']
  have hsc : scatter (fun i => c • src i) (fun i => c • cloud i) = (c * c) • scatter src cloud := by
    unfold scatter
    rw [mean_scale, mean_scale, smul_sum]
    refine sum_congr rfl fun i _ => ?_
    rw [← smul_sub, ← smul_sub, smul_vecMulVec, vecMulVec_smul, smul_smul]
  obtain ⟨σ', h2⟩ := h2
  have hcc := mul_pos hc hc
  have h3 := isSVD_scale h1 hcc
  rw [← hsc] at h3
  have hdef' : Definite (scatter (fun i => c • src i) fun i => c • cloud i) ((c * c) • σ) := by
    refine ⟨fun i => mul_ne_zero hcc.ne' (hdef.1 i), hdef.2.imp (fun h => ?_) fun h i j hj hij he => h i j hj hij (mul_left_cancel₀ hcc.ne' he)⟩
    rw [hsc, det_smul]
    exact mul_pos (pow_pos hcc _) h
  rw [result_unique h3 h2 hdef', mean_scale, mean_scale, mulVec_smul, smul_sub]

/-- The decompositions of the first `k` calls are correct and their matrices definite. -/
def DefiniteAlong (inv : Mat K D → Mat K D) (svd : Mat K D → Mat K D × Mat K D) (dims : Point K D) (cloud : Fin n → Point K D) : ℕ → Transf K D → Prop
  | 0, _ => True
  | k + 1, T => (∀ src, modelPoints dims (T.inverse inv) cloud = .ok src → ∃ σ, IsSVD (scatter src cloud) (svd (scatter src cloud)).1 (svd (scatter src cloud)).2 σ ∧
      Definite (scatter src cloud) σ) ∧ ∀ T', computeTransform inv svd dims cloud T = .ok (some T') → DefiniteAlong inv svd dims cloud k T'

/-- **C165** Any number of steps. -/
theorem C165_steps_partial (hD : 1 < D) (hn : 0 < n) (inv : Mat K D → Mat K D) (svd : Mat K D → Mat K D × Mat K D) (dims : Point K D) (hd : Sizes dims) (cloud : Fin n → Point K D)
    (M : Transf K D) (hM : Rotation M.linear) (hinv : ∀ M, Rotation M → inv M * M = 1) (k : ℕ) (T : Transf K D) (hT : Rotation T.linear)
    (h1 : DefiniteAlong inv svd dims cloud k T) (h2 : SvdAlong inv svd dims (moved M cloud) k (M.comp T)) :
    ∃ T', register inv svd dims cloud k T = .ok (some T') ∧ register inv svd dims (moved M cloud) k (M.comp T) = .ok (some (M.comp T')) := by
  induction k generalizing T with
  | zero => exact ⟨T, rfl, rfl⟩
  | succ k ih =>
    obtain ⟨g1, g2⟩ := h1
    obtain ⟨f1, f2⟩ := h2
    obtain ⟨src, hs, -, hr⟩ := C79_rigid hD inv svd dims hd cloud T
    obtain ⟨σ, e1, e2⟩ := g1 src hs
    have hs' : modelPoints dims ((M.comp T).inverse inv) (moved M cloud) = .ok src := by rw [model_same hinv hT hM]; exact hs
    obtain ⟨T', c1, c2⟩ := C165_step_partial hD hn inv svd dims hd cloud T M hT hM hinv hs e1 (f1 src hs') e2
    obtain ⟨T1, c3, hrot, -⟩ := (hr ⟨σ, e1⟩).2 hn
    have : T1 = T' := Option.some.inj (Except.ok.inj (c3.symm.trans c1))
    subst this
    obtain ⟨T'', r1, r2⟩ := ih T1 hrot (g2 _ c1) (f2 _ c2)
    refine ⟨T'', ?_, ?_⟩
    · unfold register
      rw [c1]
      exact r1
    · unfold register
      rw [c2]
      exact r2

/-- The matrix -1 of the plane: half a turn. -/
theorem rotation_half : Rotation (-1 : Mat K 2) := ⟨by simp, by rw [det_fin_two]; simp⟩

/-- C165 is false for every decomposition: with one point the rotation is always the same. -/
theorem C165_violated (inv : Mat K 2 → Mat K 2) (svd : Mat K 2 → Mat K 2 × Mat K 2) (hsvd : ∃ σ, IsSVD 0 (svd 0).1 (svd 0).2 σ) : ¬ C165_statement K 2 inv svd := by
  intro h
  obtain ⟨src, hs, -⟩ := modelPoints_ok (n := 1) (by omega) (dims := fun _ => 1) (fun _ => zero_le_one) ((⟨1, 0⟩ : Transf K 2).inverse inv) (fun _ => 0)
  have e : ∀ dst : Fin 1 → Point K 2, scatter src dst = 0 := fun dst => by
    unfold scatter
    rw [Fin.sum_univ_one, show src 0 - mean src = 0 by funext d; simp [mean], zero_vecMulVec]
  obtain ⟨T', h1, h2⟩ := h 1 (fun _ => 1) (fun _ => 0) src ⟨1, 0⟩ ⟨-1, 0⟩ one_pos (fun _ => zero_le_one) ⟨by simp, by simp⟩ rotation_half hs
    (by unfold SvdOk; rw [e]; exact hsvd) (by unfold SvdOk; rw [e]; exact hsvd)
  obtain ⟨σ, hσ⟩ := hsvd
  obtain ⟨src', hs', -⟩ := modelPoints_ok (n := 1) (by omega) (dims := fun _ => 1) (fun _ => zero_le_one)
    (((⟨-1, 0⟩ : Transf K 2).comp ⟨1, 0⟩).inverse inv) (moved ⟨-1, 0⟩ fun _ => 0)
  have e' : ∀ dst : Fin 1 → Point K 2, scatter src' dst = 0 := fun dst => by
    unfold scatter
    rw [Fin.sum_univ_one, show src' 0 - mean src' = 0 by funext d; simp [mean], zero_vecMulVec]
  rw [compute_eq (by omega) one_pos hs, e] at h1
  rw [compute_eq (by omega) one_pos hs', e'] at h2
  have k1 := congrArg Transf.linear (Option.some.inj (Except.ok.inj h1))
  have k2 := congrArg Transf.linear (Option.some.inj (Except.ok.inj h2))
  dsimp only [Transf.comp] at k1 k2
  rw [k1] at k2
  have hR := result_rotation (by omega : 1 < 2) hσ.2.2.1 hσ.2.2.2.1
  rw [k1] at hR
  have hz : T'.linear = 0 := by
    ext i j
    have := congrFun (congrFun k2 i) j
    rw [Matrix.neg_mul, Matrix.one_mul, Matrix.neg_apply] at this
    rw [Matrix.zero_apply]
    linarith
  rw [hz] at hR
  have := hR.2
  rw [det_fin_two] at this
  simp at this

/-! ### The initial alignment -/

omit [LinearOrder K] [IsStrictOrderedRing K] in
theorem covar_moved [CharZero K] (hn : 0 < n) (M : Transf K D) (hM : M.linearᵀ * M.linear = 1) (cloud : Fin n → Point K D) : covar (moved M cloud) = M.linear * covar cloud * M.linearᵀ := by
  unfold covar
  rw [mean_moved hn, Matrix.mul_smul, Matrix.smul_mul, Matrix.mul_add, Matrix.add_mul, Matrix.mul_one, ortho_comm hM]
  refine congrArg _ (congrArg _ ?_)
  rw [Matrix.mul_sum, Matrix.sum_mul]
  refine sum_congr rfl fun i _ => ?_
  rw [show moved M cloud i - M.apply (mean cloud) = M.linear *ᵥ (cloud i - mean cloud) by unfold moved Transf.apply; rw [mulVec_sub]; abel]
  rw [mul_vecMulVec, vecMulVec_mul, vecMul_transpose]

/-- Eigenvectors of distinct eigenvalues are determined up to their signs. -/
theorem eig_unique {C E E' : Mat K D} {ev ev' : Fin D → K} (h : IsEig C E ev) (h' : IsEig C E' ev') (hs : StrictMono ev) :
    ∃ s : Fin D → K, (∀ i, s i = 1 ∨ s i = -1) ∧ E' = E * diagonal s := by
  obtain ⟨m, hE, e⟩ := h
  obtain ⟨m', hE', e'⟩ := h'
  have c : ∀ {E : Mat K D} {ev : Fin D → K}, Eᵀ * E = 1 → C * E = E * diagonal ev → C = E * diagonal ev * Eᵀ := fun hE e => by
    rw [← e, Matrix.mul_assoc, ortho_comm hE, Matrix.mul_one]
  have hv := monotone_same m' m (same_values hE' hE ((c hE' e').symm.trans (c hE e)))
  subst hv
  set W := Eᵀ * E' with hW
  clear_value W
  have hWo : Wᵀ * W = 1 := by rw [hW]; exact ortho_mul (ortho_tr hE) hE'
  have e1 : W * diagonal ev' = diagonal ev' * W := by
    have h3 : Eᵀ * C = diagonal ev' * Eᵀ := by
      rw [c hE e, ← Matrix.mul_assoc, ← Matrix.mul_assoc, hE, Matrix.one_mul]
    rw [hW, Matrix.mul_assoc, ← e', ← Matrix.mul_assoc, h3, Matrix.mul_assoc]
  have e2 : ∀ i j, i ≠ j → W i j = 0 := fun i j hij => by
    have := congrFun (congrFun e1 i) j
    rw [mul_diagonal, diagonal_mul] at this
    have h3 : W i j * (ev' j - ev' i) = 0 := by linear_combination this
    exact (mul_eq_zero.1 h3).resolve_right (sub_ne_zero.2 fun h => hij (hs.injective h.symm))
  have e3 : W = diagonal fun i => W i i := by
    ext i j
    by_cases hij : i = j
    · rw [hij, diagonal_apply_eq]
    · rw [e2 i j hij, diagonal_apply_ne _ hij]
  refine ⟨fun i => W i i, fun i => ?_, ?_⟩
  · have := congrFun (congrFun hWo i) i
    rw [e3, diagonal_transpose, diagonal_mul_diagonal, diagonal_apply_eq, one_apply_eq] at this
    exact mul_self_eq_one_iff.1 this
  · rw [← e3, hW, ← Matrix.mul_assoc, ortho_comm hE, Matrix.one_mul]

theorem surface_mirror {dims : Point K D} {s : Fin D → K} (hs : ∀ i, s i = 1 ∨ s i = -1) {p : Point K D} (h : Surface dims p) : Surface dims (diagonal s *ᵥ p) := by
  have e : ∀ d (hd : d < D), |ext (diagonal s *ᵥ p) d| = |ext p d| := fun d hd => by
    rw [ext_lt _ hd, ext_lt _ hd, mulVec_diagonal, abs_mul]
    rcases hs ⟨d, hd⟩ with h | h <;> rw [h] <;> simp
  obtain ⟨h1, d, hd, h2⟩ := h
  exact ⟨fun d hd => by rw [e d hd]; exact h1 d hd, d, hd, by rw [e d hd]; exact h2⟩

/-- **C165** The initial alignment, when the eigenvalues are distinct: its centre moves with the cloud, and the surface of the box is placed on the moved surface. -/
theorem C165_init_partial (hn : 2 ≤ n) (eig : Mat K D → Mat K D) (perm : Equiv.Perm (Fin D)) (dims : Point K D) (cloud : Fin n → Point K D) (M : Transf K D) (hM : Rotation M.linear)
    {ev : Fin D → K} (h1 : IsEig (covar cloud) (eig (covar cloud)) ev) (hs : StrictMono ev) (h2 : ∃ ev', IsEig (covar (moved M cloud)) (eig (covar (moved M cloud))) ev') :
    (estimateInitTransform eig perm (moved M cloud)).transl = M.apply (estimateInitTransform eig perm cloud).transl ∧
    ∀ x, (∃ p, Surface dims p ∧ (estimateInitTransform eig perm (moved M cloud)).apply p = x) ↔ ∃ p, Surface dims p ∧ M.apply ((estimateInitTransform eig perm cloud).apply p) = x := by
  unfold estimateInitTransform
  rw [if_neg (by omega), if_neg (by omega)]
  dsimp only
  have hm := mean_moved (by omega : 0 < n) M cloud
  refine ⟨hm, ?_⟩
  obtain ⟨ev', h2⟩ := h2
  have h3 : IsEig (covar (moved M cloud)) (M.linear * eig (covar cloud)) ev := by
    refine ⟨h1.1, ortho_mul hM.1 h1.2.1, ?_⟩
    rw [covar_moved (by omega) M hM.1, show M.linear * covar cloud * M.linearᵀ * (M.linear * eig (covar cloud)) = M.linear * covar cloud * (M.linearᵀ * M.linear) * eig (covar cloud) by
      simp only [Matrix.mul_assoc], hM.1, Matrix.mul_one, Matrix.mul_assoc, h1.2.2, Matrix.mul_assoc]
  obtain ⟨s, hs1, hs2⟩ := eig_unique h3 h2 hs
  rw [hs2, hm, show M.linear * eig (covar cloud) * diagonal s * permMat perm = M.linear * eig (covar cloud) * permMat perm * diagonal (s ∘ perm) by
    rw [Matrix.mul_assoc, diag_permMat, ← Matrix.mul_assoc]]
  have hs3 : ∀ i, (s ∘ perm) i = 1 ∨ (s ∘ perm) i = -1 := fun i => hs1 _
  have hss : ∀ p : Point K D, diagonal (s ∘ perm) *ᵥ (diagonal (s ∘ perm) *ᵥ p) = p := fun p => by
    funext i
    rw [mulVec_diagonal, mulVec_diagonal, ← mul_assoc]
    rcases hs3 i with h | h <;> rw [h] <;> simp
  have key : ∀ p : Point K D, (⟨M.linear * eig (covar cloud) * permMat perm * diagonal (s ∘ perm), M.apply (mean cloud)⟩ : Transf K D).apply p =
      M.apply ((⟨eig (covar cloud) * permMat perm, mean cloud⟩ : Transf K D).apply (diagonal (s ∘ perm) *ᵥ p)) := fun p => by
    unfold Transf.apply
    simp only [mulVec_add, mulVec_mulVec, Matrix.mul_assoc]
    abel
  intro x
  constructor
  · rintro ⟨p, hp, rfl⟩
    exact ⟨_, surface_mirror hs3 hp, (key p).symm⟩
  · rintro ⟨p, hp, rfl⟩
    exact ⟨_, surface_mirror hs3 hp, by rw [key, hss]⟩

/-- C165, the initial alignment: after half a turn the axes are the same, so the transformation itself does not turn. -/
theorem C165_init_violated (hn : 2 ≤ n) (eig : Mat K 2 → Mat K 2) (perm : Equiv.Perm (Fin 2)) (cloud : Fin n → Point K 2) (he : ∃ ev, IsEig (covar cloud) (eig (covar cloud)) ev) :
    Rotation (-1 : Mat K 2) ∧ (estimateInitTransform eig perm (moved ⟨-1, 0⟩ cloud)).linear = (estimateInitTransform eig perm cloud).linear ∧
      (estimateInitTransform eig perm cloud).linear ≠ ((⟨-1, 0⟩ : Transf K 2).comp (estimateInitTransform eig perm cloud)).linear := by
  have hc : covar (moved ⟨-1, 0⟩ cloud) = covar cloud := by
    rw [covar_moved (by omega) _ rotation_half.1]
    simp
  unfold estimateInitTransform
  rw [if_neg (by omega), if_neg (by omega), hc]
  refine ⟨rotation_half, rfl, fun h => ?_⟩
  dsimp only [Transf.comp] at h
  obtain ⟨ev, -, hE, -⟩ := he
  have ho := ortho_mul hE (permMat_ortho perm)
  set A := eig (covar cloud) * permMat perm
  have hz : A = 0 := by
    ext i j
    have := congrFun (congrFun h i) j
    rw [Matrix.neg_mul, Matrix.one_mul, Matrix.neg_apply] at this
    rw [Matrix.zero_apply]
    linarith
  rw [hz, Matrix.mul_zero] at ho
  have := congrFun (congrFun ho 0) 0
  simp at this

/-! ### Example: a box 4 x 2, four points around it, and a quarter of a turn -/

/-- The points of the example. -/
def exCloud : Fin 4 → Point ℚ 2 := ![![3, 0], ![-3, 0], ![0, 2], ![0, -2]]

/-- The points of the box associated to them. -/
def exSrc : Fin 4 → Point ℚ 2 := ![![2, 0], ![-2, 0], ![0, 1], ![0, -1]]

theorem ex_model : modelPoints ![4, 2] (Transf.inverse transpose ⟨1, 0⟩) exCloud = .ok exSrc := by
  obtain ⟨src, h, -⟩ := modelPoints_ok (D := 2) (by omega) (dims := ![4, 2]) (fun d => by fin_cases d <;> norm_num) (Transf.inverse transpose (⟨1, 0⟩ : Transf ℚ 2)) exCloud
  rw [h]
  refine congrArg _ ?_
  have e : ∀ i d, ((modelPoints ![4, 2] (Transf.inverse transpose (⟨1, 0⟩ : Transf ℚ 2)) exCloud).map fun p => p i d) = .ok (exSrc i d) := by decide +kernel
  funext i d
  have := e i d
  rw [h] at this
  exact Except.ok.inj this

theorem ex_scatter : scatter exSrc exCloud = diagonal ![12, 4] := by
  have m1 : mean exSrc = 0 := by funext d; fin_cases d <;> simp [mean, exSrc, Fin.sum_univ_four]
  have m2 : mean exCloud = 0 := by funext d; fin_cases d <;> simp [mean, exCloud, Fin.sum_univ_four]
  unfold scatter
  rw [m1, m2]
  ext a b
  fin_cases a <;> fin_cases b <;> simp [exSrc, exCloud, Fin.sum_univ_four, vecMulVec_apply, Matrix.add_apply] <;> norm_num

example : ∃ T', computeTransform transpose (fun S => if S = diagonal ![12, 4] then (1, 1) else (1, !![0, -1; 1, 0])) ![4, 2] exCloud ⟨1, 0⟩ = .ok (some T') ∧
    computeTransform transpose (fun S => if S = diagonal ![12, 4] then (1, 1) else (1, !![0, -1; 1, 0])) ![4, 2] (moved ⟨!![0, -1; 1, 0], ![5, 7]⟩ exCloud)
      (Transf.comp ⟨!![0, -1; 1, 0], ![5, 7]⟩ ⟨1, 0⟩) = .ok (some (Transf.comp ⟨!![0, -1; 1, 0], ![5, 7]⟩ T')) := by
  have hQ : Rotation (!![0, -1; 1, 0] : Mat ℚ 2) := by
    refine ⟨?_, by rw [det_fin_two_of]; norm_num⟩
    ext a b
    fin_cases a <;> fin_cases b <;> simp [Matrix.mul_apply, Fin.sum_univ_two]
  have hsvd : IsSVD (scatter exSrc exCloud) 1 1 ![12, 4] := by
    refine ⟨fun i => by fin_cases i <;> norm_num, fun a b hab => by fin_cases a <;> fin_cases b <;> first | exact absurd hab (by decide) | norm_num, by simp, by simp, by simp [ex_scatter]⟩
  refine C165_step_partial (by omega) (by omega) _ _ _ (fun d => by fin_cases d <;> norm_num) exCloud ⟨1, 0⟩ ⟨!![0, -1; 1, 0], ![5, 7]⟩ ⟨by simp, by simp⟩ hQ (fun M h => h.1) ex_model
    (σ := ![12, 4]) (by rw [if_pos ex_scatter]; exact hsvd) ⟨![12, 4], ?_⟩ ⟨fun i => by fin_cases i <;> norm_num, Or.inl (by rw [ex_scatter, det_diagonal, Fin.prod_univ_two]; norm_num)⟩
  have h3 := svd_turned hsvd hQ.1
  rw [Matrix.mul_one] at h3
  rw [scatter_moved (by omega)]
  dsimp only
  rw [if_neg]
  · exact h3
  · intro h
    have := congrFun (congrFun h 0) 0
    rw [ex_scatter] at this
    simp at this

end Verif.Box
