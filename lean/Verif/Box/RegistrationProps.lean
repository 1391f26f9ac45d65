import Verif.Box.RegistrationLemmas
import Mathlib.Data.Real.Basic

/-! Property theorems C79, C80 (see properties.jsonl). -/
namespace Verif.Box
open Verif Matrix Finset

variable {K : Type} [Field K] [LinearOrder K] [IsStrictOrderedRing K] {D n : ℕ}

omit [IsStrictOrderedRing K] [LinearOrder K] in
theorem ext_lt (p : Point K D) {i : ℕ} (h : i < D) : ext p i = p ⟨i, h⟩ := dif_pos h

omit [IsStrictOrderedRing K] [LinearOrder K] in
theorem dist2_ext (x p : Point K D) : dist2 D (ext x) (ext p) = (x - p) ⬝ᵥ (x - p) := by
  unfold dist2 dotProduct
  rw [sum_range]
  refine sum_congr rfl fun i _ => ?_
  rw [ext_lt _ i.2, ext_lt _ i.2, Pi.sub_apply, pow_two]

/-- The box has no negative size. -/
def Sizes (dims : Point K D) : Prop := ∀ d, 0 ≤ dims d

/-- The point is on the surface of the box. -/
def Surface (dims p : Point K D) : Prop := OnSurface D (ext dims) (ext p)

theorem associate_ok (hD : 0 < D) {dims : Point K D} (hd : Sizes dims) (x : Point K D) : ∃ p : ℕ → K,
    associate D (ext dims) (ext x) (fun _ => 0) = .ok p ∧ Surface dims (fun d : Fin D => p d) ∧
    ∀ q, Surface dims q → (x - fun d : Fin D => p d) ⬝ᵥ (x - fun d : Fin D => p d) ≤ (x - q) ⬝ᵥ (x - q) := by
  obtain ⟨p, h1, ⟨h2, h3⟩, h4⟩ := C57_nearest D hD (ext dims) (ext x) (fun _ => 0) fun d h => by rw [ext_lt _ h]; exact hd _
  have e : ∀ d < D, ext (fun d : Fin D => p d) d = p d := fun d h => ext_lt _ h
  refine ⟨p, h1, ⟨fun d h => by rw [e d h]; exact h2 d h, ?_⟩, fun q hq => ?_⟩
  · obtain ⟨d, h, h'⟩ := h3
    exact ⟨d, h, by rw [e d h]; exact h'⟩
  · rw [← dist2_ext, ← dist2_ext]
    refine le_trans (le_of_eq ?_) (h4 _ hq)
    unfold dist2
    exact sum_congr rfl fun d h => by rw [e d (mem_range.1 h)]

theorem modelPoints_ok (hD : 0 < D) {dims : Point K D} (hd : Sizes dims) (T : Transf K D) (cloud : Fin n → Point K D) : ∃ src,
    modelPoints dims T cloud = .ok src ∧ ∀ i, Surface dims (src i) ∧
      ∀ q, Surface dims q → (T.apply (cloud i) - src i) ⬝ᵥ (T.apply (cloud i) - src i) ≤ (T.apply (cloud i) - q) ⬝ᵥ (T.apply (cloud i) - q) := by
  have h : ∀ i, (associate D (ext dims) (ext (T.apply (cloud i))) (fun _ => 0)).isOk := fun i => by
    obtain ⟨p, h1, -⟩ := associate_ok hD hd (T.apply (cloud i))
    rw [h1]; rfl
  unfold modelPoints
  rw [if_pos h]
  refine ⟨_, rfl, fun i => ?_⟩
  obtain ⟨p, h1, h2, h3⟩ := associate_ok hD hd (T.apply (cloud i))
  rw [h1]
  exact ⟨h2, h3⟩

/-- The decomposition is correct for the matrix of these points. -/
def SvdOk (svd : Mat K D → Mat K D × Mat K D) (src dst : Fin n → Point K D) : Prop :=
  ∃ σ, IsSVD (scatter src dst) (svd (scatter src dst)).1 (svd (scatter src dst)).2 σ

omit [IsStrictOrderedRing K] in
theorem compute_eq (hD : 1 < D) (hn : 0 < n) {inv : Mat K D → Mat K D} {svd : Mat K D → Mat K D × Mat K D} {dims : Point K D}
    {cloud src : Fin n → Point K D} {T : Transf K D} (h : modelPoints dims (T.inverse inv) cloud = .ok src) :
    computeTransform inv svd dims cloud T = .ok (some ⟨(svd (scatter src cloud)).2 *
      flip (detSign (svd (scatter src cloud)).1 (svd (scatter src cloud)).2) * (svd (scatter src cloud)).1ᵀ,
      mean cloud - ((svd (scatter src cloud)).2 * flip (detSign (svd (scatter src cloud)).1 (svd (scatter src cloud)).2) *
        (svd (scatter src cloud)).1ᵀ) *ᵥ mean src⟩) := by
  unfold computeTransform
  rw [h]
  show (if n = 0 then _ else _) = _
  rw [if_neg hn.ne']
  show (if ¬ 1 < D then _ else _) = _
  rw [if_neg (not_not.2 hD)]
  rfl

/-- C79: the step of the registration is defined and gives a rigid motion, which moves the centroid of the associated points to the centroid
of the cloud; without points the result is NaN. -/
theorem C79_rigid (hD : 1 < D) (inv : Mat K D → Mat K D) (svd : Mat K D → Mat K D × Mat K D) (dims : Point K D) (hd : Sizes dims)
    (cloud : Fin n → Point K D) (T : Transf K D) :
    ∃ src, modelPoints dims (T.inverse inv) cloud = .ok src ∧ (∀ i, Surface dims (src i)) ∧ (SvdOk svd src cloud →
      (n = 0 → computeTransform inv svd dims cloud T = .ok none) ∧
      (0 < n → ∃ T', computeTransform inv svd dims cloud T = .ok (some T') ∧ Rotation T'.linear ∧ T'.apply (mean src) = mean cloud)) := by
  obtain ⟨src, h1, h2⟩ := modelPoints_ok (by omega) hd (T.inverse inv) cloud
  refine ⟨src, h1, fun i => (h2 i).1, ?_⟩
  rintro ⟨σ, -, -, hU, hV, -⟩
  refine ⟨fun hn => ?_, fun hn => ⟨_, compute_eq hD hn h1, result_rotation hD hU hV, ?_⟩⟩
  · unfold computeTransform
    rw [h1]
    show (if n = 0 then _ else _) = _
    rw [if_pos hn]
    rfl
  · simp only [Transf.apply]
    abel

/-- C80: the step gives the rigid motion with the least sum of squared distances between the cloud and the moved associated points, and the
distance from the cloud to the surface of the box does not grow. -/
def C80_statement (K : Type) [Field K] [LinearOrder K] [IsStrictOrderedRing K] (D : ℕ) : Prop :=
  ∀ (n : ℕ) (inv : Mat K D → Mat K D) (svd : Mat K D → Mat K D × Mat K D) (dims : Point K D) (cloud : Fin n → Point K D) (T : Transf K D),
    0 < n → Sizes dims → Rotation T.linear → inv T.linear * T.linear = 1 →
    ∀ src, modelPoints dims (T.inverse inv) cloud = .ok src → SvdOk svd src cloud →
      ∃ T', computeTransform inv svd dims cloud T = .ok (some T') ∧
        (∀ Q, Rotation Q.linear → cost T' src cloud ≤ cost Q src cloud) ∧
        (∀ q, (∀ i, Surface dims (q i)) → ∃ q', (∀ i, Surface dims (q' i)) ∧ cost T' q' cloud ≤ cost T q cloud)

/-- The associated points are the best for the current transformation. -/
theorem associate_best (hD : 0 < D) {inv : Mat K D → Mat K D} {dims : Point K D} (hd : Sizes dims) {cloud src : Fin n → Point K D} {T : Transf K D}
    (hT : Rotation T.linear) (hinv : inv T.linear * T.linear = 1) (h : modelPoints dims (T.inverse inv) cloud = .ok src) :
    (∀ i, Surface dims (src i)) ∧ ∀ q, (∀ i, Surface dims (q i)) → cost T src cloud ≤ cost T q cloud := by
  obtain ⟨src', h1, h2⟩ := modelPoints_ok (by omega) hd (T.inverse inv) cloud
  have e : src' = src := by rw [h1] at h; exact Except.ok.inj h
  subst e
  refine ⟨fun i => (h2 i).1, fun q hq => sum_le_sum fun i _ => ?_⟩
  have e : ∀ p, (cloud i - T.apply p) ⬝ᵥ (cloud i - T.apply p) =
      ((T.inverse inv).apply (cloud i) - p) ⬝ᵥ ((T.inverse inv).apply (cloud i) - p) := fun p => by
    have hI := mul_eq_one_comm.1 hinv
    have : cloud i - T.apply p = T.linear *ᵥ ((T.inverse inv).apply (cloud i) - p) := by
      simp only [Transf.apply, Transf.inverse, mulVec_sub, mulVec_add, mulVec_neg, mulVec_mulVec, hI, one_mulVec]
      abel
    rw [this, ortho_dot hT.1]
  rw [e, e]
  exact (h2 i).2 (q i) (hq i)

/-- C80, the part that holds: in the plane, and in any dimension when no reflection has to be corrected. -/
theorem C80_optimal_partial (inv : Mat K D → Mat K D) (svd : Mat K D → Mat K D × Mat K D) (dims : Point K D)
    (cloud : Fin n → Point K D) (T : Transf K D) (hD : 1 < D) (hn : 0 < n) (hd : Sizes dims) (hT : Rotation T.linear)
    (hinv : inv T.linear * T.linear = 1) (src : Fin n → Point K D) (hsrc : modelPoints dims (T.inverse inv) cloud = .ok src)
    (hsvd : SvdOk svd src cloud) (hc : D = 2 ∨ ((svd (scatter src cloud)).2 * (svd (scatter src cloud)).1ᵀ).det = 1) :
    ∃ T', computeTransform inv svd dims cloud T = .ok (some T') ∧
        (∀ Q, Rotation Q.linear → cost T' src cloud ≤ cost Q src cloud) ∧
        (∀ q, (∀ i, Surface dims (q i)) → ∃ q', (∀ i, Surface dims (q' i)) ∧ cost T' q' cloud ≤ cost T q cloud) := by
  obtain ⟨σ, s1, s2, s3, s4, s5⟩ := hsvd
  have hbest : ∀ Q : Transf K D, Rotation Q.linear → cost ⟨(svd (scatter src cloud)).2 *
      flip (detSign (svd (scatter src cloud)).1 (svd (scatter src cloud)).2) * (svd (scatter src cloud)).1ᵀ,
      mean cloud - ((svd (scatter src cloud)).2 * flip (detSign (svd (scatter src cloud)).1 (svd (scatter src cloud)).2) *
        (svd (scatter src cloud)).1ᵀ) *ᵥ mean src⟩ src cloud ≤ cost Q src cloud := by
    intro Q hQ
    refine cost_le hn (result_rotation hD s3 s4).1 hQ.1 _ src cloud ?_
    generalize (svd (scatter src cloud)).1 = U at *
    generalize (svd (scatter src cloud)).2 = V at *
    obtain ⟨d1, d2⟩ := detSign_eq s3 s4
    rw [s5, result_trace s3 s4]
    rcases d2 with d2 | d2
    · rw [d2]
      simp only [ite_self, one_mul]
      exact trace_le s3 s4 hQ.1 s1
    · rcases hc with rfl | hc
      · rw [d2] at d1
        refine le_trans (trace_le_plane s3 s4 hQ d1.symm s2) (le_of_eq ?_)
        rw [Fin.sum_univ_two, d2]
        norm_num
        ring
      · rw [det_mul, det_transpose, ← d1, d2] at hc
        exact absurd hc (by norm_num)
  refine ⟨_, compute_eq hD hn hsrc, hbest, fun q hq => ?_⟩
  obtain ⟨b1, b2⟩ := associate_best (by omega) hd hT hinv hsrc
  exact ⟨src, b1, (hbest T hT).trans (b2 q hq)⟩

/-- C80 holds in the plane. -/
theorem C80_plane : C80_statement K 2 := fun n inv svd dims cloud T hn hd hT hinv src hsrc hsvd =>
  C80_optimal_partial inv svd dims cloud T (by omega) hn hd hT hinv src hsrc hsvd (Or.inl rfl)

/-- Eight points around a box of sizes 100, 100, 20: four inside, four outside. -/
def wCloud : Fin 8 → Point ℝ 3 := ![![10, 10, 1], ![10, -10, 1], ![-10, 10, 1], ![-10, -10, 1],
  ![60, 10, 5], ![60, -10, 5], ![-60, 10, 5], ![-60, -10, 5]]
/-- The points associated to them. -/
def wSrc : Fin 8 → Point ℝ 3 := ![![10, 10, 10], ![10, -10, 10], ![-10, 10, 10], ![-10, -10, 10],
  ![50, 10, 5], ![50, -10, 5], ![-50, 10, 5], ![-50, -10, 5]]
def wDims : Point ℝ 3 := ![100, 100, 20]

theorem wAssoc (i : Fin 8) : ∃ p : ℕ → ℝ, associate 3 (ext wDims) (ext (wCloud i)) (fun _ => 0) = .ok p ∧ (fun d : Fin 3 => p d) = wSrc i := by
  fin_cases i <;>
  · norm_num [associate, step, List.range_succ, edgeDist, better, ext, upd, wDims, wCloud, wSrc]
    try (funext d; fin_cases d <;> norm_num)

theorem wModel {inv : Mat ℝ 3 → Mat ℝ 3} (hinv : inv 1 = 1) : modelPoints wDims (Transf.inverse inv ⟨1, 0⟩) wCloud = .ok wSrc := by
  have e : ∀ p, (Transf.inverse inv ⟨1, 0⟩).apply p = p := fun p => by simp [Transf.apply, Transf.inverse, hinv]
  have h : ∀ i, (associate 3 (ext wDims) (ext ((Transf.inverse inv ⟨1, 0⟩).apply (wCloud i))) (fun _ => 0)).isOk := fun i => by
    obtain ⟨p, h, -⟩ := wAssoc i
    rw [e, h]; rfl
  unfold modelPoints
  rw [if_pos h]
  congr 1
  funext i
  obtain ⟨p, h, h'⟩ := wAssoc i
  rw [e, h]
  exact h'

theorem wMean : mean wSrc = ![0, 0, 15 / 2] ∧ mean wCloud = ![0, 0, 3] := by
  constructor
  · funext d
    simp only [mean, Fin.sum_univ_eight, show wSrc 0 = ![10, 10, 10] from rfl, show wSrc 1 = ![10, -10, 10] from rfl, show wSrc 2 = ![-10, 10, 10] from rfl, show wSrc 3 = ![-10, -10, 10] from rfl, show wSrc 4 = ![50, 10, 5] from rfl, show wSrc 5 = ![50, -10, 5] from rfl, show wSrc 6 = ![-50, 10, 5] from rfl, show wSrc 7 = ![-50, -10, 5] from rfl]
    fin_cases d <;> norm_num
  · funext d
    simp only [mean, Fin.sum_univ_eight, show wCloud 0 = ![10, 10, 1] from rfl, show wCloud 1 = ![10, -10, 1] from rfl, show wCloud 2 = ![-10, 10, 1] from rfl, show wCloud 3 = ![-10, -10, 1] from rfl, show wCloud 4 = ![60, 10, 5] from rfl, show wCloud 5 = ![60, -10, 5] from rfl, show wCloud 6 = ![-60, 10, 5] from rfl, show wCloud 7 = ![-60, -10, 5] from rfl]
    fin_cases d <;> norm_num

theorem wScatter : scatter wSrc wCloud = diagonal ![12400, 800, -40] := by
  ext a b
  simp only [scatter, Matrix.sum_apply, vecMulVec_apply, Fin.sum_univ_eight, wMean.1, wMean.2, show wSrc 0 = ![10, 10, 10] from rfl, show wSrc 1 = ![10, -10, 10] from rfl, show wSrc 2 = ![-10, 10, 10] from rfl, show wSrc 3 = ![-10, -10, 10] from rfl, show wSrc 4 = ![50, 10, 5] from rfl, show wSrc 5 = ![50, -10, 5] from rfl, show wSrc 6 = ![-50, 10, 5] from rfl, show wSrc 7 = ![-50, -10, 5] from rfl,
    show wCloud 0 = ![10, 10, 1] from rfl, show wCloud 1 = ![10, -10, 1] from rfl, show wCloud 2 = ![-10, 10, 1] from rfl, show wCloud 3 = ![-10, -10, 1] from rfl, show wCloud 4 = ![60, 10, 5] from rfl, show wCloud 5 = ![60, -10, 5] from rfl, show wCloud 6 = ![-60, 10, 5] from rfl, show wCloud 7 = ![-60, -10, 5] from rfl]
  fin_cases a <;> fin_cases b <;> norm_num [diagonal]

/-- C80 fails in space, whatever the decomposition: the sign is corrected at the second instead of the last singular value, and the result
is worse than leaving the box where it is. -/
theorem C80_space_violated (inv : Mat ℝ 3 → Mat ℝ 3) (hinv : inv 1 = 1) (svd : Mat ℝ 3 → Mat ℝ 3 × Mat ℝ 3) (hsvd : SvdOk svd wSrc wCloud) :
    modelPoints wDims (Transf.inverse inv ⟨1, 0⟩) wCloud = .ok wSrc ∧
    ∃ T', computeTransform inv svd wDims wCloud ⟨1, 0⟩ = .ok (some T') ∧ cost ⟨1, 0⟩ wSrc wCloud < cost T' wSrc wCloud := by
  refine ⟨wModel hinv, _, compute_eq (by omega) (by omega) (wModel hinv), ?_⟩
  obtain ⟨σ, s1, s2, s3, s4, s5⟩ := hsvd
  rw [wScatter] at *
  generalize (svd (diagonal ![12400, 800, -40])).1 = U at *
  generalize (svd (diagonal ![12400, 800, -40])).2 = V at *
  obtain ⟨d1, d2⟩ := detSign_eq s3 s4
  have hdet := congrArg det s5
  rw [det_mul, det_mul, det_transpose, det_diagonal, det_diagonal, Fin.prod_univ_three, Fin.prod_univ_three] at hdet
  have v2 : (![12400, 800, -40] : Fin 3 → ℝ) 2 = -40 := rfl
  rw [v2] at hdet
  norm_num at hdet
  have hp : 0 ≤ σ 0 * σ 1 * σ 2 := mul_nonneg (mul_nonneg (s1 0) (s1 1)) (s1 2)
  have hd : detSign U V = -1 := by
    rcases d2 with d2 | d2
    · rw [d2] at d1
      have : det U * (σ 0 * σ 1 * σ 2) * det V = σ 0 * σ 1 * σ 2 := by linear_combination -(σ 0 * σ 1 * σ 2) * d1
      linarith
    · exact d2
  have hF : 12400 ^ 2 + 800 ^ 2 + 40 ^ 2 = σ 0 ^ 2 + σ 1 ^ 2 + σ 2 ^ 2 := by
    have h1 : ((diagonal ![12400, 800, -40] : Mat ℝ 3) * (diagonal ![12400, 800, -40])ᵀ).trace = (diagonal σ * diagonal σ).trace := by
      conv_lhs => rw [s5]
      rw [transpose_mul, transpose_mul, transpose_transpose, diagonal_transpose,
        show U * diagonal σ * Vᵀ * (V * (diagonal σ * Uᵀ)) = U * (diagonal σ * (Vᵀ * V) * diagonal σ * Uᵀ) by simp only [Matrix.mul_assoc],
        s4, Matrix.mul_one, trace_mul_comm, Matrix.mul_assoc, s3, Matrix.mul_one]
    rw [diagonal_transpose, diagonal_mul_diagonal, diagonal_mul_diagonal, trace_diagonal, trace_diagonal, Fin.sum_univ_three, Fin.sum_univ_three] at h1
    rw [v2] at h1
    norm_num at h1
    linear_combination h1
  have h0 : σ 0 ≤ 12500 := by nlinarith [s1 0, sq_nonneg (σ 1), sq_nonneg (σ 2)]
  have h12 : σ 2 ≤ σ 1 := s2 (by decide)
  rw [cost_eq (by omega) _ (by simp), cost_eq (by omega) _ (result_rotation (by omega) s3 s4).1]
  have htr : (V * flip (detSign U V) * Uᵀ * scatter wSrc wCloud).trace = σ 0 - σ 1 + σ 2 := by
    rw [wScatter, s5, result_trace s3 s4, hd, Fin.sum_univ_three]
    norm_num
    ring
  rw [htr]
  dsimp only
  rw [sub_self, zero_dotProduct, Matrix.one_mul, one_mulVec, wScatter, trace_diagonal, wMean.1, wMean.2, Fin.sum_univ_three]
  have : (![0, 0, 3] - ![0, 0, 15 / 2] - 0 : Point ℝ 3) ⬝ᵥ (![0, 0, 3] - ![0, 0, 15 / 2] - 0) = 81 / 4 := by
    simp only [dotProduct, Fin.sum_univ_three, Pi.sub_apply, show (![0, 0, 3] : Fin 3 → ℝ) 2 = 3 from rfl,
      show (![0, 0, 15 / 2] : Fin 3 → ℝ) 2 = 15 / 2 from rfl]
    norm_num
  rw [this, v2]
  norm_num
  linarith

/-- The statement of C80 is false in space. -/
theorem C80_violated : ¬ C80_statement ℝ 3 := by
  intro h
  have hsvd : SvdOk (fun _ => (1, diagonal ![1, 1, -1])) wSrc wCloud := by
    refine ⟨![12400, 800, 40], fun i => ?_, fun i j hij => ?_, by simp, ?_, ?_⟩
    · fin_cases i <;> norm_num
    · fin_cases i <;> fin_cases j <;> first | (exact absurd hij (by decide)) | norm_num
    · rw [diagonal_transpose, diagonal_mul_diagonal, ← diagonal_one]
      congr 1
      funext i
      fin_cases i <;> norm_num
    · rw [wScatter, Matrix.one_mul, diagonal_transpose, diagonal_mul_diagonal]
      congr 1
      funext i
      fin_cases i <;> norm_num
  have hd : Sizes wDims := fun d => by fin_cases d <;> norm_num [wDims]
  obtain ⟨w1, T', w2, w3⟩ := C80_space_violated id rfl _ hsvd
  obtain ⟨T'', h1, h2, -⟩ := h 8 id _ wDims wCloud ⟨1, 0⟩ (by omega) hd ⟨by simp, by simp⟩ (by simp) wSrc w1 hsvd
  rw [w2] at h1
  cases Option.some.inj (Except.ok.inj h1)
  exact absurd (h2 ⟨1, 0⟩ ⟨by simp, by simp⟩) (not_le.2 w3)

end Verif.Box
