import Verif.Functions.BoundProps

/-! Property theorems C160 (see properties.jsonl): the bounds of a Fourier series are the sums of the exact bounds of its terms. -/
namespace Verif.Functions
open Real Spec

/-- The term `k` of the series bounded by `findLUFourier`. -/
noncomputable def term (c : Vec ℝ) (k : ℕ) (θ : ℝ) : ℝ := c.val (2 * k) * cos (2 * k * θ) + c.val (2 * k + 1) * sin (2 * k * θ)

/-- `m` and `M` are the least and the greatest value of `f` between the angles. -/
def Extremes (f : ℝ → ℝ) (t0 t1 m M : ℝ) : Prop := IsLeast (f '' Set.uIcc t0 t1) m ∧ IsGreatest (f '' Set.uIcc t0 t1) M

theorem term_extremes (c : Vec ℝ) (t0 t1 : ℝ) (k : ℕ) :
    Extremes (term c k) t0 t1 (amp c k * (harmonic c (min t0 t1) (max t0 t1) k).1) (amp c k * (harmonic c (min t0 t1) (max t0 t1) k).2) := by
  set φ := real.atan2 (c.val (2 * k + 1)) (c.val (2 * k)) with hφ
  have ht : ∀ θ, term c k θ = amp c k * cos (2 * k * θ - φ) := fun θ => (sinusoid (c.val (2 * k)) (c.val (2 * k + 1)) (2 * k * θ)).symm
  have hk : (0 : ℝ) ≤ 2 * k := by positivity
  have hA := amp_nonneg c k
  have hset : (fun θ => 2 * k * θ - φ) '' Set.uIcc t0 t1 = Set.uIcc (2 * k * min t0 t1 - φ) (2 * k * max t0 t1 - φ) := by
    have e : (fun θ : ℝ => 2 * (k : ℝ) * θ - φ) = (fun x => x - φ) ∘ fun θ => 2 * (k : ℝ) * θ := rfl
    rw [e, Set.image_comp, Set.image_const_mul_uIcc, Set.image_sub_const_uIcc]
    rcases le_total t0 t1 with h | h
    · rw [min_eq_left h, max_eq_right h]
    · rw [min_eq_right h, max_eq_left h, Set.uIcc_comm]
  obtain ⟨⟨⟨x, hx, hx'⟩, l2⟩, ⟨y, hy, hy'⟩, g2⟩ := C52_findLUCos (2 * k * min t0 t1 - φ) (2 * k * max t0 t1 - φ)
  have mem : ∀ {z}, z ∈ Set.uIcc (2 * k * min t0 t1 - φ) (2 * k * max t0 t1 - φ) → ∃ θ ∈ Set.uIcc t0 t1, 2 * k * θ - φ = z := fun {z} h => by
    rw [← hset] at h
    exact h
  have mem' : ∀ {θ}, θ ∈ Set.uIcc t0 t1 → cos (2 * k * θ - φ) ∈ cos '' Set.uIcc (2 * k * min t0 t1 - φ) (2 * k * max t0 t1 - φ) := fun {θ} h =>
    ⟨_, by rw [← hset]; exact ⟨θ, h, rfl⟩, rfl⟩
  constructor
  · obtain ⟨θ, h1, h2⟩ := mem hx
    refine ⟨⟨θ, h1, ?_⟩, ?_⟩
    · rw [ht, h2, hx']; rfl
    · rintro _ ⟨θ', h', rfl⟩
      rw [ht]
      exact mul_le_mul_of_nonneg_left (l2 (mem' h')) hA
  · obtain ⟨θ, h1, h2⟩ := mem hy
    refine ⟨⟨θ, h1, ?_⟩, ?_⟩
    · rw [ht, h2, hy']; rfl
    · rintro _ ⟨θ', h', rfl⟩
      rw [ht]
      exact mul_le_mul_of_nonneg_left (g2 (mem' h')) hA

/-- C160: the bounds are the sums of the least and of the greatest values of the terms between the angles. -/
theorem C160_terms (c : Vec ℝ) (t0 t1 : ℝ) (h : 1 < c.len) (h' : c.len ≤ 2 ^ 31) (m M : ℕ → ℝ) (he : ∀ k < c.len / 2, Extremes (term c k) t0 t1 (m k) (M k)) :
    findLUFourier real c t0 t1 = .ok (∑ k ∈ Finset.range (c.len / 2), m k, ∑ k ∈ Finset.range (c.len / 2), M k) := by
  have key : ∀ k < c.len / 2, m k = amp c k * (harmonic c (min t0 t1) (max t0 t1) k).1 ∧ M k = amp c k * (harmonic c (min t0 t1) (max t0 t1) k).2 := fun k hk =>
    ⟨(he k hk).1.unique (term_extremes c t0 t1 k).1, (he k hk).2.unique (term_extremes c t0 t1 k).2⟩
  have h0 : m 0 = c.val 0 ∧ M 0 = c.val 0 := by
    have e : ∀ θ, term c 0 θ = c.val 0 := fun θ => by simp [term]
    obtain ⟨⟨⟨x, -, hx⟩, -⟩, ⟨y, -, hy⟩, -⟩ := he 0 (by omega)
    rw [e] at hx hy
    exact ⟨hx.symm, hy.symm⟩
  rw [findLUFourier_sum c t0 t1 h h', show c.len / 2 = (c.len / 2 - 1) + 1 by omega, Finset.sum_range_succ', Finset.sum_range_succ', h0.1, h0.2, Nat.add_sub_cancel]
  refine congrArg Except.ok (Prod.ext ?_ ?_)
  · dsimp only
    rw [add_comm]
    refine congrArg (· + _) (Finset.sum_congr rfl fun i hi => ?_)
    rw [Finset.mem_range] at hi
    rw [add_comm 1 i, (key (i + 1) (by omega)).1]
  · dsimp only
    rw [add_comm]
    refine congrArg (· + _) (Finset.sum_congr rfl fun i hi => ?_)
    rw [Finset.mem_range] at hi
    rw [add_comm 1 i, (key (i + 1) (by omega)).2]

/-- The hypotheses of `C160_terms` can be met: the terms have extremes. -/
theorem extremes_exist (c : Vec ℝ) (t0 t1 : ℝ) : ∃ m M : ℕ → ℝ, ∀ k, Extremes (term c k) t0 t1 (m k) (M k) :=
  ⟨_, _, fun k => term_extremes c t0 t1 k⟩

theorem Extremes.le {f : ℝ → ℝ} {t0 t1 m M : ℝ} (h : Extremes f t0 t1 m M) {θ : ℝ} (hθ : θ ∈ Set.uIcc t0 t1) : m ≤ f θ ∧ f θ ≤ M :=
  ⟨h.1.2 ⟨θ, hθ, rfl⟩, h.2.2 ⟨θ, hθ, rfl⟩⟩

/-- C160: with one harmonic the bounds are the exact range of the series. -/
theorem C160_single (c : Vec ℝ) (t0 t1 : ℝ) (h : 1 < c.len) (h' : c.len ≤ 2 ^ 31) (j : ℕ) (hj : ∀ k, 1 ≤ k → k < c.len / 2 → k ≠ j → c.val (2 * k) = 0 ∧ c.val (2 * k + 1) = 0) :
    ∃ r, findLUFourier real c t0 t1 = .ok r ∧ Extremes (fun θ => ∑ k ∈ Finset.range (c.len / 2), term c k θ) t0 t1 r.1 r.2 := by
  obtain ⟨m, M, he⟩ := extremes_exist c t0 t1
  refine ⟨_, C160_terms c t0 t1 h h' m M fun k _ => he k, ?_⟩
  have hconst : ∀ k < c.len / 2, k ≠ j ∨ k = 0 → ∀ θ, term c k θ = m k ∧ term c k θ = M k := by
    intro k hk hkj θ
    have e : ∃ z, ∀ θ, term c k θ = z := by
      rcases Nat.eq_zero_or_pos k with rfl | hk0
      · exact ⟨c.val 0, fun θ => by simp [term]⟩
      · obtain ⟨e1, e2⟩ := hj k hk0 hk (hkj.resolve_right (by omega))
        exact ⟨0, fun θ => by simp [term, e1, e2]⟩
    obtain ⟨z, hz⟩ := e
    obtain ⟨⟨⟨x, -, hx⟩, -⟩, ⟨y, -, hy⟩, -⟩ := he k
    rw [hz] at hx hy
    rw [hz]
    exact ⟨hx, hy⟩
  obtain ⟨⟨⟨x, hx, hx'⟩, -⟩, ⟨y, hy, hy'⟩, -⟩ := he j
  refine ⟨⟨⟨x, hx, ?_⟩, ?_⟩, ⟨y, hy, ?_⟩, ?_⟩
  · refine Finset.sum_congr rfl fun k hk => ?_
    by_cases hkj : k = j
    · rw [hkj, hx']
    · exact (hconst k (Finset.mem_range.1 hk) (Or.inl hkj) x).1
  · rintro _ ⟨θ, hθ, rfl⟩
    dsimp only
    exact Finset.sum_le_sum fun k _ => ((he k).le hθ).1
  · refine Finset.sum_congr rfl fun k hk => ?_
    by_cases hkj : k = j
    · rw [hkj, hy']
    · exact (hconst k (Finset.mem_range.1 hk) (Or.inl hkj) y).2
  · rintro _ ⟨θ, hθ, rfl⟩
    dsimp only
    exact Finset.sum_le_sum fun k _ => ((he k).le hθ).2

/-- C160: moving the angles by `δ` is the same as turning each pair of coefficients by `2 k δ`; in particular for `δ = π` nothing changes. -/
theorem C160_shift (c d : Vec ℝ) (t0 t1 δ : ℝ) (h : 1 < c.len) (h' : c.len ≤ 2 ^ 31) (hl : d.len = c.len)
    (hd : ∀ k < c.len / 2, d.val (2 * k) = c.val (2 * k) * cos (2 * k * δ) + c.val (2 * k + 1) * sin (2 * k * δ) ∧
      d.val (2 * k + 1) = c.val (2 * k + 1) * cos (2 * k * δ) - c.val (2 * k) * sin (2 * k * δ)) :
    findLUFourier real d t0 t1 = findLUFourier real c (t0 + δ) (t1 + δ) := by
  obtain ⟨m, M, he⟩ := extremes_exist c (t0 + δ) (t1 + δ)
  rw [C160_terms c _ _ h h' m M fun k _ => he k, ← hl]
  refine C160_terms d t0 t1 (by omega) (by omega) m M fun k hk => ?_
  rw [hl] at hk
  have e : ∀ θ, term d k θ = term c k (θ + δ) := by
    intro θ
    obtain ⟨e1, e2⟩ := hd k hk
    unfold term
    rw [e1, e2, mul_add, cos_add, sin_add]
    ring
  have : term d k '' Set.uIcc t0 t1 = term c k '' Set.uIcc (t0 + δ) (t1 + δ) := by
    rw [← Set.image_add_const_uIcc, Set.image_image]
    exact Set.image_congr fun θ _ => e θ
  unfold Extremes
  rw [this]
  exact he k

/-- C160: the period. -/
theorem C160_period (c : Vec ℝ) (t0 t1 : ℝ) (n : ℤ) (h : 1 < c.len) (h' : c.len ≤ 2 ^ 31) :
    findLUFourier real c (t0 + n * π) (t1 + n * π) = findLUFourier real c t0 t1 := by
  refine (C160_shift c c t0 t1 (n * π) h h' rfl fun k _ => ?_).symm
  have e : 2 * (k : ℝ) * (n * π) = ((k * n : ℤ) : ℝ) * (2 * π) := by push_cast; ring
  rw [e, cos_int_mul_two_pi, show ((k * n : ℤ) : ℝ) * (2 * π) = ((2 * (k * n) : ℤ) : ℝ) * π by push_cast; ring, sin_int_mul_pi]
  constructor <;> ring

/-- C160: multiplying the coefficients multiplies the bounds; a negative factor exchanges them. -/
theorem C160_scale (c d : Vec ℝ) (t0 t1 s : ℝ) (h : 1 < c.len) (h' : c.len ≤ 2 ^ 31) (hl : d.len = c.len) (hd : ∀ i < c.len, d.val i = s * c.val i) :
    ∃ r, findLUFourier real c t0 t1 = .ok r ∧ findLUFourier real d t0 t1 = .ok (if 0 ≤ s then (s * r.1, s * r.2) else (s * r.2, s * r.1)) := by
  obtain ⟨m, M, he⟩ := extremes_exist c t0 t1
  refine ⟨_, C160_terms c _ _ h h' m M fun k _ => he k, ?_⟩
  have e : ∀ k < c.len / 2, ∀ θ, term d k θ = s * term c k θ := by
    intro k hk θ
    unfold term
    rw [hd _ (by omega), hd _ (by omega)]
    ring
  by_cases hs : 0 ≤ s
  · rw [if_pos hs]
    dsimp only
    rw [Finset.mul_sum, Finset.mul_sum, ← hl]
    refine C160_terms d t0 t1 (by omega) (by omega) (fun k => s * m k) (fun k => s * M k) fun k hk => ?_
    rw [hl] at hk
    obtain ⟨⟨⟨x, hx, hx'⟩, l⟩, ⟨y, hy, hy'⟩, g⟩ := he k
    refine ⟨⟨⟨x, hx, by rw [e k hk, hx']⟩, ?_⟩, ⟨y, hy, by rw [e k hk, hy']⟩, ?_⟩
    · rintro _ ⟨θ, hθ, rfl⟩
      rw [e k hk]
      exact mul_le_mul_of_nonneg_left (l ⟨θ, hθ, rfl⟩) hs
    · rintro _ ⟨θ, hθ, rfl⟩
      rw [e k hk]
      exact mul_le_mul_of_nonneg_left (g ⟨θ, hθ, rfl⟩) hs
  · rw [if_neg hs]
    dsimp only
    rw [Finset.mul_sum, Finset.mul_sum, ← hl]
    refine C160_terms d t0 t1 (by omega) (by omega) (fun k => s * M k) (fun k => s * m k) fun k hk => ?_
    rw [hl] at hk
    obtain ⟨⟨⟨x, hx, hx'⟩, l⟩, ⟨y, hy, hy'⟩, g⟩ := he k
    have hs' : s ≤ 0 := (not_le.1 hs).le
    refine ⟨⟨⟨y, hy, by rw [e k hk, hy']⟩, ?_⟩, ⟨x, hx, by rw [e k hk, hx']⟩, ?_⟩
    · rintro _ ⟨θ, hθ, rfl⟩
      rw [e k hk]
      exact mul_le_mul_of_nonpos_left (g ⟨θ, hθ, rfl⟩) hs'
    · rintro _ ⟨θ, hθ, rfl⟩
      rw [e k hk]
      exact mul_le_mul_of_nonpos_left (l ⟨θ, hθ, rfl⟩) hs'

/-- C160: the bounds of a sum of two series are at least as tight as the sums of their bounds. -/
theorem C160_sum (c d e : Vec ℝ) (t0 t1 : ℝ) (h : 1 < c.len) (h' : c.len ≤ 2 ^ 31) (hl : d.len = c.len) (hl' : e.len = c.len) (hs : ∀ i < c.len, e.val i = c.val i + d.val i) :
    ∃ r s u, findLUFourier real c t0 t1 = .ok r ∧ findLUFourier real d t0 t1 = .ok s ∧ findLUFourier real e t0 t1 = .ok u ∧ r.1 + s.1 ≤ u.1 ∧ u.2 ≤ r.2 + s.2 := by
  obtain ⟨m, M, he⟩ := extremes_exist c t0 t1
  obtain ⟨m', M', he'⟩ := extremes_exist d t0 t1
  obtain ⟨m'', M'', he''⟩ := extremes_exist e t0 t1
  refine ⟨_, _, _, C160_terms c _ _ h h' m M fun k _ => he k, C160_terms d _ _ (by omega) (by omega) m' M' fun k _ => he' k, C160_terms e _ _ (by omega) (by omega) m'' M'' fun k _ => he'' k, ?_, ?_⟩
  all_goals
    dsimp only
    rw [hl, hl', ← Finset.sum_add_distrib]
    refine Finset.sum_le_sum fun k hk => ?_
    have hk' := Finset.mem_range.1 hk
    have et : ∀ θ, term e k θ = term c k θ + term d k θ := by
      intro θ
      unfold term
      rw [hs _ (by omega), hs _ (by omega)]
      ring
    obtain ⟨⟨⟨x, hx, hx'⟩, l⟩, ⟨y, hy, hy'⟩, g⟩ := he'' k
  · rw [← hx', et]
    exact add_le_add ((he k).le hx).1 ((he' k).le hx).1
  · rw [← hy', et]
    exact add_le_add ((he k).le hy).2 ((he' k).le hy).2

/-- Two harmonics: the bounds of cos(2 θ) - cos(4 θ) on [0, π] are -2 and 2, the range is only [-2, 9/8]: `C160_single` is about one harmonic. -/
theorem C160_needed : ∃ c : Vec ℝ, c.len = 6 ∧ findLUFourier real c 0 π = .ok (-2, 2) ∧ ∀ θ, ∑ k ∈ Finset.range 3, term c k θ ≤ 9 / 8 := by
  refine ⟨⟨6, fun i => if i = 2 then 1 else if i = 4 then -1 else 0⟩, rfl, ?_, fun θ => ?_⟩
  · have hπ := pi_pos
    have h := C160_terms ⟨6, fun i => if i = 2 then (1 : ℝ) else if i = 4 then -1 else 0⟩ 0 π (by norm_num) (by norm_num) (fun k => if k = 0 then 0 else -1) (fun k => if k = 0 then 0 else 1) fun k hk => by
      dsimp only at hk
      have hu : ∀ x : ℝ, 0 ≤ x → x ≤ π → x ∈ Set.uIcc 0 π := fun x h1 h2 => by rw [Set.uIcc_of_le hπ.le]; exact ⟨h1, h2⟩
      have hk3 : k = 0 ∨ k = 1 ∨ k = 2 := by omega
      rcases hk3 with rfl | rfl | rfl
      · refine ⟨⟨⟨0, hu 0 le_rfl hπ.le, by simp [term]⟩, ?_⟩, ⟨0, hu 0 le_rfl hπ.le, by simp [term]⟩, ?_⟩ <;>
        · rintro _ ⟨θ, hθ, rfl⟩
          simp [term]
      · refine ⟨⟨⟨π / 2, hu _ (by linarith) (by linarith), ?_⟩, ?_⟩, ⟨0, hu 0 le_rfl hπ.le, by simp [term]⟩, ?_⟩
        · simp [term, mul_div_cancel₀]
        · rintro _ ⟨θ, hθ, rfl⟩
          simpa [term] using neg_one_le_cos (2 * θ)
        · rintro _ ⟨θ, hθ, rfl⟩
          simpa [term] using cos_le_one (2 * θ)
      · refine ⟨⟨⟨0, hu 0 le_rfl hπ.le, by simp [term]⟩, ?_⟩, ⟨π / 4, hu _ (by linarith) (by linarith), ?_⟩, ?_⟩
        · rintro _ ⟨θ, hθ, rfl⟩
          simpa [term] using cos_le_one (2 * 2 * θ)
        · have : (2 * 2 * (π / 4) : ℝ) = π := by ring
          simp [term, this]
        · rintro _ ⟨θ, hθ, rfl⟩
          have := neg_one_le_cos (2 * 2 * θ)
          simp [term]
          linarith
    rw [h]
    norm_num [Finset.sum_range_succ]
  · have : cos (2 * 2 * θ) = 2 * cos (2 * θ) ^ 2 - 1 := by rw [mul_assoc, cos_two_mul]
    simp [Finset.sum_range_succ, term, this]
    nlinarith [sq_nonneg (cos (2 * θ) - 1 / 4)]

end Verif.Functions
