import Verif.TlsFp.Lemmas
import Verif.TlsFp.Spec

/-! Lemmas for C107: the errors of the running sums and of the candidates. -/
namespace Verif.TlsFp
open Verif Ieee Fp Float.Model

variable {spec : Format} [Fmt spec]

theorem pow_double (k : ℤ) : (2 : ℝ) ^ k + 2 ^ k = 2 ^ (k + 1) := by rw [two_pow_add, zpow_one]; ring

/-- One addition to a running sum of terms up to 2^T, of which there are at most 2^q at a time. -/
theorem acc_add {s t : Fp spec} {σ τ : ℝ} {T q : ℤ} {j : ℕ} (hs : Approx s σ (j * 2 ^ (q + T + 2 - spec.mantissaBits))) (ht : Approx t τ (2 ^ (T - spec.mantissaBits)))
    (hσ : |σ| ≤ 2 ^ (q + T)) (hτ : |τ| ≤ 2 ^ T) (hj : (j : ℝ) ≤ 2 ^ (q + 2)) (hq : 0 ≤ q) (hM : q + 4 ≤ spec.mantissaBits)
    (hk : spec.minExponent + spec.mantissaBits ≤ q + T + 2) (hk' : q + T + 2 ≤ top spec) :
    Approx (s + t) (σ + τ) ((j + 1 : ℕ) * 2 ^ (q + T + 2 - spec.mantissaBits)) := by
  obtain ⟨M, hMe⟩ : ∃ M : ℤ, M = spec.mantissaBits := ⟨_, rfl⟩
  rw [← hMe] at hs ht hM hk ⊢
  have h1 : (j : ℝ) * 2 ^ (q + T + 2 - M) ≤ 2 ^ (q + T) := by
    calc (j : ℝ) * 2 ^ (q + T + 2 - M) ≤ 2 ^ (q + 2) * 2 ^ (q + T + 2 - M) := mul_le_mul_of_nonneg_right hj (two_pow_pos _).le
      _ = 2 ^ (q + 2 + (q + T + 2 - M)) := (two_pow_add _ _).symm
      _ ≤ _ := two_pow_le (by omega)
  have h2 : (2 : ℝ) ^ T ≤ 2 ^ (q + T) := two_pow_le (by omega)
  have h3 : (2 : ℝ) ^ (T - M) ≤ 2 ^ (q + T) := two_pow_le (by omega)
  have h4 : (2 : ℝ) ^ (q + T + 2) = 4 * 2 ^ (q + T) := by rw [two_pow_add]; norm_num; ring
  refine Approx.add hs ht (q + T + 2) (by rw [← hMe]; exact hk) hk' hσ hτ (by rw [h4]; linarith) ?_
  rw [← hMe]
  push_cast
  have h5 : (2 : ℝ) ^ (q + T + 2 - M - 1) + 2 ^ (T - M) ≤ 2 ^ (q + T + 2 - M) := by
    have e := pow_double (q + T + 2 - M - 1)
    rw [sub_add_cancel] at e
    have : (2 : ℝ) ^ (T - M) ≤ 2 ^ (q + T + 2 - M - 1) := two_pow_le (by omega)
    linarith
  linarith

/-- One subtraction from a running sum. -/
theorem acc_sub {s t : Fp spec} {σ τ : ℝ} {T q : ℤ} {j : ℕ} (hs : Approx s σ (j * 2 ^ (q + T + 2 - spec.mantissaBits))) (ht : Approx t τ (2 ^ (T - spec.mantissaBits)))
    (hσ : |σ| ≤ 2 ^ (q + T)) (hτ : |τ| ≤ 2 ^ T) (hj : (j : ℝ) ≤ 2 ^ (q + 2)) (hq : 0 ≤ q) (hM : q + 4 ≤ spec.mantissaBits)
    (hk : spec.minExponent + spec.mantissaBits ≤ q + T + 2) (hk' : q + T + 2 ≤ top spec) :
    Approx (s - t) (σ - τ) ((j + 1 : ℕ) * 2 ^ (q + T + 2 - spec.mantissaBits)) := by
  obtain ⟨M, hMe⟩ : ∃ M : ℤ, M = spec.mantissaBits := ⟨_, rfl⟩
  rw [← hMe] at hs ht hM hk ⊢
  have h1 : (j : ℝ) * 2 ^ (q + T + 2 - M) ≤ 2 ^ (q + T) := by
    calc (j : ℝ) * 2 ^ (q + T + 2 - M) ≤ 2 ^ (q + 2) * 2 ^ (q + T + 2 - M) := mul_le_mul_of_nonneg_right hj (two_pow_pos _).le
      _ = 2 ^ (q + 2 + (q + T + 2 - M)) := (two_pow_add _ _).symm
      _ ≤ _ := two_pow_le (by omega)
  have h2 : (2 : ℝ) ^ T ≤ 2 ^ (q + T) := two_pow_le (by omega)
  have h3 : (2 : ℝ) ^ (T - M) ≤ 2 ^ (q + T) := two_pow_le (by omega)
  have h4 : (2 : ℝ) ^ (q + T + 2) = 4 * 2 ^ (q + T) := by rw [two_pow_add]; norm_num; ring
  refine Approx.sub hs ht (q + T + 2) (by rw [← hMe]; exact hk) hk' hσ hτ (by rw [h4]; linarith) ?_
  rw [← hMe]
  push_cast
  have h5 : (2 : ℝ) ^ (q + T + 2 - M - 1) + 2 ^ (T - M) ≤ 2 ^ (q + T + 2 - M) := by
    have e := pow_double (q + T + 2 - M - 1)
    rw [sub_add_cancel] at e
    have : (2 : ℝ) ^ (T - M) ≤ 2 ^ (q + T + 2 - M - 1) := two_pow_le (by omega)
    linarith
  linarith

/-- The limits of the format used below; `float` and `double` satisfy them. -/
structure Lim (spec : Format) : Prop where
  lo : spec.minExponent + spec.mantissaBits ≤ -125
  hi : 125 ≤ top spec
  m : spec.mantissaBits ≤ 64

/-- The accumulators of a set of `c` measures with sums `sw`, `sv`, `sx`, `sq` and with sum `sr` of the ranges of the others. -/
structure Near (a : Acc spec) (p q u b : ℤ) (c : ℕ) (sw sv sx sq sr : ℝ) : Prop where
  card : a.consensusSetCardinal = c
  w : Approx a.consensusWeighted sw (2 ^ (2 * q + -2 * u + 3 - spec.mantissaBits))
  v : Approx a.valueWeighted sv (2 ^ (2 * q + (p - 2 * u) + 3 - spec.mantissaBits))
  x : Approx a.sumXi sx (2 ^ (2 * q + p + 3 - spec.mantissaBits))
  s : Approx a.sumXiSquare sq (2 ^ (2 * q + 2 * p + 3 - spec.mantissaBits))
  r : Approx a.rangesInverseSum sr (2 ^ (2 * q + b + 4 - spec.mantissaBits))

/-- The weighted mean of a non-empty set. -/
theorem hat_near (hl : Lim spec) {p q a b z : ℤ} (hs : Sizes spec p q a b z) {A : Acc spec} {c : ℕ} {sw sv sx sq sr : ℝ} (h : Near A p q a b c sw sv sx sq sr)
    (h1 : 2 ^ (-2 * b) ≤ sw) (h2 : |sv| ≤ 2 ^ p * sw) : Approx A.hat (sv / sw) (2 ^ (p + (2 * q + 2 * (b - a) + 6 - spec.mantissaBits))) := by
  obtain ⟨M, hMe⟩ : ∃ M : ℤ, M = spec.mantissaBits := ⟨_, rfl⟩
  have hw := h.w
  have hv := h.v
  have hcond := hs.cond
  have lo := hl.lo
  have hi := hl.hi
  obtain ⟨q0, q1, a0, ab, b0, p0, p1, pz, pz2, bz, z1, -⟩ := hs
  rw [← hMe] at hw hv hcond lo ⊢
  have hsw : 0 < sw := lt_of_lt_of_le (two_pow_pos _) h1
  have hE : (2 : ℝ) ^ (2 * q + -2 * a + 3 - M) ≤ 2 ^ (-2 * b - 1) := two_pow_le (by omega)
  have hb := pow_double (-2 * b - 1)
  rw [sub_add_cancel] at hb
  have hcw : (2 : ℝ) ^ (-2 * b - 1) ≤ A.consensusWeighted.val := by
    have := (abs_le.1 hw.2).1
    linarith
  have hcw0 : 0 < A.consensusWeighted.val := lt_of_lt_of_le (two_pow_pos _) hcw
  have hm : |sv / sw| ≤ 2 ^ p := by rw [abs_div, abs_of_pos hsw, div_le_iff₀ hsw]; exact h2
  have hx : |A.valueWeighted.val / A.consensusWeighted.val - sv / sw| ≤ 2 ^ (p + (2 * q + 2 * (b - a) + 5 - M)) := by
    rw [show A.valueWeighted.val / A.consensusWeighted.val - sv / sw = ((A.valueWeighted.val - sv) - sv / sw * (A.consensusWeighted.val - sw)) / A.consensusWeighted.val by field_simp; ring,
      abs_div, abs_of_pos hcw0, div_le_iff₀ hcw0]
    have e1 : |A.valueWeighted.val - sv - sv / sw * (A.consensusWeighted.val - sw)| ≤ 2 ^ (2 * q + (p - 2 * a) + 3 - M) + 2 ^ p * 2 ^ (2 * q + -2 * a + 3 - M) := by
      refine (abs_sub _ _).trans (add_le_add hv.2 ?_)
      rw [abs_mul]
      exact mul_le_mul hm hw.2 (abs_nonneg _) (two_pow_pos _).le
    rw [← two_pow_add, show p + (2 * q + -2 * a + 3 - M) = 2 * q + (p - 2 * a) + 3 - M by ring, pow_double] at e1
    refine e1.trans ?_
    calc (2 : ℝ) ^ (2 * q + (p - 2 * a) + 3 - M + 1) = 2 ^ (p + (2 * q + 2 * (b - a) + 5 - M)) * 2 ^ (-2 * b - 1) := by rw [← two_pow_add]; congr 1; ring
      _ ≤ _ := mul_le_mul_of_nonneg_left hcw (two_pow_pos _).le
  have hx2 : |A.valueWeighted.val / A.consensusWeighted.val| ≤ 2 ^ (p + 1) := by
    have := abs_add_le (A.valueWeighted.val / A.consensusWeighted.val - sv / sw) (sv / sw)
    rw [sub_add_cancel] at this
    have h3 : (2 : ℝ) ^ (p + (2 * q + 2 * (b - a) + 5 - M)) ≤ 2 ^ p := two_pow_le (by omega)
    have := pow_double p
    linarith
  have hd := div_is hv.1 hw.1 hcw0.ne' (hx2.trans (two_pow_le (by omega)))
  refine (hd.approx (p + 1) (by omega) hx2 hx).weaken ?_
  rw [← hMe]
  have h3 : (2 : ℝ) ^ (p + 1 - M - 1) ≤ 2 ^ (p + (2 * q + 2 * (b - a) + 5 - M)) := two_pow_le (by omega)
  have := pow_double (p + (2 * q + 2 * (b - a) + 5 - M))
  rw [show p + (2 * q + 2 * (b - a) + 5 - M) + 1 = p + (2 * q + 2 * (b - a) + 6 - M) by ring] at this
  linarith

theorem mul2 {x y : Fp spec} {v w e f : ℝ} (hx : Approx x v e) (hy : Approx y w f) (i j : ℤ) (hv : |v| ≤ 2 ^ i) (he : e ≤ 2 ^ i) (hw : |w| ≤ 2 ^ j) (hf : f ≤ 2 ^ j)
    (hk : spec.minExponent + spec.mantissaBits ≤ i + j + 2) (hk' : i + j + 2 ≤ top spec) :
    Approx (x * y) (v * w) (2 ^ (i + j + 1 - spec.mantissaBits) + 2 ^ i * f + 2 ^ (j + 1) * e) := by
  have e0 : 0 ≤ e := (abs_nonneg _).trans hx.2
  have f0 : 0 ≤ f := (abs_nonneg _).trans hy.2
  have hi := two_pow_pos i
  have hj := two_pow_pos j
  refine hx.mul hy (i + j + 2) hk hk' hv hw ?_ ?_
  · calc ((2 : ℝ) ^ i + e) * (2 ^ j + f) ≤ (2 ^ i + 2 ^ i) * (2 ^ j + 2 ^ j) := mul_le_mul (by linarith) (by linarith) (by linarith) (by linarith)
      _ = 2 ^ (i + j + 2) := by rw [pow_double, pow_double, ← two_pow_add]; congr 1; ring
  · rw [show i + j + 2 - (spec.mantissaBits : ℤ) - 1 = i + j + 1 - spec.mantissaBits by ring, ← pow_double j]
    have : e * f ≤ 2 ^ j * e := by rw [mul_comm]; exact mul_le_mul_of_nonneg_right hf e0
    linarith

/-- The cost of a non-empty set. -/
theorem cost_near (hl : Lim spec) {p q a b z : ℤ} (hs : Sizes spec p q a b z) {A : Acc spec} {c : ℕ} {sw sv sx sq sr : ℝ} (h : Near A p q a b c sw sv sx sq sr)
    (h1 : 2 ^ (-2 * b) ≤ sw) (h2 : |sv| ≤ 2 ^ p * sw) (hc : (c : ℝ) ≤ 2 ^ q) (hx : |sx| ≤ 2 ^ (q + p)) (hq : |sq| ≤ 2 ^ (q + 2 * p)) (hr : |sr| ≤ 2 ^ (q + b)) :
    Approx A.cost (c * (sv / sw) * (sv / sw) + sq - 2 * sx * (sv / sw) + sr) (2 ^ (q + z + (2 * q + 2 * (b - a) + 12 - spec.mantissaBits))) := by
  have hh := hat_near hl hs h h1 h2
  obtain ⟨M, hMe⟩ : ∃ M : ℤ, M = spec.mantissaBits := ⟨_, rfl⟩
  have hX := h.x
  have hS := h.s
  have hR := h.r
  have hcond := hs.cond
  have lo := hl.lo
  have hi := hl.hi
  obtain ⟨q0, q1, a0, ab, b0, p0, p1, pz, pz2, bz, z1, -⟩ := hs
  rw [← hMe] at hh hX hS hR hcond lo ⊢
  have hsw : 0 < sw := lt_of_lt_of_le (two_pow_pos _) h1
  have hm : |sv / sw| ≤ 2 ^ p := by rw [abs_div, abs_of_pos hsw, div_le_iff₀ hsw]; exact h2
  unfold Acc.cost
  rw [h.card]
  generalize sv / sw = m at *
  generalize A.hat = H at *
  generalize A.sumXi = X at *
  generalize A.sumXiSquare = S at *
  generalize A.rangesInverseSum = R at *
  obtain ⟨g, hg⟩ : ∃ g : ℤ, g = 2 * q + 2 * (b - a) + 5 - M := ⟨_, rfl⟩
  rw [show p + (2 * q + 2 * (b - a) + 6 - M) = p + (g + 1) by omega] at hh
  -- the cardinality
  have hc0 : |((c : ℤ) : ℝ)| ≤ 2 ^ q := by
    rw [Int.cast_natCast, abs_of_nonneg (Nat.cast_nonneg c)]
    exact hc
  have C := ofInt_is (spec := spec) (n := (c : ℤ)) (hc0.trans (two_pow_le (by omega))) (hc0.trans (two_pow_le (by omega)))
  have CA : Approx (ofInt spec (c : ℤ)) (c : ℝ) 0 := ⟨C.1, by rw [C.2]; simp⟩
  rw [Int.cast_natCast] at hc0
  -- c h
  have T1 := mul2 CA hh q p hc0 (two_pow_pos _).le hm (two_pow_le (by omega)) (by omega) (by omega)
  rw [← hMe, ← two_pow_add, mul_zero, add_zero] at T1
  have T1 := T1.weaken (e' := 2 ^ (q + p + (g + 2))) (by
    have e1 : (2 : ℝ) ^ (q + p + 1 - M) ≤ 2 ^ (q + (p + (g + 1))) := two_pow_le (by omega)
    have e2 := pow_double (q + (p + (g + 1)))
    rw [show q + (p + (g + 1)) + 1 = q + p + (g + 2) by ring] at e2
    linarith)
  have hcm : |(c : ℝ) * m| ≤ 2 ^ (q + p) := by
    rw [abs_mul, two_pow_add]
    exact mul_le_mul hc0 hm (abs_nonneg _) (two_pow_pos _).le
  -- c h h
  have T2 := mul2 T1 hh (q + p) p hcm (two_pow_le (by omega)) hm (two_pow_le (by omega)) (by omega) (by omega)
  rw [← hMe, ← two_pow_add, ← two_pow_add] at T2
  have T2 := T2.weaken (e' := 2 ^ (q + 2 * p + (g + 4))) (by
    have e1 : (2 : ℝ) ^ (q + p + p + 1 - M) ≤ 2 ^ (q + 2 * p + (g + 2)) := two_pow_le (by omega)
    have e2 : (2 : ℝ) ^ (q + p + (p + (g + 1))) ≤ 2 ^ (q + 2 * p + (g + 2)) := two_pow_le (by omega)
    have e3 := pow_double (q + 2 * p + (g + 2))
    have e4 := pow_double (q + 2 * p + (g + 3))
    rw [show p + 1 + (q + p + (g + 2)) = q + 2 * p + (g + 3) by ring]
    rw [show q + 2 * p + (g + 2) + 1 = q + 2 * p + (g + 3) by ring] at e3
    rw [show q + 2 * p + (g + 3) + 1 = q + 2 * p + (g + 4) by ring] at e4
    linarith)
  have hcmm : |(c : ℝ) * m * m| ≤ 2 ^ (q + 2 * p) := by
    rw [abs_mul, show q + 2 * p = q + p + p by ring, two_pow_add]
    exact mul_le_mul hcm hm (abs_nonneg _) (two_pow_pos _).le
  -- + sum of squares
  have eS : (2 : ℝ) ^ (2 * q + 2 * p + 3 - M) ≤ 2 ^ (q + 2 * p + (g + 3)) := two_pow_le (by omega)
  have e8 : (2 : ℝ) ^ (q + 2 * p + 3) = 8 * 2 ^ (q + 2 * p) := by rw [two_pow_add]; norm_num; ring
  have eg : ∀ k : ℤ, k ≤ 5 → (2 : ℝ) ^ (q + 2 * p + (g + k)) ≤ 2 ^ (q + 2 * p) := fun k hk => two_pow_le (by omega)
  have T3 := T2.add hS (E := 2 ^ (q + 2 * p + (g + 5))) (q + 2 * p + 3) (by omega) (by omega) hcmm hq (by
    have := eg 4 (by norm_num)
    have := eg 3 (by norm_num)
    rw [e8]
    have := two_pow_pos (q + 2 * p)
    linarith) (by
    rw [← hMe]
    have e1 : (2 : ℝ) ^ (q + 2 * p + 3 - M - 1) ≤ 2 ^ (q + 2 * p + (g + 3)) := two_pow_le (by omega)
    have e3 := pow_double (q + 2 * p + (g + 3))
    have e4 := pow_double (q + 2 * p + (g + 4))
    rw [show q + 2 * p + (g + 3) + 1 = q + 2 * p + (g + 4) by ring] at e3
    rw [show q + 2 * p + (g + 4) + 1 = q + 2 * p + (g + 5) by ring] at e4
    linarith)
  have hcs : |(c : ℝ) * m * m + sq| ≤ 2 ^ (q + 2 * p + 1) := by
    have := pow_double (q + 2 * p)
    exact (abs_add_le _ _).trans (by linarith)
  -- 2 x
  have D := ofInt_is (spec := spec) (n := 2) (by rw [show |((2 : ℤ) : ℝ)| = 2 ^ (1 : ℤ) by norm_num]; exact two_pow_le (by omega))
    (by rw [show |((2 : ℤ) : ℝ)| = 2 ^ (1 : ℤ) by norm_num]; exact two_pow_le (by omega))
  have DA : Approx (ofInt spec 2) 2 0 := ⟨D.1, by rw [D.2]; norm_num⟩
  have T4 := mul2 DA hX 1 (q + p) (by norm_num) (two_pow_pos _).le hx (two_pow_le (by omega)) (by omega) (by omega)
  rw [← hMe, ← two_pow_add, mul_zero, add_zero] at T4
  have T4 := T4.weaken (e' := 2 ^ (q + p + (g + 1))) (by
    have e1 : (2 : ℝ) ^ (1 + (q + p) + 1 - M) ≤ 2 ^ (q + p + g) := two_pow_le (by omega)
    have e2 : (2 : ℝ) ^ (1 + (2 * q + p + 3 - M)) ≤ 2 ^ (q + p + g) := two_pow_le (by omega)
    have e3 := pow_double (q + p + g)
    rw [add_assoc (q + p) g 1] at e3
    linarith)
  have hx2 : |2 * sx| ≤ 2 ^ (q + p + 1) := by
    have := pow_double (q + p)
    rw [abs_mul]
    norm_num
    linarith
  -- 2 x h
  have T5 := mul2 T4 hh (q + p + 1) p hx2 (two_pow_le (by omega)) hm (two_pow_le (by omega)) (by omega) (by omega)
  rw [← hMe, ← two_pow_add, ← two_pow_add] at T5
  have T5 := T5.weaken (e' := 2 ^ (q + 2 * p + (g + 4))) (by
    have e1 : (2 : ℝ) ^ (q + p + 1 + p + 1 - M) ≤ 2 ^ (q + 2 * p + (g + 2)) := two_pow_le (by omega)
    have e2 : (2 : ℝ) ^ (p + 1 + (q + p + (g + 1))) ≤ 2 ^ (q + 2 * p + (g + 2)) := two_pow_le (by omega)
    have e3 := pow_double (q + 2 * p + (g + 2))
    have e4 := pow_double (q + 2 * p + (g + 3))
    have e5 : (2 : ℝ) ^ (q + p + 1 + (p + (g + 1))) ≤ 2 ^ (q + 2 * p + (g + 2)) := two_pow_le (by omega)
    rw [show q + 2 * p + (g + 2) + 1 = q + 2 * p + (g + 3) by ring] at e3
    rw [show q + 2 * p + (g + 3) + 1 = q + 2 * p + (g + 4) by ring] at e4
    have := two_pow_pos (q + 2 * p + (g + 2))
    linarith)
  have hxm : |2 * sx * m| ≤ 2 ^ (q + 2 * p + 1) := by
    rw [abs_mul, show q + 2 * p + 1 = q + p + 1 + p by ring, two_pow_add]
    exact mul_le_mul hx2 hm (abs_nonneg _) (two_pow_pos _).le
  -- residual
  have d1 := pow_double (q + 2 * p)
  have T6 := T3.sub T5 (E := 2 ^ (q + 2 * p + (g + 6))) (q + 2 * p + 3) (by omega) (by omega) hcs hxm (by
    have := eg 5 (by norm_num)
    have := eg 4 (by norm_num)
    rw [e8, ← d1]
    have := two_pow_pos (q + 2 * p)
    linarith) (by
    rw [← hMe]
    have e1 : (2 : ℝ) ^ (q + 2 * p + 3 - M - 1) ≤ 2 ^ (q + 2 * p + (g + 4)) := two_pow_le (by omega)
    have e3 := pow_double (q + 2 * p + (g + 4))
    have e4 := pow_double (q + 2 * p + (g + 5))
    rw [show q + 2 * p + (g + 4) + 1 = q + 2 * p + (g + 5) by ring] at e3
    rw [show q + 2 * p + (g + 5) + 1 = q + 2 * p + (g + 6) by ring] at e4
    linarith)
  have hres : |(c : ℝ) * m * m + sq - 2 * sx * m| ≤ 2 ^ (q + 2 * p + 2) := by
    have := pow_double (q + 2 * p + 1)
    rw [show q + 2 * p + 1 + 1 = q + 2 * p + 2 by ring] at this
    exact (abs_sub _ _).trans (by linarith)
  -- + ranges
  have e16 : (2 : ℝ) ^ (q + z + 4) = 16 * 2 ^ (q + z) := by rw [two_pow_add]; norm_num; ring
  have T7 := T6.add hR (E := 2 ^ (q + z + (g + 7))) (q + z + 4) (by omega) (by omega) hres hr (by
    rw [e16]
    have e1 : (2 : ℝ) ^ (q + 2 * p + 2) ≤ 4 * 2 ^ (q + z) := by
      have : (4 : ℝ) * 2 ^ (q + z) = 2 ^ (q + z + 2) := by rw [two_pow_add (q + z) 2]; norm_num; ring
      rw [this]
      exact two_pow_le (by omega)
    have e2 : (2 : ℝ) ^ (q + 2 * p + (g + 6)) ≤ 2 ^ (q + z) := two_pow_le (by omega)
    have e3 : (2 : ℝ) ^ (q + b) ≤ 2 ^ (q + z) := two_pow_le (by omega)
    have e4 : (2 : ℝ) ^ (2 * q + b + 4 - M) ≤ 2 ^ (q + z) := two_pow_le (by omega)
    have := two_pow_pos (q + z)
    linarith) (by
    rw [← hMe]
    have e1 : (2 : ℝ) ^ (q + z + 4 - M - 1) ≤ 2 ^ (q + z + (g + 5)) := two_pow_le (by omega)
    have e2 : (2 : ℝ) ^ (q + 2 * p + (g + 6)) ≤ 2 ^ (q + z + (g + 6)) := two_pow_le (by omega)
    have e5 : (2 : ℝ) ^ (2 * q + b + 4 - M) ≤ 2 ^ (q + z + (g + 5)) := two_pow_le (by omega)
    have e3 := pow_double (q + z + (g + 5))
    have e4 := pow_double (q + z + (g + 6))
    rw [show q + z + (g + 5) + 1 = q + z + (g + 6) by ring] at e3
    rw [show q + z + (g + 6) + 1 = q + z + (g + 7) by ring] at e4
    linarith)
  rw [show q + z + (2 * q + 2 * (b - a) + 12 - M) = q + z + (g + 7) by omega]
  exact T7

/-- The cost of an empty set: what is left of the sums after the roundings is too small to matter. -/
theorem cost_empty (hl : Lim spec) {p q a b z : ℤ} (hs : Sizes spec p q a b z) {A : Acc spec} {sr : ℝ} (h : Near A p q a b 0 0 0 0 0 sr)
    (hmul : ∃ n : ℤ, A.consensusWeighted.val = n * 2 ^ (-2 * b - spec.mantissaBits + 1)) (hr : |sr| ≤ 2 ^ (q + b)) :
    A.cost.NaN ∨ (A.cost.Fin ∧ sr - 2 ^ (a - 6) ≤ A.cost.val) := by
  have C : (ofInt spec 0).Fin ∧ (ofInt spec 0).val = 0 := by
    have := ofInt_is (spec := spec) (n := 0) (by simp [(two_pow_pos _).le]) (by simpa using (two_pow_pos _).le)
    simpa using this
  have hcost : A.cost = (ofInt spec 0 * A.hat * A.hat + A.sumXiSquare - ofInt spec 2 * A.sumXi * A.hat) + A.rangesInverseSum := by
    unfold Acc.cost
    rw [h.card]
    rfl
  rw [hcost]
  by_cases hh : A.hat.Fin
  swap
  · left
    exact NaN.add (Or.inl (NaN.sub (Or.inl (NaN.add (Or.inl (NaN.mul (Or.inl (zero_mul_nan ofInt_zero hh))))))))
  right
  obtain ⟨M, hMe⟩ : ∃ M : ℤ, M = spec.mantissaBits := ⟨_, rfl⟩
  have hW := h.w
  have hV := h.v
  have hX := h.x
  have hS := h.s
  have hR := h.r
  have hcond := hs.cond
  have lo := hl.lo
  have hi := hl.hi
  have hm64 := hl.m
  obtain ⟨q0, q1, a0, ab, b0, p0, p1, pz, pz2, bz, z1, -⟩ := hs
  rw [← hMe] at hW hV hX hS hR hcond lo hmul
  -- the candidate
  have hH : |A.hat.val| ≤ 2 ^ (p + 2 * q + 2 * (b - a) + 2) := by
    have hcw : A.consensusWeighted.val ≠ 0 := fun h0 => div_zero_not_fin hW.1 h0 hh
    have h1 : (2 : ℝ) ^ (-2 * b - M + 1) ≤ |A.consensusWeighted.val| := by
      obtain ⟨n, hn⟩ := hmul
      rw [hn, abs_mul, abs_of_pos (two_pow_pos _)]
      have : n ≠ 0 := by
        rintro rfl
        exact hcw (by rw [hn]; simp)
      have : (1 : ℝ) ≤ |(n : ℝ)| := by exact_mod_cast Int.one_le_abs this
      have := two_pow_pos (-2 * b - M + 1)
      nlinarith
    have h2 : |A.valueWeighted.val| ≤ 2 ^ (2 * q + (p - 2 * a) + 3 - M) := by simpa using hV.2
    have h3 : |A.valueWeighted.val / A.consensusWeighted.val| ≤ 2 ^ (p + 2 * q + 2 * (b - a) + 2) := by
      rw [abs_div, div_le_iff₀ (lt_of_lt_of_le (two_pow_pos _) h1)]
      refine h2.trans ?_
      calc (2 : ℝ) ^ (2 * q + (p - 2 * a) + 3 - M) = 2 ^ (p + 2 * q + 2 * (b - a) + 2) * 2 ^ (-2 * b - M + 1) := by rw [← two_pow_add]; congr 1; ring
        _ ≤ _ := mul_le_mul_of_nonneg_left h1 (two_pow_pos _).le
    have h4 := div_is hV.1 hW.1 hcw (h3.trans (two_pow_le (by omega)))
    exact h4.2.abs_le (by omega) h3
  generalize A.hat = H at *
  generalize A.sumXi = X at *
  generalize A.sumXiSquare = S at *
  generalize A.rangesInverseSum = R at *
  -- 0 h h
  have hz : ∀ x y : Fp spec, x.Fin → x.val = 0 → y.Fin → (x * y).Fin ∧ (x * y).val = 0 := by
    intro x y hx h0 hy
    have e : x.val * y.val = 0 := by rw [h0, zero_mul]
    have := mul_is hx hy (by rw [e, abs_zero]; exact (two_pow_pos _).le)
    rw [e] at this
    exact ⟨this.1, this.2.exact grid_zero⟩
  have T1 := hz _ _ C.1 C.2 hh
  have T2 := hz _ _ T1.1 T1.2 hh
  -- + sum of squares
  have hS1 : |S.val| ≤ 2 ^ (2 * q + 2 * p + 3 - M) := by simpa using hS.2
  have T3 := add_is T2.1 hS.1 (by rw [T2.2, zero_add]; exact hS1.trans (two_pow_le (by omega)))
  rw [T2.2, zero_add] at T3
  have v3 := T3.2.exact S.grid
  change (ofInt spec 0 * H * H + S).val = S.val at v3
  -- 2 x
  have D := ofInt_is (spec := spec) (n := 2) (by rw [show |((2 : ℤ) : ℝ)| = 2 ^ (1 : ℤ) by norm_num]; exact two_pow_le (by omega))
    (by rw [show |((2 : ℤ) : ℝ)| = 2 ^ (1 : ℤ) by norm_num]; exact two_pow_le (by omega))
  have hX1 : |X.val| ≤ 2 ^ (2 * q + p + 3 - M) := by simpa using hX.2
  have b4 : |(ofInt spec 2).val * X.val| ≤ 2 ^ (2 * q + p + 4 - M) := by
    rw [D.2, abs_mul, show |((2 : ℤ) : ℝ)| = 2 by norm_num]
    have := pow_double (2 * q + p + 3 - M)
    rw [show 2 * q + p + 3 - M + 1 = 2 * q + p + 4 - M by ring] at this
    linarith
  have T4 := mul_is D.1 hX.1 (b4.trans (two_pow_le (by omega)))
  have v4 : |(ofInt spec 2 * X).val| ≤ 2 ^ (2 * q + p + 4 - M) := T4.2.abs_le (by omega) b4
  -- 2 x h
  have b5 : |(ofInt spec 2 * X).val * H.val| ≤ 2 ^ (4 * q + 2 * p + 2 * (b - a) + 6 - M) := by
    rw [abs_mul, show 4 * q + 2 * p + 2 * (b - a) + 6 - M = (2 * q + p + 4 - M) + (p + 2 * q + 2 * (b - a) + 2) by ring, two_pow_add]
    exact mul_le_mul v4 hH (abs_nonneg _) (two_pow_pos _).le
  have T5 := mul_is T4.1 hh (b5.trans (two_pow_le (by omega)))
  have v5 : |(ofInt spec 2 * X * H).val| ≤ 2 ^ (4 * q + 2 * p + 2 * (b - a) + 6 - M) := T5.2.abs_le (by omega) b5
  -- residual
  have b6 : |(ofInt spec 0 * H * H + S).val - (ofInt spec 2 * X * H).val| ≤ 2 ^ (4 * q + 2 * p + 2 * (b - a) + 7 - M) := by
    have := pow_double (4 * q + 2 * p + 2 * (b - a) + 6 - M)
    rw [show 4 * q + 2 * p + 2 * (b - a) + 6 - M + 1 = 4 * q + 2 * p + 2 * (b - a) + 7 - M by ring] at this
    have h1 : (2 : ℝ) ^ (2 * q + 2 * p + 3 - M) ≤ 2 ^ (4 * q + 2 * p + 2 * (b - a) + 6 - M) := two_pow_le (by omega)
    refine (abs_sub _ _).trans ?_
    rw [v3]
    linarith
  have T6 := sub_is T3.1 T5.1 (b6.trans (two_pow_le (by omega)))
  have v6 : |(ofInt spec 0 * H * H + S - ofInt spec 2 * X * H).val| ≤ 2 ^ (4 * q + 2 * p + 2 * (b - a) + 7 - M) := T6.2.abs_le (by omega) b6
  -- + ranges
  generalize ofInt spec 0 * H * H + S - ofInt spec 2 * X * H = Z at *
  have hZ : Approx Z 0 (2 ^ (a - 8)) := ⟨T6.1, by rw [sub_zero]; exact v6.trans (two_pow_le (by omega))⟩
  have hR : Approx R sr (2 ^ (a - 8)) := hR.weaken (two_pow_le (by omega))
  have ea : (2 : ℝ) ^ (a - 6) = 4 * 2 ^ (a - 8) := by rw [show a - 6 = a - 8 + 2 by ring, two_pow_add]; norm_num; ring
  have e8 : (2 : ℝ) ^ (a - 8) ≤ 2 ^ (q + b) := two_pow_le (by omega)
  have eq : (2 : ℝ) ^ (q + b + 2) = 4 * 2 ^ (q + b) := by rw [two_pow_add]; norm_num; ring
  have T7 := hZ.add hR (E := 2 ^ (a - 6)) (V := 0) (q + b + 2) (by omega) (by omega) (by simp) hr (by rw [eq]; have := two_pow_pos (q + b); linarith) (by
    rw [← hMe]
    have : (2 : ℝ) ^ (q + b + 2 - M - 1) ≤ 2 ^ (a - 8) := two_pow_le (by omega)
    rw [ea]
    have := two_pow_pos (a - 8)
    linarith)
  rw [zero_add] at T7
  exact ⟨T7.1, by linarith [(abs_le.1 T7.2).1]⟩

end Verif.TlsFp
