import Verif.Bessel.Series
import Mathlib.Analysis.Convex.SpecificFunctions.Pow
import Mathlib.Algebra.BigOperators.Intervals

/-! The back recursion for the Bessel functions: exact error and bounds. -/
namespace Verif.Bessel

/-! ### Consecutive orders -/

/-- Bounds of the ratio of consecutive orders. -/
def Ratio (x : ℝ) (j : ℕ) : Prop := (x + j) * besselI (j + 1) x ≤ x * besselI j x ∧ (x - (j + 1)) * besselI j x ≤ x * besselI (j + 1) x

theorem rec_mul (j : ℕ) {x : ℝ} (hx : 0 < x) : x * besselI j x = x * besselI (j + 2) x + 2 * (j + 1) * besselI (j + 1) x := by
  have h := besselI_rec j x hx.ne'
  have e : x * (besselI j x - besselI (j + 2) x) = 2 * (j + 1) * besselI (j + 1) x := by
    rw [h]
    field_simp
  linarith

theorem ratio_step (j : ℕ) {x : ℝ} (hx : 0 < x) (h : Ratio x (j + 1)) : Ratio x j := by
  obtain ⟨ha, hb⟩ := h
  have p0 := besselI_pos j hx
  have p1 := besselI_pos (j + 1) hx
  have p2 := besselI_pos (j + 2) hx
  have hr := rec_mul j hx
  push_cast at ha hb
  have hj : (0 : ℝ) ≤ j := Nat.cast_nonneg j
  change (x + (j + 1)) * besselI (j + 2) x ≤ x * besselI (j + 1) x at ha
  change (x - (j + 1 + 1)) * besselI (j + 1) x ≤ x * besselI (j + 2) x at hb
  refine ⟨by nlinarith, ?_⟩
  by_cases hx' : x ≤ j + 1
  · have : (x - (j + 1)) * besselI j x ≤ 0 := mul_nonpos_of_nonpos_of_nonneg (by linarith) p0.le
    have := mul_pos hx p1
    linarith
  · rw [not_le] at hx'
    have h1 : (x + (j + 1)) * (x * besselI j x) ≤ (x * x + 2 * (j + 1) * (x + (j + 1))) * besselI (j + 1) x := by
      rw [hr]
      nlinarith
    have h2 : (x - (j + 1)) * (x * x + 2 * (j + 1) * (x + (j + 1))) ≤ (x + (j + 1)) * (x * x) := by
      have h4 : (0 : ℝ) ≤ 2 * (j + 1) ^ 3 := by positivity
      have h5 : (x + (j + 1)) * (x * x) - (x - (j + 1)) * (x * x + 2 * (j + 1) * (x + (j + 1))) = 2 * (j + 1) ^ 3 := by ring
      linarith
    have h3 : (x + (j + 1)) * x * ((x - (j + 1)) * besselI j x) ≤ (x + (j + 1)) * x * (x * besselI (j + 1) x) := by
      have := mul_le_mul_of_nonneg_left h1 (show 0 ≤ x - (j + 1) by linarith)
      have := mul_le_mul_of_nonneg_right h2 p1.le
      linarith
    exact le_of_mul_le_mul_left h3 (by positivity)

theorem ratio (x : ℝ) (hx : 0 < x) (j : ℕ) : Ratio x j := by
  obtain ⟨N, hN⟩ := exists_nat_ge x
  have base : ∀ i, N ≤ i → Ratio x i := fun i hi => by
    have hi' : (N : ℝ) ≤ i := by exact_mod_cast hi
    have p0 := besselI_pos i hx
    have p1 := besselI_pos (i + 1) hx
    have p2 := besselI_pos (i + 2) hx
    have hr := rec_mul i hx
    refine ⟨by nlinarith [mul_pos hx p2], ?_⟩
    have : (x - (i + 1)) * besselI i x ≤ 0 := mul_nonpos_of_nonpos_of_nonneg (by linarith) p0.le
    have := mul_pos hx p1
    linarith
  have down : ∀ d i, N ≤ i + d → Ratio x i := fun d => by
    induction d with
    | zero => exact fun i hi => base i hi
    | succ d ih => exact fun i hi => ratio_step i hx (ih (i + 1) (by omega))
  exact down N j (by omega)

theorem besselI_succ_le {x : ℝ} (hx : 0 < x) (j : ℕ) : besselI (j + 1) x ≤ besselI j x := by
  have h := (ratio x hx j).1
  have p1 := besselI_pos (j + 1) hx
  have hj : (0 : ℝ) ≤ j := Nat.cast_nonneg j
  have : x * besselI (j + 1) x ≤ x * besselI j x := by nlinarith
  exact le_of_mul_le_mul_left this hx

theorem besselI_anti {x : ℝ} (hx : 0 < x) {i j : ℕ} (h : i ≤ j) : besselI j x ≤ besselI i x := by
  induction j, h using Nat.le_induction with
  | base => exact le_rfl
  | succ j _ ih => exact (besselI_succ_le hx j).trans ih

theorem besselI_prod {x : ℝ} (hx : 0 < x) (n d : ℕ) : besselI (n + d) x * ∏ i ∈ Finset.range d, (x + (n + i : ℕ)) ≤ x ^ d * besselI n x := by
  induction d with
  | zero => simp
  | succ d ih =>
    rw [Finset.prod_range_succ, pow_succ]
    have h := (ratio x hx (n + d)).1
    have hp : 0 ≤ ∏ i ∈ Finset.range d, (x + (n + i : ℕ)) := Finset.prod_nonneg fun i _ => by positivity
    have h1 := mul_le_mul_of_nonneg_right h hp
    calc besselI (n + (d + 1)) x * ((∏ i ∈ Finset.range d, (x + (n + i : ℕ))) * (x + (n + d : ℕ))) =
        (x + (n + d : ℕ)) * besselI (n + d + 1) x * ∏ i ∈ Finset.range d, (x + (n + i : ℕ)) := by rw [← Nat.add_assoc]; ring
      _ ≤ x * besselI (n + d) x * ∏ i ∈ Finset.range d, (x + (n + i : ℕ)) := h1
      _ = x * (besselI (n + d) x * ∏ i ∈ Finset.range d, (x + (n + i : ℕ))) := by ring
      _ ≤ x * (x ^ d * besselI n x) := by gcongr
      _ = _ := by ring

theorem prod_sq (x : ℝ) (hx : 0 < x) (n d : ℕ) (hd : 0 < d) :
    (x * (x + (2 * n + d - 1 : ℕ))) ^ d ≤ (∏ i ∈ Finset.range d, (x + (n + i : ℕ))) ^ 2 := by
  have h := Finset.prod_range_reflect (fun i => x + ((n + i : ℕ) : ℝ)) d
  have e : (∏ i ∈ Finset.range d, (x + (n + i : ℕ))) ^ 2 = ∏ i ∈ Finset.range d, ((x + (n + i : ℕ)) * (x + (n + (d - 1 - i) : ℕ))) := by
    rw [Finset.prod_mul_distrib, h, sq]
  rw [e, ← Finset.card_range d, ← Finset.prod_const]
  simp only [Finset.card_range]
  refine Finset.prod_le_prod (fun i _ => by positivity) fun i hi => ?_
  have hi' := Finset.mem_range.1 hi
  have e2 : ((2 * n + d - 1 : ℕ) : ℝ) = (n + i : ℕ) + (n + (d - 1 - i) : ℕ) := by
    rw [← Nat.cast_add]
    congr 1
    omega
  rw [e2]
  have : (0 : ℝ) ≤ (n + i : ℕ) * (n + (d - 1 - i) : ℕ) := by positivity
  linarith

/-- The square of the ratio of distant orders. -/
theorem besselI_sq {x : ℝ} (hx : 0 < x) (n d : ℕ) (hd : 0 < d) :
    (besselI (n + d) x) ^ 2 * (1 + (2 * n + d - 1 : ℕ) / x) ^ d ≤ (besselI n x) ^ 2 := by
  have h1 := besselI_prod hx n d
  have h2 := prod_sq x hx n d hd
  have hp : 0 ≤ ∏ i ∈ Finset.range d, (x + (n + i : ℕ)) := Finset.prod_nonneg fun i _ => by positivity
  have p := besselI_pos (n + d) hx
  have h3 := pow_le_pow_left₀ (mul_nonneg p.le hp) h1 2
  have h4 := mul_le_mul_of_nonneg_left h2 (sq_nonneg (besselI (n + d) x))
  have e : x * (x + (2 * n + d - 1 : ℕ)) = x ^ 2 * (1 + (2 * n + d - 1 : ℕ) / x) := by field_simp
  rw [e, mul_pow] at h4
  have h5 : (x ^ 2) ^ d * (besselI (n + d) x ^ 2 * (1 + ((2 * n + d - 1 : ℕ) : ℝ) / x) ^ d) ≤ (x ^ 2) ^ d * besselI n x ^ 2 := by
    calc (x ^ 2) ^ d * (besselI (n + d) x ^ 2 * (1 + ((2 * n + d - 1 : ℕ) : ℝ) / x) ^ d) =
        besselI (n + d) x ^ 2 * ((x ^ 2) ^ d * (1 + ((2 * n + d - 1 : ℕ) : ℝ) / x) ^ d) := by ring
      _ ≤ besselI (n + d) x ^ 2 * (∏ i ∈ Finset.range d, (x + (n + i : ℕ))) ^ 2 := h4
      _ = (besselI (n + d) x * ∏ i ∈ Finset.range d, (x + (n + i : ℕ))) ^ 2 := by ring
      _ ≤ (x ^ d * besselI n x) ^ 2 := h3
      _ = _ := by ring
  exact le_of_mul_le_mul_left h5 (by positivity)

/-! ### The back recursion -/

/-- A sequence computed by the back recursion from the order `m`. -/
structure Back (x : ℝ) (m : ℕ) (c : ℕ → ℝ) : Prop where
  top : c (m + 1) = 0
  zero : 0 < c 0
  step : ∀ j < m, c j = c (j + 2) + 2 / x * (j + 1 : ℕ) * c (j + 1)

/-- The solution of the recurrence with alternating signs, started from 0 and 1; its absolute value. -/
noncomputable def alt (x : ℝ) : ℕ → ℝ
  | 0 => 0
  | 1 => 1
  | k + 2 => alt x k + 2 / x * (k + 1 : ℕ) * alt x (k + 1)

theorem alt_nonneg {x : ℝ} (hx : 0 < x) (k : ℕ) : 0 ≤ alt x k ∧ 0 < alt x (k + 1) := by
  induction k with
  | zero => simp [alt]
  | succ k ih =>
    refine ⟨ih.2.le, ?_⟩
    rw [show k + 1 + 1 = k + 2 from rfl, alt]
    have : 0 < 2 / x * (k + 1 : ℕ) * alt x (k + 1) := mul_pos (by positivity) ih.2
    linarith [ih.1]

theorem alt_wronskian {x : ℝ} (hx : 0 < x) (k : ℕ) : alt x (k + 1) * besselI k x + alt x k * besselI (k + 1) x = besselI 0 x := by
  induction k with
  | zero => simp [alt]
  | succ k ih =>
    rw [show k + 1 + 1 = k + 2 from rfl, alt, ← ih]
    have h := besselI_rec k x hx.ne'
    have e : besselI k x = besselI (k + 2) x + 2 / x * (k + 1 : ℕ) * besselI (k + 1) x := by
      push_cast
      rw [sub_eq_iff_eq_add] at h
      rw [h]
      ring
    rw [e]
    ring

theorem alt_even {x : ℝ} (hx : 0 < x) (i : ℕ) : alt x (2 * i) ≤ alt x (2 * i + 1) := by
  induction i with
  | zero => simp [alt]
  | succ i ih =>
    have e1 : alt x (2 * (i + 1)) = alt x (2 * i) + 2 / x * (2 * i + 1 : ℕ) * alt x (2 * i + 1) := by
      rw [show 2 * (i + 1) = 2 * i + 2 from rfl, alt]
    have e2 : alt x (2 * (i + 1) + 1) = alt x (2 * i + 1) + 2 / x * (2 * i + 2 : ℕ) * alt x (2 * (i + 1)) := by
      rw [show 2 * (i + 1) + 1 = (2 * i + 1) + 2 from rfl, alt]
      rfl
    have p := alt_nonneg hx (2 * i)
    have p2 := (alt_nonneg hx (2 * (i + 1))).1
    have hf : 0 < 2 / x := by positivity
    set f := 2 / x with hfd
    have hb : f * (2 * i + 2 : ℕ) = f * (2 * i + 1 : ℕ) + f := by push_cast; ring
    have ha : 0 ≤ f * (2 * i + 1 : ℕ) := by positivity
    rw [e2]
    by_cases h1 : 1 ≤ f * (2 * i + 2 : ℕ)
    · nlinarith [p.2]
    · rw [not_le] at h1
      have h3 : alt x (2 * (i + 1)) ≤ (1 + f * (2 * i + 1 : ℕ)) * alt x (2 * i + 1) := by rw [e1]; nlinarith
      have h4 : (1 - f * (2 * i + 2 : ℕ)) * (1 + f * (2 * i + 1 : ℕ)) ≤ 1 := by rw [hb] at h1 ⊢; nlinarith
      have h5 : (1 - f * (2 * i + 2 : ℕ)) * alt x (2 * (i + 1)) ≤ alt x (2 * i + 1) := by
        calc _ ≤ (1 - f * (2 * i + 2 : ℕ)) * ((1 + f * (2 * i + 1 : ℕ)) * alt x (2 * i + 1)) := mul_le_mul_of_nonneg_left h3 (by linarith)
          _ = (1 - f * (2 * i + 2 : ℕ)) * (1 + f * (2 * i + 1 : ℕ)) * alt x (2 * i + 1) := by ring
          _ ≤ 1 * alt x (2 * i + 1) := mul_le_mul_of_nonneg_right h4 p.2.le
          _ = _ := one_mul _
      linarith

theorem cross {x : ℝ} (hx : 0 < x) {m : ℕ} {c : ℕ → ℝ} (h : Back x m c) (k : ℕ) (hk : k ≤ m) :
    c k * besselI 0 x - c 0 * besselI k x = -(-1) ^ k * alt x k * (c 1 * besselI 0 x - c 0 * besselI 1 x) ∧
    c (k + 1) * besselI 0 x - c 0 * besselI (k + 1) x = (-1) ^ k * alt x (k + 1) * (c 1 * besselI 0 x - c 0 * besselI 1 x) := by
  induction k with
  | zero => simp [alt]
  | succ k ih =>
    obtain ⟨ih1, ih2⟩ := ih (by omega)
    refine ⟨by rw [ih2, pow_succ]; ring, ?_⟩
    have hs := h.step k (by omega)
    have hI := besselI_rec k x hx.ne'
    have e : besselI (k + 2) x = besselI k x - 2 / x * (k + 1 : ℕ) * besselI (k + 1) x := by
      have e1 : 2 / x * (k + 1 : ℕ) * besselI (k + 1) x = 2 * (k + 1) / x * besselI (k + 1) x := by push_cast; ring
      rw [e1, ← hI]
      ring
    have ec : c (k + 2) = c k - 2 / x * (k + 1 : ℕ) * c (k + 1) := by rw [hs]; ring
    rw [show k + 1 + 1 = k + 2 from rfl, e, ec, alt, pow_succ]
    linear_combination ih1 - 2 / x * (k + 1 : ℕ) * ih2

/-- The exact error of the back recursion from an even order. -/
theorem back_error {x : ℝ} (hx : 0 < x) {m : ℕ} (hm : Even m) {c : ℕ → ℝ} (h : Back x m c) (k : ℕ) (hk : k ≤ m) :
    c k / c 0 - besselI k x / besselI 0 x = (-1) ^ k * (alt x k * besselI (m + 1) x / (alt x (m + 1) * besselI 0 x)) := by
  have h1 := (cross hx h m le_rfl).2
  have h2 := (cross hx h k hk).1
  rw [h.top, hm.neg_one_pow, zero_mul, zero_sub, one_mul] at h1
  have p0 := besselI_pos 0 hx
  have pa := (alt_nonneg hx m).2
  have hc := h.zero
  have hW : c 1 * besselI 0 x - c 0 * besselI 1 x = -(c 0 * besselI (m + 1) x) / alt x (m + 1) := by
    rw [h1]
    field_simp
  rw [hW] at h2
  rw [div_sub_div _ _ hc.ne' p0.ne', h2]
  field_simp

/-- Upper bound of the error. -/
theorem back_upper {x : ℝ} (hx : 0 < x) {m : ℕ} (hm : Even m) {c : ℕ → ℝ} (h : Back x m c) (k : ℕ) (hk : k + 1 ≤ m) :
    |c (k + 1) / c 0 - besselI (k + 1) x / besselI 0 x| ≤ 2 * (besselI m x * besselI (m + 1) x / (besselI k x * besselI 0 x)) := by
  rw [back_error hx hm h (k + 1) hk, abs_mul, abs_pow, abs_neg, abs_one, one_pow, one_mul]
  have p0 := besselI_pos 0 hx
  have pk := besselI_pos k hx
  have pk1 := besselI_pos (k + 1) hx
  have pm := besselI_pos m hx
  have pm1 := besselI_pos (m + 1) hx
  have pa := (alt_nonneg hx m).2
  have pam := (alt_nonneg hx m).1
  have pak := alt_nonneg hx k
  have w1 := alt_wronskian hx k
  have w2 := alt_wronskian hx m
  have h1 : alt x (k + 1) * besselI k x ≤ besselI 0 x := by
    have := mul_nonneg pak.1 pk1.le
    linarith
  have h2 : besselI 0 x ≤ 2 * (alt x (m + 1) * besselI m x) := by
    obtain ⟨i, hi⟩ := hm
    have h3 : alt x m ≤ alt x (m + 1) := by
      have := alt_even hx i
      rwa [show 2 * i = m by omega] at this
    have h4 := besselI_succ_le hx m
    have h5 := mul_le_mul h3 h4 pm1.le pa.le
    linarith
  have pk2 := pak.2
  rw [abs_of_nonneg (by positivity), mul_div_assoc', div_le_div_iff₀ (by positivity) (by positivity)]
  calc alt x (k + 1) * besselI (m + 1) x * (besselI k x * besselI 0 x) =
      (alt x (k + 1) * besselI k x) * (besselI (m + 1) x * besselI 0 x) := by ring
    _ ≤ besselI 0 x * (besselI (m + 1) x * besselI 0 x) := mul_le_mul_of_nonneg_right h1 (by positivity)
    _ ≤ 2 * (alt x (m + 1) * besselI m x) * (besselI (m + 1) x * besselI 0 x) := mul_le_mul_of_nonneg_right h2 (by positivity)
    _ = _ := by ring

/-- Lower bound of the error at the order 1: the result is too small. -/
theorem back_lower {x : ℝ} (hx : 0 < x) {m : ℕ} (hm : Even m) (hm1 : 1 ≤ m) {c : ℕ → ℝ} (h : Back x m c) :
    c 1 / c 0 ≤ besselI 1 x / besselI 0 x - besselI m x * besselI (m + 1) x / (besselI 0 x * besselI 0 x) := by
  have he := back_error hx hm h 1 hm1
  have p0 := besselI_pos 0 hx
  have pm := besselI_pos m hx
  have pm1 := besselI_pos (m + 1) hx
  have pa := (alt_nonneg hx m).2
  have pam := (alt_nonneg hx m).1
  have w2 := alt_wronskian hx m
  have h1 : alt x (m + 1) * besselI m x ≤ besselI 0 x := by
    have := mul_nonneg pam pm1.le
    linarith
  have h2 : besselI m x * besselI (m + 1) x / (besselI 0 x * besselI 0 x) ≤ alt x 1 * besselI (m + 1) x / (alt x (m + 1) * besselI 0 x) := by
    rw [div_le_div_iff₀ (by positivity) (by positivity)]
    calc besselI m x * besselI (m + 1) x * (alt x (m + 1) * besselI 0 x) = (alt x (m + 1) * besselI m x) * (besselI (m + 1) x * besselI 0 x) := by ring
      _ ≤ besselI 0 x * (besselI (m + 1) x * besselI 0 x) := mul_le_mul_of_nonneg_right h1 (by positivity)
      _ = _ := by rw [alt]; ring
  rw [pow_one] at he
  linarith

end Verif.Bessel
