import Verif.Bessel.Vector
import Verif.Bessel.Props

/-! Property theorems C112 (see properties.jsonl). -/
namespace Verif.Bessel
open Functions

/-- Full statement of C112: the call succeeds and the values of all orders up to `n` are those of the functions PNEBI, up to 2e-6. -/
def C112_statement : Prop := ∀ (n : ℕ) (x : ℝ) (v : Vec ℝ), ∃ r, evaluatePnebiVector Spec.real n x v = .ok r ∧
  ∀ k ≤ n, |r.val k - pnebi k (|x|)| ≤ 2 / 1000000

/-- The range of arguments covered by the number of steps. -/
theorem range_steps (n : ℕ) (hn : 1 ≤ n) :
    150 * n + 3 * n ^ 2 ≤ (n + 2 * Nat.sqrt (40 * n)) * (3 * n + 2 * Nat.sqrt (40 * n) - 1) ∧ 13 ≤ n + 2 * Nat.sqrt (40 * n) := by
  have h1 := Nat.lt_succ_sqrt (40 * n)
  have h6 : 6 ≤ Nat.sqrt (40 * n) := Nat.le_sqrt.2 (by omega)
  generalize Nat.sqrt (40 * n) = r at h1 h6
  refine ⟨?_, by omega⟩
  rcases Nat.lt_or_ge n 2 with h2 | h2
  · have hn1 : n = 1 := by omega
    subst hn1
    have : (1 + 2 * 6) * (3 * 1 + 2 * 6 - 1) ≤ (1 + 2 * r) * (3 * 1 + 2 * r - 1) := Nat.mul_le_mul (by omega) (by omega)
    omega
  · obtain ⟨d, rfl⟩ := Nat.exists_eq_add_of_le h2
    have e : 3 * (2 + d) + 2 * r - 1 = 3 * d + 2 * r + 5 := by omega
    rw [e]
    simp only [Nat.succ_eq_add_one] at h1
    nlinarith

theorem power_lower (N : ℕ) (hN : 13 ≤ N) : (5600000 : ℝ) ≤ (1 + 30 / N) ^ N := by
  have hN' : (13 : ℝ) ≤ N := by exact_mod_cast hN
  have h0 : (0 : ℝ) < N := by linarith
  have hs : -1 ≤ 30 / (N : ℝ) := by
    have : 0 ≤ 30 / (N : ℝ) := by positivity
    linarith
  have h1 := one_add_mul_self_le_rpow_one_add hs (p := N / 13) (by rw [le_div_iff₀ (by norm_num)]; linarith)
  have e : 1 + (N : ℝ) / 13 * (30 / N) = 43 / 13 := by field_simp; norm_num
  rw [e] at h1
  have h2 := pow_le_pow_left₀ (by norm_num) h1 13
  rw [← Real.rpow_natCast, ← Real.rpow_natCast, ← Real.rpow_mul (by positivity)] at h2
  have e2 : (N : ℝ) / 13 * ((13 : ℕ) : ℝ) = ((N : ℕ) : ℝ) := by push_cast; field_simp
  rw [e2, Real.rpow_natCast, Real.rpow_natCast] at h2
  refine le_trans ?_ h2
  norm_num

/-- The error of the back recursion in the range of arguments. -/
theorem back_near (n : ℕ) (hn : 1 ≤ n) {x : ℝ} (hx : 0 < x) (hr : 10 * x ≤ 50 * n + n ^ 2) {c : ℕ → ℝ} (h : Back x (2 * (n + Nat.sqrt (40 * n))) c) (k : ℕ)
    (hk : k ≤ n) : |c k / c 0 - besselI k x / besselI 0 x| ≤ 4 / 10000000 * (besselI k x / besselI 0 x) := by
  have p0 := besselI_pos 0 hx
  cases k with
  | zero =>
    rw [div_self h.zero.ne', div_self p0.ne', sub_self, abs_zero]
    norm_num
  | succ k =>
    obtain ⟨h1, h2⟩ := range_steps n hn
    set r := Nat.sqrt (40 * n) with hrd
    set m := 2 * (n + r) with hm
    have hup := back_upper hx (m := m) ⟨n + r, by omega⟩ h k (by omega)
    have pk := besselI_pos k hx
    have pk1 := besselI_pos (k + 1) hx
    have pn := besselI_pos n hx
    have pm := besselI_pos m hx
    have pm1 := besselI_pos (m + 1) hx
    have hsq := besselI_sq hx n (n + 2 * r) (by omega)
    have e1 : n + (n + 2 * r) = m := by omega
    have e2 : 2 * n + (n + 2 * r) - 1 = 3 * n + 2 * r - 1 := by omega
    rw [e1, e2] at hsq
    have hN : (0 : ℝ) < ((n + 2 * r : ℕ) : ℝ) := by exact_mod_cast (show 0 < n + 2 * r by omega)
    have hy : 30 / ((n + 2 * r : ℕ) : ℝ) ≤ ((3 * n + 2 * r - 1 : ℕ) : ℝ) / x := by
      rw [div_le_div_iff₀ hN hx]
      have h3 : ((150 * n + 3 * n ^ 2 : ℕ) : ℝ) ≤ (((n + 2 * r) * (3 * n + 2 * r - 1) : ℕ) : ℝ) := by exact_mod_cast h1
      push_cast at h3 ⊢
      linarith
    have hpow : (5600000 : ℝ) ≤ (1 + ((3 * n + 2 * r - 1 : ℕ) : ℝ) / x) ^ (n + 2 * r) := by
      refine (power_lower _ h2).trans ?_
      gcongr
    have hmn : besselI m x ^ 2 * 5600000 ≤ besselI n x ^ 2 := (mul_le_mul_of_nonneg_left hpow (sq_nonneg _)).trans hsq
    have a1 := besselI_succ_le hx m
    have a2 : besselI n x ≤ besselI (k + 1) x := besselI_anti hx hk
    have a3 : besselI n x ≤ besselI k x := besselI_anti hx (by omega)
    refine hup.trans ?_
    rw [mul_div_assoc', mul_div_assoc', div_le_div_iff₀ (by positivity) p0]
    have h4 : 2 * (besselI m x * besselI (m + 1) x) ≤ 4 / 10000000 * (besselI (k + 1) x * besselI k x) := by
      have h5 : besselI m x * besselI (m + 1) x ≤ besselI m x ^ 2 := by rw [sq]; exact mul_le_mul_of_nonneg_left a1 pm.le
      have h6 : besselI n x ^ 2 ≤ besselI (k + 1) x * besselI k x := by rw [sq]; exact mul_le_mul a2 a3 pn.le pk1.le
      have h7 := sq_nonneg (besselI n x)
      linarith
    calc 2 * (besselI m x * besselI (m + 1) x) * besselI 0 x ≤ 4 / 10000000 * (besselI (k + 1) x * besselI k x) * besselI 0 x :=
          mul_le_mul_of_nonneg_right h4 p0.le
      _ = _ := by ring

theorem pnebi_pos (k : ℕ) {x : ℝ} (hx : 0 < x) : 0 < pnebi k x := mul_pos (by have := Real.exp_pos (-x); positivity) (besselI_pos k hx)

theorem pnebi_ratio (k : ℕ) {x : ℝ} (hx : 0 < x) : pnebi k x = pnebi 0 x * (besselI k x / besselI 0 x) := by
  have := besselI_pos 0 hx
  rw [pnebi, pnebi]
  field_simp

/-- C112 up to 5 n + n²/10: the relative error is at most 1e-6. -/
theorem C112_accuracy_partial (n : ℕ) (x : ℝ) (h0 : 1 / 1000000 ≤ |x|) (h1 : |x| ≤ 5 * n + n ^ 2 / 10) (v : Vec ℝ) :
    ∃ r, evaluatePnebiVector Spec.real n x v = .ok r ∧ ∀ k ≤ n, |r.val k - pnebi k (|x|)| ≤ 1 / 1000000 * pnebi k |x| := by
  have hx : 0 < |x| := lt_of_lt_of_le (by norm_num) h0
  obtain ⟨r, c, hr, hc, hv⟩ := vector_back Spec.real n x (by rw [fabs_abs]; exact h0) v
  rw [fabs_abs] at hc hv
  refine ⟨r, hr, fun k hk => ?_⟩
  have hacc := C111_accuracy |x|
  rw [abs_abs] at hacc
  rw [hv k hk, pnebi_ratio k hx]
  have hp := pnebi_pos 0 hx
  have hq : 0 < besselI k |x| / besselI 0 |x| := div_pos (besselI_pos k hx) (besselI_pos 0 hx)
  have hn : 1 ≤ n ∨ n = 0 := by omega
  have hb : |c k / c 0 - besselI k (|x|) / besselI 0 (|x|)| ≤ 4 / 10000000 * (besselI k |x| / besselI 0 |x|) := by
    rcases hn with hn | hn
    · exact back_near n hn hx (by linarith) hc k hk
    · subst hn
      exact absurd h1 (by norm_num; exact abs_pos.1 hx)
  generalize evaluatePnebi0Polynom Spec.real |x| = P at hacc
  generalize pnebi 0 |x| = p at hacc hp
  generalize besselI k |x| / besselI 0 |x| = q at hq hb
  generalize c k / c 0 = t at hb
  have e : P * t - p * q = (P - p) * (t - q) + (P - p) * q + p * (t - q) := by ring
  rw [e]
  refine (abs_add_le _ _).trans ?_
  have e1 : |(P - p) * (t - q) + (P - p) * q| ≤ |P - p| * |t - q| + |P - p| * q := by
    refine (abs_add_le _ _).trans ?_
    rw [abs_mul, abs_mul, abs_of_pos hq]
  have e2 : |p * (t - q)| = p * |t - q| := by rw [abs_mul, abs_of_pos hp]
  rw [e2]
  have f1 : |P - p| * |t - q| ≤ 5 / 10000000 * p * (4 / 10000000 * q) := mul_le_mul hacc hb (abs_nonneg _) (by positivity)
  have f2 : |P - p| * q ≤ 5 / 10000000 * p * q := mul_le_mul_of_nonneg_right hacc hq.le
  have f3 : p * |t - q| ≤ p * (4 / 10000000 * q) := mul_le_mul_of_nonneg_left hb hp.le
  have hpq : 0 < p * q := mul_pos hp hq
  linarith

/-! ### Bounds of PNEBI -/

theorem J_le_exp (k : ℕ) {y : ℝ} (hy : 0 ≤ y) : J k y ≤ Real.exp y := by
  rw [Real.exp_eq_exp_ℝ, NormedSpace.exp_eq_tsum_div, J]
  refine (summable_J k y).tsum_le_tsum (fun m => ?_) (Real.summable_pow_div_factorial y)
  have := one_le_fac (m + k)
  have h2 := fac_pos m
  gcongr
  nlinarith

theorem besselI_zero (k : ℕ) : besselI k 0 = if k = 0 then 1 else 0 := by
  rw [besselI_eq, J, tsum_eq_single 0 (by intro m hm; simp [hm])]
  cases k <;> simp

theorem besselI_nonneg (k : ℕ) {x : ℝ} (hx : 0 ≤ x) : 0 ≤ besselI k x := by
  rw [besselI_eq]
  exact mul_nonneg (by positivity) (J_pos k (by positivity)).le

theorem besselI_succ_le' {x : ℝ} (hx : 0 ≤ x) (j : ℕ) : besselI (j + 1) x ≤ besselI j x := by
  rcases hx.eq_or_lt with rfl | hx
  · rw [besselI_zero, besselI_zero]
    split_ifs <;> simp_all
  · exact besselI_succ_le hx j

theorem hasDerivAt_pnebi_zero (x : ℝ) : HasDerivAt (pnebi 0) (pnebi 1 x - pnebi 0 x) x := by
  have h1 : HasDerivAt (fun x : ℝ => 2 * Real.exp (-x)) (-(2 * Real.exp (-x))) x := by
    refine ((hasDerivAt_id x).neg.exp.const_mul 2).congr_deriv ?_
    simp
  refine (h1.mul (hasDerivAt_besselI_zero x)).congr_deriv ?_
  rw [pnebi, pnebi]
  ring

/-- PNEBI of order 0 decreases. -/
theorem pnebi_zero_anti {x y : ℝ} (hx : 0 ≤ x) (hxy : x ≤ y) : pnebi 0 y ≤ pnebi 0 x := by
  have := le_of_deriv_nonneg hxy (f := fun x => -pnebi 0 x) (fun z _ => (hasDerivAt_pnebi_zero z).neg) fun z hz => by
    have h := besselI_succ_le' (hx.trans hz.1) 0
    have : pnebi 1 z ≤ pnebi 0 z := mul_le_mul_of_nonneg_left h (by have := Real.exp_pos (-z); positivity)
    linarith
  linarith

theorem pnebi_zero_le {x : ℝ} (hx : 0 ≤ x) : pnebi 0 x ≤ 2 := by
  have := pnebi_zero_anti le_rfl hx
  rwa [show pnebi 0 0 = 2 by rw [pnebi, besselI_zero]; norm_num] at this

theorem pnebi_anti {x : ℝ} (hx : 0 ≤ x) (k : ℕ) : pnebi k x ≤ pnebi 0 x := by
  have h : besselI k x ≤ besselI 0 x := by
    induction k with
    | zero => exact le_rfl
    | succ k ih => exact (besselI_succ_le' hx k).trans ih
  exact mul_le_mul_of_nonneg_left h (by have := Real.exp_pos (-x); positivity)

/-- Small arguments. -/
theorem pnebi_small {x : ℝ} (h0 : 0 ≤ x) (h1 : x ≤ 1 / 1000000) : |2 - pnebi 0 x| ≤ 2 / 1000000 ∧ ∀ k, k ≠ 0 → |0 - pnebi k x| ≤ 2 / 1000000 := by
  have hb := pnebi_zero_le h0
  have he : 1 - x ≤ Real.exp (-x) := by have := Real.add_one_le_exp (-x); linarith
  have hj : 1 ≤ besselI 0 x := by
    rw [besselI_eq, pow_zero, one_mul]
    have := J_ge 0 1 (y := x ^ 2 / 4) (by positivity)
    simpa [partialJ] using this
  have hp : 2 * (1 - x) ≤ pnebi 0 x := by
    rw [pnebi]
    have := mul_le_mul he hj (by norm_num) (Real.exp_pos (-x)).le
    linarith
  refine ⟨by rw [abs_le]; constructor <;> linarith, fun k hk => ?_⟩
  obtain ⟨j, rfl⟩ := Nat.exists_eq_succ_of_ne_zero hk
  have hle : besselI (j + 1) x ≤ besselI 1 x := by
    induction j with
    | zero => exact le_rfl
    | succ j ih => exact (besselI_succ_le' h0 (j + 1)).trans (ih (by omega))
  have h2 : besselI 1 x ≤ x / 2 * Real.exp x := by
    rw [besselI_eq, pow_one]
    refine mul_le_mul_of_nonneg_left ((J_le_exp 1 (by positivity)).trans (Real.exp_le_exp.2 ?_)) (by positivity)
    nlinarith
  have h3 : pnebi (j + 1) x ≤ x := by
    have hee : Real.exp (-x) * Real.exp x = 1 := by rw [← Real.exp_add]; simp
    calc pnebi (j + 1) x ≤ 2 * Real.exp (-x) * (x / 2 * Real.exp x) :=
          mul_le_mul_of_nonneg_left (hle.trans h2) (by have := Real.exp_pos (-x); positivity)
      _ = x * (Real.exp (-x) * Real.exp x) := by ring
      _ = x := by rw [hee, mul_one]
  have h4 : 0 ≤ pnebi (j + 1) x := mul_nonneg (by have := Real.exp_pos (-x); positivity) (besselI_nonneg _ h0)
  rw [zero_sub, abs_neg, abs_of_nonneg h4]
  linarith

/-- C112 for all arguments up to 5 n + n²/10. Missing: larger arguments. -/
theorem C112_range_partial (n : ℕ) (x : ℝ) (h : |x| ≤ 5 * n + n ^ 2 / 10) (v : Vec ℝ) :
    ∃ r, evaluatePnebiVector Spec.real n x v = .ok r ∧ ∀ k ≤ n, |r.val k - pnebi k (|x|)| ≤ 2 / 1000000 := by
  by_cases h0 : 1 / 1000000 ≤ |x|
  · obtain ⟨r, hr, hv⟩ := C112_accuracy_partial n x h0 h v
    refine ⟨r, hr, fun k hk => (hv k hk).trans ?_⟩
    have h1 := pnebi_anti (abs_nonneg x) k
    have h2 := pnebi_zero_le (abs_nonneg x)
    linarith
  · rw [not_le] at h0
    obtain ⟨r, hr, -, h1, -⟩ := pnebiVector_ok Spec.real n x v
    rw [fabs_abs] at h1
    obtain ⟨a, b⟩ := h1 h0
    obtain ⟨c, d⟩ := pnebi_small (abs_nonneg x) h0.le
    refine ⟨r, hr, fun k _ => ?_⟩
    by_cases hk : k = 0
    · subst hk
      rw [a]
      exact c
    · rw [b k hk]
      exact d k hk

/-! ### Large arguments -/

theorem besselI_lower {x : ℝ} (hx : 0 < x) (j : ℕ) (hj : (j : ℝ) ≤ x) : (1 - j * (j + 1) / (2 * x)) * besselI 0 x ≤ besselI j x := by
  induction j with
  | zero => simp
  | succ j ih =>
    push_cast at hj ⊢
    have ih := ih (by linarith)
    have h := (ratio x hx j).2
    have p0 := besselI_pos 0 hx
    have hj0 : (0 : ℝ) ≤ j := Nat.cast_nonneg j
    have h1 : (1 - (j + 1) / x) * besselI j x ≤ besselI (j + 1) x := by
      have e : (x - (j + 1)) * besselI j x = x * ((1 - (j + 1) / x) * besselI j x) := by field_simp
      rw [e] at h
      exact le_of_mul_le_mul_left h hx
    refine le_trans ?_ h1
    have h2 : 0 ≤ 1 - (j + 1) / x := by rw [sub_nonneg, div_le_one hx]; exact hj
    refine le_trans ?_ (mul_le_mul_of_nonneg_left ih h2)
    rw [← mul_assoc]
    refine mul_le_mul_of_nonneg_right ?_ p0.le
    have e : (1 - (j + 1) / x) * (1 - j * (j + 1) / (2 * x)) - (1 - (j + 1) * (j + 1 + 1) / (2 * x)) = (j + 1) / x * (j * (j + 1) / (2 * x)) := by
      field_simp
      ring
    have : 0 ≤ (j + 1) / x * (j * (j + 1) / (2 * x)) := by positivity
    linarith

/-- For large arguments the recursion starts at too low an order. -/
theorem back_large (n : ℕ) (hn : 1 ≤ n) {x : ℝ} (hx : 2048 * n ^ 2 ≤ x) {c : ℕ → ℝ} (hc : Back x (2 * (n + Nat.sqrt (40 * n))) c) :
    c 1 / c 0 ≤ 1 / 8 ∧ 15 / 16 ≤ besselI 1 x / besselI 0 x := by
  have hn' : (1 : ℝ) ≤ n := by exact_mod_cast hn
  have hx0 : 0 < x := by nlinarith
  have hm : 2 * (n + Nat.sqrt (40 * n)) + 2 ≤ 16 * n := by
    have h1 := Nat.sqrt_le' (40 * n)
    have : Nat.sqrt (40 * n) < 7 * n := by
      rw [Nat.sqrt_lt']
      nlinarith
    omega
  have h6 : 6 ≤ Nat.sqrt (40 * n) := Nat.le_sqrt.2 (by omega)
  generalize hmd : 2 * (n + Nat.sqrt (40 * n)) = m at *
  have hlow := back_lower hx0 (m := m) ⟨n + Nat.sqrt (40 * n), by omega⟩ (by omega) hc
  have hm' : (m : ℝ) + 2 ≤ 16 * n := by exact_mod_cast hm
  have hm0 : (0 : ℝ) ≤ m := Nat.cast_nonneg m
  have p0 := besselI_pos 0 hx0
  have hb : ∀ j : ℕ, j ≤ m + 1 → 15 / 16 * besselI 0 x ≤ besselI j x := fun j hj => by
    have hj' : (j : ℝ) ≤ m + 1 := by exact_mod_cast hj
    have hj0 : (0 : ℝ) ≤ j := Nat.cast_nonneg j
    have hjx : (j : ℝ) * (j + 1) ≤ (16 * n) * (16 * n) := mul_le_mul (by linarith) (by linarith) (by linarith) (by linarith)
    refine le_trans ?_ (besselI_lower hx0 j (by nlinarith))
    refine mul_le_mul_of_nonneg_right ?_ p0.le
    have : (j : ℝ) * (j + 1) / (2 * x) ≤ 1 / 16 := by
      rw [div_le_iff₀ (by positivity)]
      linarith
    linarith
  have q : ∀ j : ℕ, j ≤ m + 1 → 15 / 16 ≤ besselI j x / besselI 0 x := fun j hj => by rw [le_div_iff₀ p0]; exact hb j hj
  have q1 := q 1 (by omega)
  have q2 : 15 / 16 * (15 / 16) ≤ besselI m x * besselI (m + 1) x / (besselI 0 x * besselI 0 x) := by
    rw [← div_mul_div_comm]
    exact mul_le_mul (q m (by omega)) (q (m + 1) le_rfl) (by norm_num) (le_trans (by norm_num) (q m (by omega)))
  have q3 : besselI 1 x / besselI 0 x ≤ 1 := by rw [div_le_one p0]; exact besselI_succ_le hx0 0
  exact ⟨by linarith, q1⟩

/-- For every order from 1 on, the value of order 1 is wrong for large arguments: it is below a fifth of PNEBI(1, x). -/
theorem C112_large_violated (n : ℕ) (hn : 1 ≤ n) (x : ℝ) (hx : 2048 * n ^ 2 ≤ x) (v : Vec ℝ) :
    ∃ r, evaluatePnebiVector Spec.real n x v = .ok r ∧ r.val 1 ≤ pnebi 1 x / 5 := by
  have hn' : (1 : ℝ) ≤ n := by exact_mod_cast hn
  have hx0 : 0 < x := by nlinarith
  have ha : |x| = x := abs_of_pos hx0
  obtain ⟨r, c, hr, hc, hv⟩ := vector_back Spec.real n x (by rw [fabs_abs, ha]; nlinarith) v
  rw [fabs_abs, ha] at hc hv
  refine ⟨r, hr, ?_⟩
  rw [hv 1 hn]
  have hacc := C111_accuracy x
  rw [ha] at hacc
  obtain ⟨hc1, q1⟩ := back_large n hn hx hc
  rw [pnebi_ratio 1 hx0]
  have hp := pnebi_pos 0 hx0
  have hP : evaluatePnebi0Polynom Spec.real x ≤ 11 / 10 * pnebi 0 x := by
    have := (abs_le.1 hacc).2
    linarith
  have hP0 : 0 ≤ evaluatePnebi0Polynom Spec.real x := by
    have := (abs_le.1 hacc).1
    linarith
  calc evaluatePnebi0Polynom Spec.real x * (c 1 / c 0) ≤ evaluatePnebi0Polynom Spec.real x * (1 / 8) := mul_le_mul_of_nonneg_left hc1 hP0
    _ ≤ 11 / 10 * pnebi 0 x * (1 / 8) := mul_le_mul_of_nonneg_right hP (by norm_num)
    _ ≤ pnebi 0 x * (15 / 16) / 5 := by linarith
    _ ≤ pnebi 0 x * (besselI 1 x / besselI 0 x) / 5 := by
      have := mul_le_mul_of_nonneg_left q1 hp.le
      linarith

theorem C112_violated : ¬ C112_statement := by
  intro h
  obtain ⟨r, hr, hv⟩ := h 1 2048 ⟨0, fun _ => 0⟩
  obtain ⟨r', hr', hw⟩ := C112_large_violated 1 le_rfl 2048 (by norm_num) ⟨0, fun _ => 0⟩
  rw [hr] at hr'
  have := Except.ok.inj hr'
  subst this
  have h1 := (abs_le.1 (hv 1 le_rfl)).1
  have ha : |(2048 : ℝ)| = 2048 := abs_of_pos (by norm_num)
  have hacc := C111_accuracy 2048
  rw [poly_big 2048 (by rw [ha]; norm_num)] at hacc
  rw [ha] at h1 hacc
  have hbig := big_lower (15 / 4 * (2048 : ℝ)⁻¹) (by norm_num) (by norm_num)
  have hs : √(2048 : ℝ) ≤ 46 := Real.sqrt_le_iff.2 (by norm_num)
  have hs0 : 0 < √(2048 : ℝ) := Real.sqrt_pos.2 (by norm_num)
  have hv0 : (1 : ℝ) / 100 ≤ 2 * big (15 / 4 * (2048 : ℝ)⁻¹) / √2048 := by
    rw [le_div_iff₀ hs0]
    linarith
  have h2 := (abs_le.1 hacc).2
  have hI := besselI_lower (x := 2048) (by norm_num) 1 (by norm_num)
  have p0 := besselI_pos 0 (x := 2048) (by norm_num)
  have hr1 : 1 / 2 ≤ besselI 1 2048 / besselI 0 2048 := by
    rw [le_div_iff₀ p0]
    norm_num at hI
    linarith
  have h3 := pnebi_ratio 1 (x := 2048) (by norm_num)
  have hp := pnebi_pos 0 (x := 2048) (by norm_num)
  have h4 := mul_le_mul_of_nonneg_left hr1 hp.le
  rw [← h3] at h4
  linarith

-- the values at 0 are the exact ones for every order
example (n : ℕ) : ∃ r, evaluatePnebiVector Spec.real n 0 ⟨0, fun _ => 0⟩ = .ok r ∧ r.val 0 = pnebi 0 0 := by
  obtain ⟨r, hr, -, h1, -⟩ := pnebiVector_ok Spec.real n 0 ⟨0, fun _ => 0⟩
  refine ⟨r, hr, ?_⟩
  rw [(h1 (by rw [fabs_abs]; norm_num)).1, pnebi, besselI_zero]
  norm_num

end Verif.Bessel
