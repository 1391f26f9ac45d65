import Verif.FunctionsFp.PnebiOver

/-! Property theorems C115 (see properties.jsonl): `evaluatePnebiVector` in `double` arithmetic. -/
namespace Verif.FunctionsFp
open Verif Ieee Fp Float.Model

/-- Full statement of C115: the call succeeds and the values of all orders up to `n` are finite and are those of the functions PNEBI, up to 2e-6 and three times the error of `exp`. -/
def C115_statement : Prop := ∀ (exp : Dbl → Dbl) (δ : ℝ), ExpErr exp δ → δ ≤ 1 / 10 → ∀ (n : ℕ) (x : Dbl) (v : Vec Dbl), n < 2 ^ 31 - 1 → x.Fin →
  ∃ r, evaluatePnebiVector exp n x v = .ok r ∧ ∀ k ≤ n, (r.val k).Fin ∧ |(r.val k).val - Bessel.pnebi k (|x.val|)| ≤ 2 / 1000000 + 3 * δ

theorem ExpErr.nonneg {exp : Dbl → Dbl} {δ : ℝ} (he : ExpErr exp δ) : 0 ≤ δ := by
  have := he (d 0 1) zero_lit.1 (by rw [zero_lit.2]; norm_num) (by rw [zero_lit.2])
  have := (abs_nonneg _).trans this.2
  rwa [zero_lit.2, Real.exp_zero, mul_one] at this

/-- The value of order 0, of a number up to 2^400. -/
theorem zero_value {exp : Dbl → Dbl} {δ : ℝ} (he : ExpErr exp δ) (hδ : δ ≤ 1 / 10) {x : Dbl} (hx : x.Fin) (hb : |x.val| ≤ 2 ^ (400 : ℤ)) {P : Dbl}
    (hP : P = evaluatePnebi0Polynom exp (if x < d 0 1 then -x else x)) :
    P.Fin ∧ 2 ^ (-300 : ℤ) ≤ P.val ∧ P.val ≤ 4 ∧ |P.val - Bessel.pnebi 0 (|x.val|)| ≤ (5 / 10000000 + 11 / 10 * δ) * Bessel.pnebi 0 (|x.val|) ∧
      2 ^ (-201 : ℤ) ≤ Bessel.pnebi 0 |x.val| := by
  obtain ⟨y1, y2⟩ := fabs_is hx
  obtain ⟨h1, h2⟩ := C114_accuracy exp δ he (by linarith) _ y1
  rw [← hP, y2, abs_abs] at h2
  rw [← hP] at h1
  have h3 := Bessel.pnebi_zero_le (abs_nonneg x.val)
  have h4 := Bessel.pnebi_zero_anti (abs_nonneg x.val) hb
  have h5 := (Bessel.pnebi_large (c := 2 ^ (200 : ℤ)) (le_trans (by norm_num) (two_pow_le (show (1 : ℤ) ≤ 200 by norm_num)))).1
  have e1 : ((2 : ℝ) ^ (200 : ℤ)) ^ 2 = 2 ^ (400 : ℤ) := by rw [← zpow_natCast, ← zpow_mul]; norm_num
  have e2 : (2 : ℝ) ^ (-201 : ℤ) = 1 / 2 / 2 ^ (200 : ℤ) := by rw [show (-201 : ℤ) = -1 - 200 by norm_num, two_pow_sub]; norm_num
  have h6 : 2 ^ (-201 : ℤ) ≤ Bessel.pnebi 0 |x.val| := by
    rw [e2]
    refine le_trans ?_ ((e1 ▸ h5).trans h4)
    exact div_le_div_of_nonneg_right (by norm_num) (two_pow_pos 200).le
  have hδ0 := he.nonneg
  have hp0 : 0 < Bessel.pnebi 0 |x.val| := (two_pow_pos _).trans_le h6
  have h7 := abs_le.1 h2
  have h8 : (5 / 10000000 + 11 / 10 * δ) * Bessel.pnebi 0 |x.val| ≤ 1 / 2 * Bessel.pnebi 0 |x.val| := by
    refine mul_le_mul_of_nonneg_right ?_ hp0.le
    linarith
  have h9 : (2 : ℝ) ^ (-300 : ℤ) ≤ 1 / 2 * 2 ^ (-201 : ℤ) := by
    calc (2 : ℝ) ^ (-300 : ℤ) ≤ 2 ^ (-1 + -201 : ℤ) := two_pow_le (by norm_num)
      _ = _ := by rw [two_pow_add]; norm_num
  refine ⟨h1, ?_, by linarith, h2, h6⟩
  generalize (2 : ℝ) ^ (-300 : ℤ) = t at *
  generalize (2 : ℝ) ^ (-201 : ℤ) = t' at *
  linarith

/-- Products of factors with small relative errors. -/
theorem rel_arith {r P p c q a b t : ℝ} (hp : 0 ≤ p) (hq : 0 ≤ q) (ha : 0 ≤ a) (ha1 : a ≤ 1 / 2) (hb : 0 ≤ b) (hb1 : b ≤ 4 / 10000000) (hP : |P - p| ≤ a * p) (hc : |c - q| ≤ b * q)
    (hr : |r - P * c| ≤ 1 / 1000000000 * (P * c) + t) : |r - p * q| ≤ (a * (1 + 2 * b) + b + 4 / 1000000000) * (p * q) + t := by
  have hP' := abs_le.1 hP
  have hc' := abs_le.1 hc
  have hP1 : P ≤ (1 + a) * p := by linarith
  have hc1 : c ≤ (1 + b) * q := by linarith
  have hP0 : 0 ≤ P := by nlinarith
  have hc0 : 0 ≤ c := by nlinarith
  have hpq : 0 ≤ p * q := mul_nonneg hp hq
  have h1 : P * c ≤ (1 + a) * p * ((1 + b) * q) := mul_le_mul hP1 hc1 hc0 (by positivity)
  have h2 : |P * c - p * q| ≤ (a * (1 + b) + b) * (p * q) := by
    have : P * c - p * q = (P - p) * c + p * (c - q) := by ring
    rw [this]
    refine (abs_add_le _ _).trans ?_
    rw [abs_mul, abs_mul, abs_of_nonneg hc0, abs_of_nonneg hp]
    calc |P - p| * c + p * |c - q| ≤ a * p * ((1 + b) * q) + p * (b * q) := add_le_add (mul_le_mul hP hc1 hc0 (by positivity)) (mul_le_mul_of_nonneg_left hc hp)
      _ = _ := by ring
  have h3 : P * c ≤ 2 * (p * q) := by
    refine h1.trans ?_
    rw [show (1 + a) * p * ((1 + b) * q) = (1 + a) * (1 + b) * (p * q) by ring]
    refine mul_le_mul_of_nonneg_right ?_ hpq
    nlinarith
  have h4 : |r - p * q| ≤ |r - P * c| + |P * c - p * q| := by
    have := abs_add_le (r - P * c) (P * c - p * q)
    rwa [sub_add_sub_cancel] at this
  have h5 : 0 ≤ a * b * (p * q) := by positivity
  nlinarith

/-- C115 for arguments up to 5 n + n²/10, not small compared with `n`: the relative error is at most 0.95e-6 and 1.2 times that of `exp`. -/
theorem C115_accuracy_partial {exp : Dbl → Dbl} {δ : ℝ} (he : ExpErr exp δ) (hδ : δ ≤ 1 / 10) (n : ℕ) (hn : n ≤ 100000) (x : Dbl) (hx : x.Fin) (h0 : (d 1 6).val ≤ |x.val|)
    (h1 : |x.val| ≤ 5 * n + n ^ 2 / 10) (h2 : n ≤ 300000000 * |x.val|) (v : Vec Dbl) :
    ∃ r, evaluatePnebiVector exp n x v = .ok r ∧ ∀ k ≤ n, (r.val k).Fin ∧
      |(r.val k).val - Bessel.pnebi k (|x.val|)| ≤ (95 / 100000000 + 6 / 5 * δ) * Bessel.pnebi k (|x.val|) + 2 ^ (-600 : ℤ) := by
  have hX : 0 < |x.val| := lt_of_lt_of_le (by norm_num) (micro_is.2.1.trans h0)
  have hn1 : 1 ≤ n := by
    by_contra hc
    obtain rfl : n = 0 := by omega
    norm_num at h1
    rw [h1, abs_zero] at hX
    exact lt_irrefl _ hX
  have hn' : (n : ℝ) ≤ 100000 := by exact_mod_cast hn
  have hb : |x.val| ≤ 2 ^ (400 : ℤ) := by
    have h3 : (5 : ℝ) * n + n ^ 2 / 10 ≤ 2 ^ (31 : ℤ) := by
      have : (0 : ℝ) ≤ n := by positivity
      norm_num
      nlinarith
    exact (h1.trans h3).trans (two_pow_le (by norm_num))
  obtain ⟨P1, P2, P3, P4, P5⟩ := zero_value he hδ hx hb rfl
  obtain ⟨r, c, hr, hc, hv⟩ := vector_back (exp := exp) hx ⟨hn1, hn, h0, hb, h2⟩ v rfl P1 P2 P3
  refine ⟨r, hr, fun k hk => ⟨(hv k hk).1, ?_⟩⟩
  have hnear := Bessel.back_near n hn1 hX (by linarith) hc k hk
  have hp0 := Bessel.pnebi_pos 0 hX
  have hq0 : 0 < Bessel.besselI k |x.val| / Bessel.besselI 0 |x.val| := div_pos (Bessel.besselI_pos k hX) (Bessel.besselI_pos 0 hX)
  have hδ0 := he.nonneg
  have key := rel_arith hp0.le hq0.le (a := 5 / 10000000 + 11 / 10 * δ) (by linarith) (by linarith) (b := 4 / 10000000) (by norm_num) le_rfl P4 hnear (hv k hk).2
  rw [← Bessel.pnebi_ratio k hX] at key
  refine key.trans (add_le_add_left (mul_le_mul_of_nonneg_right ?_ (Bessel.pnebi_pos k hX).le) _)
  linarith

/-- C115 for arguments up to 5 n + n²/10, not small compared with `n`, or below 1e-6. -/
theorem C115_range_partial {exp : Dbl → Dbl} {δ : ℝ} (he : ExpErr exp δ) (hδ : δ ≤ 1 / 10) (n : ℕ) (hn : n ≤ 100000) (x : Dbl) (hx : x.Fin)
    (h1 : |x.val| ≤ 5 * n + n ^ 2 / 10) (h2 : |x.val| < (d 1 6).val ∨ n ≤ 300000000 * |x.val|) (v : Vec Dbl) :
    ∃ r, evaluatePnebiVector exp n x v = .ok r ∧ ∀ k ≤ n, (r.val k).Fin ∧ |(r.val k).val - Bessel.pnebi k (|x.val|)| ≤ 2 / 1000000 + 3 * δ := by
  have hδ0 := he.nonneg
  by_cases h0 : (d 1 6).val ≤ |x.val|
  · obtain ⟨r, hr, hv⟩ := C115_accuracy_partial he hδ n hn x hx h0 h1 (h2.resolve_left (not_lt.2 h0)) v
    refine ⟨r, hr, fun k hk => ⟨(hv k hk).1, (hv k hk).2.trans ?_⟩⟩
    have h3 := Bessel.pnebi_anti (abs_nonneg x.val) k
    have h4 := Bessel.pnebi_zero_le (abs_nonneg x.val)
    have h5 : (95 / 100000000 + 6 / 5 * δ) * Bessel.pnebi k |x.val| ≤ (95 / 100000000 + 6 / 5 * δ) * 2 := mul_le_mul_of_nonneg_left (by linarith) (by linarith)
    have h6 : (2 : ℝ) ^ (-600 : ℤ) ≤ 1 / 10000000 := by
      calc (2 : ℝ) ^ (-600 : ℤ) ≤ 2 ^ (-30 : ℤ) := two_pow_le (by norm_num)
        _ ≤ _ := by norm_num
    generalize (2 : ℝ) ^ (-600 : ℤ) = t at *
    linarith
  · rw [not_le] at h0
    obtain ⟨y1, y2⟩ := fabs_is hx
    have hlt : (if x < d 0 1 then -x else x) < d 1 6 := by rw [lt_iff y1 micro_is.1, y2]; exact h0
    have hlen : 0 < (growD v (n + 1)).len := by have := growD_len v (n + 1); omega
    have hint : Cxx.int ((n : ℤ) + 1) = .ok (n + 1 : ℤ) := int_ok (by omega) (by omega)
    have hset : Vec.set ⟨(growD v (n + 1)).len, fun _ => d 0 1⟩ 0 (d 20 1) = .ok ⟨(growD v (n + 1)).len, fun j => if j = 0 then d 20 1 else d 0 1⟩ :=
      Vec.set_nat ⟨(growD v (n + 1)).len, fun _ => d 0 1⟩ (i := 0) hlen _
    refine ⟨⟨(growD v (n + 1)).len, fun j => if j = 0 then d 20 1 else d 0 1⟩, ?_, fun k _ => ?_⟩
    · unfold evaluatePnebiVector
      rw [hint]
      simp only [bind, Except.bind, if_pos hlt, hset]
    · obtain ⟨s1, s2⟩ := Bessel.pnebi_small (abs_nonneg x.val) (h0.le.trans micro_is.2.2)
      show (if k = 0 then d 20 1 else d 0 1).Fin ∧ |(if k = 0 then d 20 1 else d 0 1).val - _| ≤ _
      split
      · rename_i hk
        subst hk
        exact ⟨two_is.1, by rw [two_is.2]; linarith⟩
      · rename_i hk
        exact ⟨zero_lit.1, by rw [zero_lit.2]; linarith [s2 k hk]⟩

/-- C115 for the order 0: accurate also for large arguments. -/
theorem C115_order0_partial {exp : Dbl → Dbl} {δ : ℝ} (he : ExpErr exp δ) (hδ : δ ≤ 1 / 10) (n : ℕ) (hn : n ≤ 100000) (x : Dbl) (hx : x.Fin) (h0 : (d 1 6).val ≤ |x.val|)
    (h1 : |x.val| ≤ 2 ^ (400 : ℤ)) (h2 : n ≤ 300000000 * |x.val|) (v : Vec Dbl) :
    ∃ r, evaluatePnebiVector exp n x v = .ok r ∧ (r.val 0).Fin ∧ |(r.val 0).val - Bessel.pnebi 0 (|x.val|)| ≤ (6 / 10000000 + 6 / 5 * δ) * Bessel.pnebi 0 (|x.val|) := by
  have hX : 0 < |x.val| := lt_of_lt_of_le (by norm_num) (micro_is.2.1.trans h0)
  have hp0 := Bessel.pnebi_pos 0 hX
  have hδ0 := he.nonneg
  obtain ⟨P1, P2, P3, P4, P5⟩ := zero_value he hδ hx h1 rfl
  rcases Nat.eq_zero_or_pos n with rfl | hn1
  · -- a single value
    obtain ⟨y1, y2⟩ := fabs_is hx
    obtain ⟨y, hy⟩ : ∃ y, y = if x < d 0 1 then -x else x := ⟨_, rfl⟩
    rw [← hy] at y1 y2 P1 P2 P3 P4
    have hlt : ¬ y < d 1 6 := by rw [lt_iff y1 micro_is.1, y2, not_lt]; exact h0
    have hlen : 0 < (growD v (0 + 1)).len := growD_len v (0 + 1)
    have hl := micro_is.2.1.trans h0
    have hf0 : 0 ≤ 2 / y.val := by rw [y2]; positivity
    have hF := div_is two_is.1 y1 (by rw [y2]; exact hX.ne') (by
      rw [two_is.2]
      refine dbl_top' hf0 ?_
      rw [y2, div_le_iff₀ hX]
      norm_num
      linarith)
    have n0 := nat_is (k := 0) (by norm_num)
    have a1 := mul_is hF.1 n0.1 (by rw [n0.2, Nat.cast_zero, mul_zero]; exact dbl_top' le_rfl (by norm_num))
    rw [n0.2, Nat.cast_zero, mul_zero] at a1
    have a1' := a1.2.exact grid_zero
    have a2 := mul_is a1.1 one_is.1 (by rw [show (d 20 1 / y * ((0 : ℕ) : Dbl)).val = 0 from a1', zero_mul]; exact dbl_top' le_rfl (by norm_num))
    rw [show (d 20 1 / y * ((0 : ℕ) : Dbl)).val = 0 from a1', zero_mul] at a2
    have a2' := a2.2.exact grid_zero
    have a3 := add_is zero_lit.1 a2.1 (by rw [zero_lit.2, show (d 20 1 / y * ((0 : ℕ) : Dbl) * d 10 1).val = 0 from a2', zero_add]; exact dbl_top' le_rfl (by norm_num))
    rw [zero_lit.2, show (d 20 1 / y * ((0 : ℕ) : Dbl) * d 10 1).val = 0 from a2', zero_add] at a3
    have hnb : ¬ bigNum < d 0 1 + d 20 1 / y * ((0 : ℕ) : Dbl) * d 10 1 := by
      rw [lt_iff big_is.1 a3.1, big_is.2, show (d 0 1 + d 20 1 / y * ((0 : ℕ) : Dbl) * d 10 1).val = 0 from a3.2.exact grid_zero]
      norm_num
    have hset : (growD v (0 + 1)).set ((0 : ℕ) : ℤ) (d 10 1) = .ok ⟨(growD v (0 + 1)).len, fun j => if j = 0 then d 10 1 else (growD v (0 + 1)).val j⟩ := Vec.set_nat _ hlen _
    have hstep : backLoop 0 (d 20 1 / y) 0 ⟨d 0 1, d 10 1, growD v (0 + 1)⟩ =
        .ok ⟨d 10 1, d 0 1 + d 20 1 / y * ((0 : ℕ) : Dbl) * d 10 1, ⟨(growD v (0 + 1)).len, fun j => if j = 0 then d 10 1 else (growD v (0 + 1)).val j⟩⟩ := by
      unfold backLoop backStep
      dsimp only
      rw [if_pos le_rfl, hset]
      simp only [bind, Except.bind, if_neg hnb]
      rfl
    have hrun := vector_run (exp := exp) (by norm_num) hy hlt (startOrder_eq (n := 0) (by norm_num)) hstep hlen
    generalize evaluatePnebi0Polynom exp y = P at *
    have hPs : |P.val| ≤ 2 ^ top Format.binary64 := dbl_top' ((two_pow_pos _).le.trans P2) (by linarith)
    have d1 := div_is P1 one_is.1 (by rw [one_is.2]; norm_num) (by rw [one_is.2, div_one]; exact hPs)
    rw [one_is.2, div_one] at d1
    have d1' : (P / d 10 1).val = P.val := d1.2.exact P.grid
    have d2 := mul_is d1.1 one_is.1 (by rw [one_is.2, mul_one, d1']; exact hPs)
    rw [one_is.2, mul_one, d1'] at d2
    have d2' : (P / d 10 1 * d 10 1).val = P.val := d2.2.exact P.grid
    refine ⟨_, hrun, d2.1, ?_⟩
    show |(P / d 10 1 * d 10 1).val - _| ≤ _
    rw [d2']
    refine P4.trans (mul_le_mul_of_nonneg_right ?_ hp0.le)
    linarith
  · obtain ⟨r, c, hr, hc, hv⟩ := vector_back (exp := exp) hx ⟨hn1, hn, h0, h1, h2⟩ v rfl P1 P2 P3
    refine ⟨r, hr, (hv 0 (Nat.zero_le n)).1, ?_⟩
    have e : c 0 / c 0 = 1 := div_self hc.zero.ne'
    have key := rel_arith hp0.le zero_le_one (a := 5 / 10000000 + 11 / 10 * δ) (by linarith) (by linarith) (b := 0) le_rfl (by norm_num) P4 (c := c 0 / c 0) (by rw [e]; simp)
      (hv 0 (Nat.zero_le n)).2
    rw [mul_one] at key
    have ht : (2 : ℝ) ^ (-600 : ℤ) ≤ 1 / 100000000 * Bessel.pnebi 0 |x.val| := by
      calc (2 : ℝ) ^ (-600 : ℤ) ≤ 2 ^ (-30 + -201 : ℤ) := two_pow_le (by norm_num)
        _ = 2 ^ (-30 : ℤ) * 2 ^ (-201 : ℤ) := two_pow_add _ _
        _ ≤ _ := mul_le_mul (by norm_num) P5 (two_pow_pos _).le (by norm_num)
    have h3 : 0 ≤ δ * Bessel.pnebi 0 |x.val| := mul_nonneg hδ0 hp0.le
    generalize (2 : ℝ) ^ (-600 : ℤ) = t at *
    generalize Bessel.pnebi 0 |x.val| = p at *
    nlinarith

/-- For every order from 1 on, the value of order 1 is wrong for large arguments: it is below a quarter of PNEBI(1, x). -/
theorem C115_large_violated {exp : Dbl → Dbl} {δ : ℝ} (he : ExpErr exp δ) (hδ : δ ≤ 1 / 10) (n : ℕ) (hn1 : 1 ≤ n) (hn : n ≤ 100000) (x : Dbl) (hx : x.Fin) (h0 : 2048 * n ^ 2 ≤ |x.val|)
    (h1 : |x.val| ≤ 2 ^ (400 : ℤ)) (v : Vec Dbl) : ∃ r, evaluatePnebiVector exp n x v = .ok r ∧ (r.val 1).Fin ∧ (r.val 1).val ≤ Bessel.pnebi 1 |x.val| / 4 := by
  have hn' : (1 : ℝ) ≤ n := by exact_mod_cast hn1
  have hX1 : 1 ≤ |x.val| := by nlinarith
  have hX : 0 < |x.val| := by linarith
  have hp0 := Bessel.pnebi_pos 0 hX
  have hδ0 := he.nonneg
  obtain ⟨P1, P2, P3, P4, P5⟩ := zero_value he hδ hx h1 rfl
  obtain ⟨r, c, hr, hc, hv⟩ := vector_back (exp := exp) hx ⟨hn1, hn, micro_is.2.2.trans (by linarith), h1, by nlinarith⟩ v rfl P1 P2 P3
  obtain ⟨c1, q1⟩ := Bessel.back_large n hn1 h0 hc
  refine ⟨r, hr, (hv 1 hn1).1, ?_⟩
  have hR := (abs_le.1 (hv 1 hn1).2).2
  have hP := (abs_le.1 P4).2
  have ht : (2 : ℝ) ^ (-600 : ℤ) ≤ 1 / 1000 * Bessel.pnebi 0 |x.val| := by
    calc (2 : ℝ) ^ (-600 : ℤ) ≤ 2 ^ (-30 + -201 : ℤ) := two_pow_le (by norm_num)
      _ = 2 ^ (-30 : ℤ) * 2 ^ (-201 : ℤ) := two_pow_add _ _
      _ ≤ _ := mul_le_mul (by norm_num) P5 (two_pow_pos _).le (by norm_num)
  rw [Bessel.pnebi_ratio 1 hX]
  have hPp := (two_pow_pos (-300)).trans_le P2
  have k1 := mul_le_mul_of_nonneg_left c1 hPp.le
  have k2 := mul_le_mul_of_nonneg_left q1 hp0.le
  have k3 : δ * Bessel.pnebi 0 |x.val| ≤ 1 / 10 * Bessel.pnebi 0 |x.val| := mul_le_mul_of_nonneg_right hδ hp0.le
  generalize (2 : ℝ) ^ (-600 : ℤ) = t at *
  generalize (evaluatePnebi0Polynom exp (if x < d 0 1 then -x else x)).val = P at *
  generalize (r.val 1).val = R at *
  generalize Bessel.besselI 1 |x.val| / Bessel.besselI 0 |x.val| = q at *
  generalize Bessel.pnebi 0 |x.val| = p at *
  have k4 : (5 / 10000000 + 11 / 10 * δ) * p = 5 / 10000000 * p + 11 / 10 * (δ * p) := by ring
  rw [k4] at hP
  generalize P * (c 1 / c 0) = z at *
  generalize p * q = w at *
  generalize δ * p = w' at *
  linarith

/-- For great orders and small arguments the division by 1e10 after each step does not prevent an overflow: all the values are NaN. -/
theorem C115_overflow_violated (exp : Dbl → Dbl) (n : ℕ) (x : Dbl) (hx : x.Fin) (h0 : (d 1 6).val ≤ |x.val|) (h1 : 20000000000 * |x.val| ≤ n) (h2 : 2 * (n + Nat.sqrt (40 * n)) < 2 ^ 31)
    (v : Vec Dbl) : ∃ r, evaluatePnebiVector exp n x v = .ok r ∧ ∀ k ≤ n, (r.val k).NaN := vector_over hx h0 h1 h2 v

/-- For greater orders the first order of the recursion is not an `int`. -/
theorem C115_order_violated (exp : Dbl → Dbl) (n : ℕ) (x : Dbl) (hx : x.Fin) (h0 : (d 1 6).val ≤ |x.val|) (hn : n < 2 ^ 31 - 1) (h2 : 2 ^ 31 ≤ 2 * (n + Nat.sqrt (40 * n))) (v : Vec Dbl) :
    evaluatePnebiVector exp n x v = .error (.ub .overflow) := by
  obtain ⟨y1, y2⟩ := fabs_is hx
  have hint : Cxx.int ((n : ℤ) + 1) = .ok (n + 1 : ℤ) := int_ok (by omega) (by omega)
  have hlt : ¬ (if x < d 0 1 then -x else x) < d 1 6 := by rw [lt_iff y1 micro_is.1, y2, not_lt]; exact h0
  unfold evaluatePnebiVector
  rw [hint, startOrder_over (by omega) h2]
  simp only [bind, Except.bind, if_neg hlt]

/-- For example: `n = 2`, `x = -4`, in the range of the first theorems. -/
example : ∃ exp : Dbl → Dbl, ∃ r, evaluatePnebiVector exp 2 (-d 40 1) ⟨0, fun _ => d 0 1⟩ = .ok r ∧ ∀ k ≤ 2, |(r.val k).val - Bessel.pnebi k 4| ≤ 21 / 10000000 := by
  obtain ⟨exp, he⟩ := expErr_exists
  have h4 : (d 40 1).Fin ∧ (d 40 1).val = 4 := by
    have h1 : (d 40 1).x = .finite .positive (2 ^ 52) (-50) (by decide) := by decide +kernel
    unfold Fp.Fin Fp.val
    rw [h1]
    refine ⟨trivial, ?_⟩
    simp only [Ieee.val, sgn]
    norm_num
  have ha : |(-d 40 1).val| = 4 := by rw [neg_val, abs_neg, h4.2]; norm_num
  obtain ⟨r, hr, hv⟩ := C115_range_partial he (by norm_num) 2 (by norm_num) (-d 40 1) (neg_fin.2 h4.1) (by rw [ha]; norm_num) (Or.inr (by rw [ha]; norm_num)) ⟨0, fun _ => d 0 1⟩
  refine ⟨exp, r, hr, fun k hk => ?_⟩
  have := (hv k hk).2
  rw [ha] at this
  exact this.trans (by norm_num)

theorem C115_violated : ¬ C115_statement := by
  intro h
  obtain ⟨exp, he⟩ := expErr_exists
  have hn : 2 * (20000 + Nat.sqrt (40 * 20000)) < 2 ^ 31 := by
    have : Nat.sqrt (40 * 20000) ≤ 40 * 20000 := Nat.sqrt_le_self _
    omega
  have ha : |(d 1 6).val| = (d 1 6).val := abs_of_nonneg (by linarith [micro_is.2.1])
  obtain ⟨r, hr, hv⟩ := h exp _ he (by norm_num) 20000 (d 1 6) ⟨0, fun _ => d 0 1⟩ (by norm_num) micro_is.1
  obtain ⟨r', hr', hw⟩ := C115_overflow_violated exp 20000 (d 1 6) micro_is.1 ha.ge (by rw [ha]; have := micro_is.2.2; push_cast; linarith) hn ⟨0, fun _ => d 0 1⟩
  rw [hr] at hr'
  have := Except.ok.inj hr'
  subst this
  have h1 := (hv 0 (Nat.zero_le _)).1
  have h2 := hw 0 (Nat.zero_le _)
  unfold Fp.Fin at h1
  rw [show (r.val 0).x = .notANumber from h2] at h1
  exact h1

end Verif.FunctionsFp
