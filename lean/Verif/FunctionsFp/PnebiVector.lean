import Verif.FunctionsFp.PnebiLoop
import Verif.FunctionsFp.PnebiProps
import Verif.HoughFp.Props
import Verif.Bessel.LutProps

/-! `evaluatePnebiVector` in `double` arithmetic: the first order, and the values by the exact back recursion. -/
namespace Verif.FunctionsFp
open Verif Ieee Fp Float.Model

/-! ### The first order -/

theorem forty_is : (d 400 1).Fin ∧ (d 400 1).val = 40 := by
  have h1 : (d 400 1).x = .finite .positive (5 * 2 ^ 50) (-47) (by decide) := by decide +kernel
  unfold Fp.Fin Fp.val
  rw [h1]
  refine ⟨trivial, ?_⟩
  simp only [Ieee.val, sgn]
  norm_num

theorem castInt_of {a : Dbl} (h : a.Fin) {r : ℕ} (h0 : (r : ℝ) ≤ a.val) (h1 : a.val < r + 1) (hr : r < 2 ^ 31) : castInt a = .ok (r : ℤ) := by
  unfold castInt
  rw [HoughFp.toInt?_fin h]
  have : Hough.trunc a.val = r := by
    rw [HoughFp.trunc_iff _ _ (by positivity)]
    refine ⟨?_, by exact_mod_cast h1⟩
    split
    · have : (0 : ℝ) ≤ r := by positivity
      linarith
    · exact_mod_cast h0
  rw [this]
  show Cxx.int _ = _
  unfold Cxx.int
  rw [if_pos (by constructor <;> omega)]

/-- The rounded root of an integer has the integer part of the root. -/
theorem root_is {n : ℕ} (hn : n < 2 ^ 31) : castInt (Fp.sqrt (d 400 1 * (n : Dbl))) = .ok ((Nat.sqrt (40 * n) : ℕ) : ℤ) := by
  have hn' : (n : ℝ) ≤ 2147483648 := by exact_mod_cast hn.le
  have hc := natCast_exact (spec := .binary64) (n := n) (hn'.trans (by rw [mb.1]; norm_num)) ((le_abs_self _).trans (dbl_top' (v := n) (by positivity) (by norm_num; linarith)))
  have hm0 := mul_is forty_is.1 hc.1 (by rw [forty_is.2, hc.2]; exact dbl_top' (by positivity) (by norm_num; linarith))
  rw [forty_is.2, hc.2] at hm0
  have hm : (d 400 1 * (n : Dbl)).val = 40 * n := by
    refine hm0.2.exact ?_
    have := grid_int (Fmt.good (spec := .binary64)) (n := ((40 * n : ℕ) : ℤ)) (by
      rw [abs_of_nonneg (by positivity)]
      have : (40 * n : ℕ) ≤ 2 ^ 53 := by omega
      exact_mod_cast this)
    push_cast at this
    exact this
  have hs := sqrt_is hm0.1 (by rw [hm]; positivity) (by
    rw [hm]
    refine (le_abs_self _).trans (dbl_top' (Real.sqrt_nonneg _) ?_)
    rw [Real.sqrt_le_left (by norm_num)]
    norm_num
    linarith)
  rw [hm] at hs
  have l1 : Nat.sqrt (40 * n) * Nat.sqrt (40 * n) ≤ 40 * n := Nat.sqrt_le (40 * n)
  have l2 : 40 * n + 1 ≤ (Nat.sqrt (40 * n) + 1) * (Nat.sqrt (40 * n) + 1) := Nat.lt_succ_sqrt (40 * n)
  have l3 : Nat.sqrt (40 * n) < 2 ^ 19 := by
    rw [Nat.sqrt_lt']
    omega
  generalize Nat.sqrt (40 * n) = r at *
  have l1' : (r : ℝ) * r ≤ 40 * n := by exact_mod_cast l1
  have l2' : (40 * n + 1 : ℝ) ≤ (r + 1) * (r + 1) := by exact_mod_cast l2
  have l3' : (r : ℝ) + 1 ≤ 2 ^ 19 := by exact_mod_cast l3
  have r0 : (0 : ℝ) ≤ r := by positivity
  have q1 : (r : ℝ) ≤ √(40 * n) := Real.le_sqrt_of_sq_le (by nlinarith)
  have hq := Real.sq_sqrt (show (0 : ℝ) ≤ 40 * n by positivity)
  have q2 : √(40 * n) ≤ r + 1 - 1 / 2 ^ 20 := by
    refine Real.sqrt_le_iff.2 ⟨by norm_num; linarith, ?_⟩
    norm_num at l3' ⊢
    nlinarith
  refine castInt_of hs.1 (hs.2.mono_ge ?_ q1) ?_ (by omega)
  · have := grid_int (Fmt.good (spec := .binary64)) (n := (r : ℤ)) (by
      rw [abs_of_nonneg (by positivity)]
      have : r ≤ 2 ^ 53 := by omega
      exact_mod_cast this)
    exact_mod_cast this
  · have h1 := (round_near hs (Real.sqrt_nonneg _)).2
    have h2 : (2 : ℝ) ^ (-1075 : ℤ) ≤ 1 / 2 ^ 30 := by
      calc (2 : ℝ) ^ (-1075 : ℤ) ≤ 2 ^ (-30 : ℤ) := two_pow_le (by norm_num)
        _ = _ := by norm_num
    have h3 : √(40 * n) * ulp ≤ 2 ^ 19 * (1 / 2 ^ 53) := by
      unfold ulp
      refine mul_le_mul_of_nonneg_right ?_ (by positivity)
      norm_num at q2 l3' ⊢
      linarith
    generalize (2 : ℝ) ^ (-1075 : ℤ) = t at *
    norm_num at *
    linarith

theorem int_ok {z : ℤ} (h0 : 0 ≤ z) (h1 : z < 2 ^ 31) : Cxx.int z = .ok z := by
  unfold Cxx.int
  rw [if_pos (by constructor <;> omega)]

theorem int_over {z : ℤ} (h : 2 ^ 31 ≤ z) : Cxx.int z = .error (.ub .overflow) := by
  unfold Cxx.int
  rw [if_neg (by omega)]

/-- The first order of the recursion. -/
theorem startOrder_eq {n : ℕ} (h : 2 * (n + Nat.sqrt (40 * n)) < 2 ^ 31) : startOrder n = .ok ((2 * (n + Nat.sqrt (40 * n)) : ℕ) : ℤ) := by
  unfold startOrder
  rw [root_is (by omega)]
  generalize Nat.sqrt (40 * n) = r at *
  have e1 : Cxx.int ((n : ℤ) + (r : ℤ)) = .ok (n + r : ℤ) := int_ok (by omega) (by omega)
  have e2 : Cxx.int (2 * ((n : ℤ) + (r : ℤ))) = .ok (2 * (n + r) : ℤ) := int_ok (by omega) (by omega)
  simp only [bind, Except.bind, e1, e2]
  push_cast
  rfl

/-- For great orders the first order is not an `int`. -/
theorem startOrder_over {n : ℕ} (hn : n < 2 ^ 31) (h : 2 ^ 31 ≤ 2 * (n + Nat.sqrt (40 * n))) : startOrder n = .error (.ub .overflow) := by
  unfold startOrder
  rw [root_is hn]
  generalize Nat.sqrt (40 * n) = r at *
  by_cases hr : n + r < 2 ^ 31
  · have e1 : Cxx.int ((n : ℤ) + (r : ℤ)) = .ok (n + r : ℤ) := int_ok (by omega) (by omega)
    have e2 : Cxx.int (2 * ((n : ℤ) + (r : ℤ))) = .error (.ub .overflow) := int_over (by omega)
    simp only [bind, Except.bind, e1, e2]
  · have e1 : Cxx.int ((n : ℤ) + (r : ℤ)) = .error (.ub .overflow) := int_over (by omega)
    simp only [bind, Except.bind, e1]

/-! ### The values -/

theorem micro_is : (d 1 6).Fin ∧ 9999 / 10000000000 ≤ (d 1 6).val ∧ (d 1 6).val ≤ 1 / 1000000 := by
  have h1 : (d 1 6).x = .finite .positive 4722366482869645 (-72) (by decide) := by decide +kernel
  unfold Fp.Fin Fp.val
  rw [h1]
  refine ⟨trivial, ?_⟩
  simp only [Ieee.val, sgn]
  norm_num

theorem Rel.div {N : ℕ} {b v P : ℝ} (h : Rel N b v) (hv : 0 < v) (hP : 0 ≤ P) : Rel (2 * N) (P / b) (P / v) := by
  have hu := ulp_pos
  have hu1 := ulp_lt
  have hp : 0 < (1 - ulp) ^ N := pow_pos (by linarith) N
  have hq : 0 < (1 + ulp) ^ N := pow_pos (by linarith) N
  have hb : 0 < b := (mul_pos hv hp).trans_le h.1
  have e1 : 1 ≤ (1 + ulp) ^ (2 * N) * (1 - ulp) ^ N := by
    rw [pow_mul, ← mul_pow]
    exact one_le_pow₀ (by nlinarith [sq_nonneg ulp])
  have e2 : (1 - ulp) ^ (2 * N) * (1 + ulp) ^ N ≤ 1 := by
    rw [pow_mul, ← mul_pow]
    exact pow_le_one₀ (mul_nonneg (sq_nonneg _) (by linarith)) (by nlinarith [sq_nonneg ulp])
  have hpp : 0 ≤ (1 - ulp) ^ (2 * N) := pow_nonneg (by linarith) _
  have hqq : 0 ≤ (1 + ulp) ^ (2 * N) := pow_nonneg (by linarith) _
  constructor
  · rw [le_div_iff₀ hb]
    calc P / v * (1 - ulp) ^ (2 * N) * b ≤ P / v * (1 - ulp) ^ (2 * N) * (v * (1 + ulp) ^ N) := mul_le_mul_of_nonneg_left h.2 (by positivity)
      _ = P * ((1 - ulp) ^ (2 * N) * (1 + ulp) ^ N) := by field_simp
      _ ≤ P * 1 := mul_le_mul_of_nonneg_left e2 hP
      _ = P := mul_one P
  · rw [div_le_iff₀ hb]
    calc P = P * 1 := (mul_one P).symm
      _ ≤ P * ((1 + ulp) ^ (2 * N) * (1 - ulp) ^ N) := mul_le_mul_of_nonneg_left e1 hP
      _ = P / v * (1 + ulp) ^ (2 * N) * (v * (1 - ulp) ^ N) := by field_simp
      _ ≤ P / v * (1 + ulp) ^ (2 * N) * b := mul_le_mul_of_nonneg_left h.1 (by positivity)

variable {F : Dbl} {f : ℝ} {m n : ℕ}

/-- The last product, by the quotient of the value of order 0. -/
theorem final_pow (h : Par F f m) {P p0 p : Dbl} {σ w : ℝ} (hσ : 0 < σ) (hw : 0 ≤ w) (hP : P.Fin) (hP0 : 2 ^ (-300 : ℤ) ≤ P.val) (hP1 : P.val ≤ 4)
    (hf0 : p0.Fin) (h0 : least f m ≤ p0.val) (h1 : p0.val ≤ 10000000000) (hr : Rel (5 * (m + 1)) p0.val (σ * mil f m (m + 1))) (hp : p.Fin) (hp0 : 0 ≤ p.val)
    (hp1 : p.val ≤ 10000000000) (hl : σ * w * (1 - ulp) ^ (5 * (m + 1)) - 2 ^ (-1073 : ℤ) ≤ p.val) (hu : p.val ≤ σ * w * (1 + ulp) ^ (5 * (m + 1)) + 2 ^ (-1073 : ℤ)) :
    (P / p0 * p).Fin ∧ P.val * (w / mil f m (m + 1)) * (1 - ulp) ^ (15 * (m + 1) + 2) - 2 ^ (-600 : ℤ) ≤ (P / p0 * p).val ∧
      (P / p0 * p).val ≤ P.val * (w / mil f m (m + 1)) * (1 + ulp) ^ (15 * (m + 1) + 2) + 2 ^ (-600 : ℤ) := by
  have hc := (mil_pos (m := m) h.pos m le_rfl).2
  have hv : 0 < σ * mil f m (m + 1) := mul_pos hσ hc
  have hPp : 0 < P.val := (two_pow_pos _).trans_le hP0
  have hp00 : 0 < p0.val := h.least_pos.trans_le h0
  have hmax := h.max
  -- the quotient
  have q0 : 0 ≤ P.val / p0.val := by positivity
  have q1 : P.val / p0.val ≤ 2 ^ (405 : ℤ) := by
    rw [div_le_iff₀ hp00]
    calc P.val ≤ 4 := hP1
      _ = 2 ^ (405 : ℤ) * 2 ^ (-403 : ℤ) := by rw [← two_pow_add]; norm_num
      _ ≤ _ := mul_le_mul_of_nonneg_left (h.least_ge.trans h0) (two_pow_pos _).le
  have q2 : 2 ^ (-334 : ℤ) ≤ P.val / p0.val := by
    rw [le_div_iff₀ hp00]
    calc (2 : ℝ) ^ (-334 : ℤ) * p0.val ≤ 2 ^ (-334 : ℤ) * 2 ^ (34 : ℤ) := mul_le_mul_of_nonneg_left (h1.trans (by norm_num)) (two_pow_pos _).le
      _ = 2 ^ (-300 : ℤ) := by rw [← two_pow_add]; norm_num
      _ ≤ _ := hP0
  have hq := div_is hP hf0 hp00.ne' (dbl_top (by rw [abs_of_nonneg q0]; exact q1.trans (two_pow_le (by norm_num))))
  have qn : P.val / p0.val = 0 ∨ 2 ^ (-1022 : ℤ) ≤ P.val / p0.val := Or.inr (le_trans (two_pow_le (by norm_num)) q2)
  have rq := (hr.div hv hPp.le).round hq qn
  have rq1 := (round_rel hq qn).bounds q0 (by norm_num)
  have rq0 := (round_rel hq qn).nonneg q0
  have q3 : (P / p0).val ≤ 2 ^ (406 : ℤ) := by
    rw [show (406 : ℤ) = 405 + 1 by norm_num, two_pow_add, zpow_one]
    have := two_pow_pos 405
    generalize (2 : ℝ) ^ (405 : ℤ) = t at *
    linarith
  generalize P / p0 = Q at *
  -- the product
  have z0 : 0 ≤ Q.val * p.val := mul_nonneg rq0 hp0
  have hz := mul_is hq.1 hp (dbl_top (by
    rw [abs_of_nonneg z0]
    calc Q.val * p.val ≤ 2 ^ (406 : ℤ) * 2 ^ (34 : ℤ) := mul_le_mul q3 (hp1.trans (by norm_num)) hp0 (two_pow_pos _).le
      _ = 2 ^ (440 : ℤ) := by rw [← two_pow_add]; norm_num
      _ ≤ _ := two_pow_le (by norm_num)))
  obtain ⟨z1, z2⟩ := round_near hz z0
  refine ⟨hz.1, ?_⟩
  generalize (Q * p).val = R at *
  have hu0 := ulp_pos
  have hu1 := ulp_lt
  obtain ⟨N, hN⟩ : ∃ N, N = 5 * (m + 1) := ⟨_, rfl⟩
  rw [← hN] at rq hl hu
  obtain ⟨M, hM⟩ : ∃ M, M = 3 * N + 2 := ⟨_, rfl⟩
  rw [show 15 * (m + 1) + 2 = M by omega]
  have hp : ∀ n : ℕ, 0 ≤ (1 - ulp) ^ n := fun n => pow_nonneg (by linarith) n
  have hqq : ∀ n : ℕ, 0 ≤ (1 + ulp) ^ n := fun n => pow_nonneg (by linarith) n
  have e : P.val * (w / mil f m (m + 1)) = P.val / (σ * mil f m (m + 1)) * (σ * w) := by field_simp
  have hW : 0 ≤ P.val * (w / mil f m (m + 1)) := by positivity
  have hsw : 0 ≤ σ * w := mul_nonneg hσ.le hw
  have tail : Q.val * 2 ^ (-1073 : ℤ) ≤ 2 ^ (-602 : ℤ) := by
    calc Q.val * 2 ^ (-1073 : ℤ) ≤ 2 ^ (406 : ℤ) * 2 ^ (-1073 : ℤ) := mul_le_mul_of_nonneg_right q3 (two_pow_pos _).le
      _ = 2 ^ (-667 : ℤ) := by rw [← two_pow_add]; norm_num
      _ ≤ _ := two_pow_le (by norm_num)
  have tail2 : (2 : ℝ) ^ (-1075 : ℤ) ≤ 2 ^ (-602 : ℤ) := two_pow_le (by norm_num)
  have e6 : (2 : ℝ) ^ (-600 : ℤ) = 4 * 2 ^ (-602 : ℤ) := by rw [show (-600 : ℤ) = 2 + -602 by norm_num, two_pow_add]; norm_num
  have ht := two_pow_pos (-602)
  rw [e6]
  have U : R ≤ P.val * (w / mil f m (m + 1)) * (1 + ulp) ^ M + 4 * 2 ^ (-602 : ℤ) := by
    have k1 : Q.val * p.val ≤ Q.val * (σ * w * (1 + ulp) ^ N) + 2 ^ (-602 : ℤ) := by
      have := mul_le_mul_of_nonneg_left hu rq0
      rw [mul_add] at this
      exact this.trans (add_le_add_right tail _)
    have k2 : Q.val * (σ * w * (1 + ulp) ^ N) ≤ P.val / (σ * mil f m (m + 1)) * (1 + ulp) ^ (2 * N + 1) * (σ * w * (1 + ulp) ^ N) :=
      mul_le_mul_of_nonneg_right rq.2 (mul_nonneg hsw (hqq N))
    have k3 : P.val / (σ * mil f m (m + 1)) * (1 + ulp) ^ (2 * N + 1) * (σ * w * (1 + ulp) ^ N) * (1 + ulp) = P.val * (w / mil f m (m + 1)) * (1 + ulp) ^ M := by
      rw [e, hM, show 3 * N + 2 = (2 * N + 1) + N + 1 by ring, pow_succ _ (2 * N + 1 + N), pow_add _ (2 * N + 1) N]
      ring
    have k4 := mul_le_mul_of_nonneg_right (k1.trans (add_le_add_left k2 _)) (show 0 ≤ 1 + ulp by linarith)
    rw [add_mul, k3] at k4
    generalize (2 : ℝ) ^ (-602 : ℤ) = t at *
    generalize (2 : ℝ) ^ (-1075 : ℤ) = t' at *
    have : t * (1 + ulp) ≤ 2 * t := by nlinarith
    linarith
  have D : P.val * (w / mil f m (m + 1)) * (1 - ulp) ^ M - 4 * 2 ^ (-602 : ℤ) ≤ R := by
    have k1 : Q.val * (σ * w * (1 - ulp) ^ N) - 2 ^ (-602 : ℤ) ≤ Q.val * p.val := by
      have := mul_le_mul_of_nonneg_left hl rq0
      rw [mul_sub] at this
      exact le_trans (sub_le_sub_left tail _) this
    have k2 : P.val / (σ * mil f m (m + 1)) * (1 - ulp) ^ (2 * N + 1) * (σ * w * (1 - ulp) ^ N) ≤ Q.val * (σ * w * (1 - ulp) ^ N) :=
      mul_le_mul_of_nonneg_right rq.1 (mul_nonneg hsw (hp N))
    have k3 : P.val / (σ * mil f m (m + 1)) * (1 - ulp) ^ (2 * N + 1) * (σ * w * (1 - ulp) ^ N) * (1 - ulp) = P.val * (w / mil f m (m + 1)) * (1 - ulp) ^ M := by
      rw [e, hM, show 3 * N + 2 = (2 * N + 1) + N + 1 by ring, pow_succ _ (2 * N + 1 + N), pow_add _ (2 * N + 1) N]
      ring
    have k4 := mul_le_mul_of_nonneg_right ((sub_le_sub_right k2 _).trans k1) (show 0 ≤ 1 - ulp by linarith)
    rw [sub_mul, k3] at k4
    generalize (2 : ℝ) ^ (-602 : ℤ) = t at *
    generalize (2 : ℝ) ^ (-1075 : ℤ) = t' at *
    have : t * (1 - ulp) ≤ 2 * t := by nlinarith
    linarith
  exact ⟨D, U⟩

/-- The last product: its relative error. -/
theorem final_value (h : Par F f m) {P p0 p : Dbl} {σ w : ℝ} (hσ : 0 < σ) (hw : 0 ≤ w) (hP : P.Fin) (hP0 : 2 ^ (-300 : ℤ) ≤ P.val) (hP1 : P.val ≤ 4)
    (hf0 : p0.Fin) (h0 : least f m ≤ p0.val) (h1 : p0.val ≤ 10000000000) (hr : Rel (5 * (m + 1)) p0.val (σ * mil f m (m + 1))) (hp : p.Fin) (hp0 : 0 ≤ p.val)
    (hp1 : p.val ≤ 10000000000) (hl : σ * w * (1 - ulp) ^ (5 * (m + 1)) - 2 ^ (-1073 : ℤ) ≤ p.val) (hu : p.val ≤ σ * w * (1 + ulp) ^ (5 * (m + 1)) + 2 ^ (-1073 : ℤ)) :
    (P / p0 * p).Fin ∧ |(P / p0 * p).val - P.val * (w / mil f m (m + 1))| ≤ 1 / 1000000000 * (P.val * (w / mil f m (m + 1))) + 2 ^ (-600 : ℤ) := by
  obtain ⟨h1, D, U⟩ := final_pow h hσ hw hP hP0 hP1 hf0 h0 h1 hr hp hp0 hp1 hl hu
  refine ⟨h1, ?_⟩
  have hc := (mil_pos (m := m) h.pos m le_rfl).2
  have hPp : 0 < P.val := (two_pow_pos _).trans_le hP0
  have hmax := h.max
  have hW : 0 ≤ P.val * (w / mil f m (m + 1)) := by positivity
  obtain ⟨b1, b2, b3⟩ := pow_bounds (N := 15 * (m + 1) + 2) (by omega)
  have hu0 := ulp_pos
  have hqq : 0 ≤ (1 + ulp) ^ (15 * (m + 1) + 2) := pow_nonneg (by linarith) _
  generalize 15 * (m + 1) + 2 = M at *
  generalize P.val * (w / mil f m (m + 1)) = W at *
  generalize (2 : ℝ) ^ (-600 : ℤ) = t at *
  have c1 : (1 + ulp) ^ M ≤ 1 + 1 / 1000000000 := by
    nlinarith
  have c2 : 1 - 1 / 1000000000 ≤ (1 - ulp) ^ M := by linarith
  have c3 := mul_le_mul_of_nonneg_left c1 hW
  have c4 := mul_le_mul_of_nonneg_left c2 hW
  rw [abs_le]
  constructor <;> linarith

/-- The conditions on the order and on the argument for which the recursion does not overflow. -/
structure Range (n : ℕ) (X : ℝ) : Prop where
  one : 1 ≤ n
  max : n ≤ 100000
  low : (d 1 6).val ≤ X
  high : X ≤ 2 ^ (400 : ℤ)
  prod : n ≤ 300000000 * X

theorem root_le {n : ℕ} (h1 : 1 ≤ n) (h2 : n ≤ 100000) : Nat.sqrt (40 * n) ≤ 6 * n ∧ Nat.sqrt (40 * n) ≤ 2000 := by
  have l1 := Nat.sqrt_le (40 * n)
  constructor
  · by_contra hc
    have : (6 * n + 1) * (6 * n + 1) ≤ Nat.sqrt (40 * n) * Nat.sqrt (40 * n) := Nat.mul_le_mul (by omega) (by omega)
    nlinarith
  · by_contra hc
    have : 2001 * 2001 ≤ Nat.sqrt (40 * n) * Nat.sqrt (40 * n) := Nat.mul_le_mul (by omega) (by omega)
    omega

theorem range_par {n : ℕ} {y : Dbl} (hy : y.Fin) (h : Range n y.val) : Par (d 20 1 / y) (2 / y.val) (2 * (n + Nat.sqrt (40 * n))) := by
  obtain ⟨r1, r2⟩ := root_le h.one h.max
  have h0 : 0 < y.val := lt_of_lt_of_le (by norm_num) (micro_is.2.1.trans h.low)
  have hl := micro_is.2.1.trans h.low
  have hf0 : 0 ≤ 2 / y.val := by positivity
  have hf1 : 2 / y.val ≤ 10 ^ 40 := by
    rw [div_le_iff₀ h0]
    norm_num
    linarith
  have hlow : 2 ^ (-399 : ℤ) ≤ 2 / y.val := by
    rw [le_div_iff₀ h0]
    calc (2 : ℝ) ^ (-399 : ℤ) * y.val ≤ 2 ^ (-399 : ℤ) * 2 ^ (400 : ℤ) := mul_le_mul_of_nonneg_left h.high (two_pow_pos _).le
      _ = 2 := by rw [← two_pow_add]; norm_num
  have hd := div_is two_is.1 hy h0.ne' (by rw [two_is.2]; exact dbl_top' hf0 hf1)
  rw [two_is.2] at hd
  have hmax := h.max
  have hone := h.one
  refine ⟨hd.1, round_rel hd (Or.inr (le_trans (two_pow_le (by norm_num)) hlow)), le_trans (two_pow_le (by norm_num)) hlow, by omega, by omega, ?_⟩
  have hm : ((2 * (n + Nat.sqrt (40 * n)) : ℕ) : ℝ) ≤ 14 * n := by
    have : 2 * (n + Nat.sqrt (40 * n)) ≤ 14 * n := by omega
    exact_mod_cast this
  have h1 : 2 / y.val * ((2 * (n + Nat.sqrt (40 * n)) : ℕ) : ℝ) ≤ 2 / y.val * (14 * (300000000 * y.val)) := mul_le_mul_of_nonneg_left (by linarith [h.prod]) hf0
  have h2 : 2 / y.val * (14 * (300000000 * y.val)) = 8400000000 := by
    field_simp
    norm_num
  linarith

theorem growD_len (v : Vec Dbl) (k : ℕ) : k ≤ (growD v k).len := by
  unfold growD
  split <;> simp_all

/-- The call in terms of the loop. -/
theorem vector_run {exp : Dbl → Dbl} {n m : ℕ} {x : Dbl} {v : Vec Dbl} {s : Functions.Seq Dbl} (hn : n < 2 ^ 31 - 1) {y : Dbl} (hy : y = if x < d 0 1 then -x else x) (hlt : ¬ y < d 1 6)
    (hm : startOrder n = .ok (m : ℤ)) (hl : backLoop n (d 20 1 / y) m ⟨d 0 1, d 10 1, growD v (n + 1)⟩ = .ok s) (h0 : 0 < s.pnebis.len) :
    evaluatePnebiVector exp n x v = .ok ⟨s.pnebis.len, fun i => evaluatePnebi0Polynom exp y / s.pnebis.val 0 * s.pnebis.val i⟩ := by
  have hint : Cxx.int ((n : ℤ) + 1) = .ok (n + 1 : ℤ) := int_ok (by omega) (by omega)
  have hget : s.pnebis.get 0 = .ok (s.pnebis.val 0) := s.pnebis.get_nat (i := 0) h0
  unfold evaluatePnebiVector
  rw [← hy, hint, hm]
  simp only [bind, Except.bind, if_neg hlt, Int.toNat_natCast, hl, hget]
  rfl

/-- The values are those of the back recursion up to relative errors; the one of order 0 is that of the polynomial up to two of them. -/
theorem vector_pow {exp : Dbl → Dbl} {n : ℕ} {x : Dbl} (hx : x.Fin) (h : Range n |x.val|) (v : Vec Dbl) {P : Dbl}
    (hP : P = evaluatePnebi0Polynom exp (if x < d 0 1 then -x else x)) (hPf : P.Fin) (hP0 : 2 ^ (-300 : ℤ) ≤ P.val) (hP1 : P.val ≤ 4) :
    ∃ r c, evaluatePnebiVector exp n x v = .ok r ∧ Bessel.Back |x.val| (2 * (n + Nat.sqrt (40 * n))) c ∧
      Rel 2 (r.val 0).val P.val ∧ (∀ j ≤ n, 0 ≤ c j) ∧ 0 < c 0 ∧
      ∀ k ≤ n, (r.val k).Fin ∧ P.val * (c k / c 0) * (1 - ulp) ^ (15 * (2 * (n + Nat.sqrt (40 * n)) + 1) + 2) - 2 ^ (-600 : ℤ) ≤ (r.val k).val ∧
        (r.val k).val ≤ P.val * (c k / c 0) * (1 + ulp) ^ (15 * (2 * (n + Nat.sqrt (40 * n)) + 1) + 2) + 2 ^ (-600 : ℤ) := by
  obtain ⟨y1, y2⟩ := fabs_is hx
  rw [← y2] at h ⊢
  obtain ⟨y, hy⟩ : ∃ y, y = if x < d 0 1 then -x else x := ⟨_, rfl⟩
  rw [← hy] at y1 hP h ⊢
  have hpar := range_par y1 h
  have hstart := startOrder_eq (n := n) (by have := hpar.max; omega)
  have hnm : n ≤ 2 * (n + Nat.sqrt (40 * n)) := by omega
  generalize 2 * (n + Nat.sqrt (40 * n)) = m at *
  have hmax := hpar.max
  have hnmax := h.max
  have h0 : 0 < y.val := lt_of_lt_of_le (by norm_num) (micro_is.2.1.trans h.low)
  obtain ⟨σ, s, l1, l2, l3⟩ := Inv.loop hpar m 0 (Nat.zero_add m) 1 _ (inv_init (n := n) hpar (v := growD v (n + 1)) (growD_len v (n + 1)))
  have hlt : ¬ y < d 1 6 := by rw [lt_iff y1 micro_is.1, not_lt]; exact h.low
  have hrun := vector_run (exp := exp) (by omega) hy hlt hstart l1 (by have := l3.len; omega)
  have hlast : s.pnebis.val 0 = s.prev := by
    have := l3.last (by omega) (by omega)
    rwa [show m + 1 - (m + 1) = 0 by omega] at this
  rw [← hP] at hrun
  have hge : least (2 / y.val) m ≤ s.prev.val := by
    rcases l3.prevGe with h1 | h1
    · omega
    · exact h1
  have hw : ∀ j ≤ n, 0 < mil (2 / y.val) m (m + 1 - j) := fun j hj => by
    rw [show m + 1 - j = (m - j) + 1 by omega]
    exact (mil_pos (m := m) hpar.pos (m - j) (by omega)).2
  refine ⟨_, _, hrun, mil_back h0 m, ?_, fun j hj => (hw j hj).le, hw 0 (Nat.zero_le n), fun k hk => ?_⟩
  · show Rel 2 (P / s.pnebis.val 0 * s.pnebis.val 0).val P.val
    rw [hlast]
    have hp : 0 < s.prev.val := hpar.least_pos.trans_le hge
    have hPp : 0 < P.val := (two_pow_pos _).trans_le hP0
    have q0 : 0 ≤ P.val / s.prev.val := by positivity
    have q1 : P.val / s.prev.val ≤ 2 ^ (405 : ℤ) := by
      rw [div_le_iff₀ hp]
      calc P.val ≤ 4 := hP1
        _ = 2 ^ (405 : ℤ) * 2 ^ (-403 : ℤ) := by rw [← two_pow_add]; norm_num
        _ ≤ _ := mul_le_mul_of_nonneg_left (hpar.least_ge.trans hge) (two_pow_pos _).le
    have q2 : 2 ^ (-334 : ℤ) ≤ P.val / s.prev.val := by
      rw [le_div_iff₀ hp]
      calc (2 : ℝ) ^ (-334 : ℤ) * s.prev.val ≤ 2 ^ (-334 : ℤ) * 2 ^ (34 : ℤ) := mul_le_mul_of_nonneg_left (l3.prevLe.trans (by norm_num)) (two_pow_pos _).le
        _ = 2 ^ (-300 : ℤ) := by rw [← two_pow_add]; norm_num
        _ ≤ _ := hP0
    have hq := div_is hPf l3.prevFin hp.ne' (dbl_top (by rw [abs_of_nonneg q0]; exact q1.trans (two_pow_le (by norm_num))))
    have rq := round_rel hq (Or.inr (le_trans (two_pow_le (by norm_num)) q2))
    have rz := rq.mul (rel_self s.prev.val) q0 hp.le
    rw [div_mul_cancel₀ _ hp.ne'] at rz
    have zb := rz.bounds hPp.le (by norm_num)
    have z0 : 0 ≤ (P / s.prev).val * s.prev.val := rz.nonneg hPp.le
    have hz := mul_is hq.1 l3.prevFin (dbl_top' z0 (zb.2.trans (by norm_num; linarith)))
    refine rz.round hz (Or.inr (le_trans ?_ zb.1))
    have : (2 : ℝ) ^ (-1022 : ℤ) ≤ 2 ^ (-1 : ℤ) * 2 ^ (-300 : ℤ) := by rw [← two_pow_add]; exact two_pow_le (by norm_num)
    norm_num [-zpow_neg] at this
    generalize (2 : ℝ) ^ (-1022 : ℤ) = t at *
    generalize (2 : ℝ) ^ (-300 : ℤ) = t' at *
    linarith
  · obtain ⟨c1, c2, c3, c4, c5⟩ := l3.stored k hk (by omega) (by omega)
    have := final_pow hpar l3.pos (hw k hk).le hPf hP0 hP1 l3.prevFin hge l3.prevLe l3.prevRel c1 c2 c3 c4 c5
    show (P / s.pnebis.val 0 * s.pnebis.val k).Fin ∧ P.val * (mil (2 / y.val) m (m + 1 - k) / mil (2 / y.val) m (m + 1 - 0)) * (1 - ulp) ^ (15 * (m + 1) + 2) - 2 ^ (-600 : ℤ) ≤
      (P / s.pnebis.val 0 * s.pnebis.val k).val ∧ (P / s.pnebis.val 0 * s.pnebis.val k).val ≤
        P.val * (mil (2 / y.val) m (m + 1 - k) / mil (2 / y.val) m (m + 1 - 0)) * (1 + ulp) ^ (15 * (m + 1) + 2) + 2 ^ (-600 : ℤ)
    rw [hlast]
    exact this

/-- The values are those of the back recursion up to a relative error of 1e-9. -/
theorem vector_back {exp : Dbl → Dbl} {n : ℕ} {x : Dbl} (hx : x.Fin) (h : Range n |x.val|) (v : Vec Dbl) {P : Dbl}
    (hP : P = evaluatePnebi0Polynom exp (if x < d 0 1 then -x else x)) (hPf : P.Fin) (hP0 : 2 ^ (-300 : ℤ) ≤ P.val) (hP1 : P.val ≤ 4) :
    ∃ r c, evaluatePnebiVector exp n x v = .ok r ∧ Bessel.Back |x.val| (2 * (n + Nat.sqrt (40 * n))) c ∧
      ∀ k ≤ n, (r.val k).Fin ∧ |(r.val k).val - P.val * (c k / c 0)| ≤ 1 / 1000000000 * (P.val * (c k / c 0)) + 2 ^ (-600 : ℤ) := by
  obtain ⟨y1, y2⟩ := fabs_is hx
  rw [← y2] at h ⊢
  obtain ⟨y, hy⟩ : ∃ y, y = if x < d 0 1 then -x else x := ⟨_, rfl⟩
  rw [← hy] at y1 hP h ⊢
  have hpar := range_par y1 h
  have hstart := startOrder_eq (n := n) (by have := hpar.max; omega)
  have hnm : n ≤ 2 * (n + Nat.sqrt (40 * n)) := by omega
  generalize 2 * (n + Nat.sqrt (40 * n)) = m at *
  have hmax := hpar.max
  have hnmax := h.max
  have h0 : 0 < y.val := lt_of_lt_of_le (by norm_num) (micro_is.2.1.trans h.low)
  obtain ⟨σ, s, l1, l2, l3⟩ := Inv.loop hpar m 0 (Nat.zero_add m) 1 _ (inv_init (n := n) hpar (v := growD v (n + 1)) (growD_len v (n + 1)))
  have hlt : ¬ y < d 1 6 := by rw [lt_iff y1 micro_is.1, not_lt]; exact h.low
  have hrun := vector_run (exp := exp) (by omega) hy hlt hstart l1 (by have := l3.len; omega)
  have hlast : s.pnebis.val 0 = s.prev := by
    have := l3.last (by omega) (by omega)
    rwa [show m + 1 - (m + 1) = 0 by omega] at this
  rw [← hP] at hrun
  refine ⟨_, _, hrun, mil_back h0 m, fun k hk => ?_⟩
  · have hkm : k ≤ m := by omega
    obtain ⟨c1, c2, c3, c4, c5⟩ := l3.stored k hk hkm (by omega)
    have hw : 0 ≤ mil (2 / y.val) m (m + 1 - k) := by
      rw [show m + 1 - k = (m - k) + 1 by omega]
      exact (mil_pos (m := m) hpar.pos (m - k) (by omega)).2.le
    have hge : least (2 / y.val) m ≤ s.prev.val := by
      rcases l3.prevGe with h1 | h1
      · omega
      · exact h1
    have := final_value hpar l3.pos hw hPf hP0 hP1 l3.prevFin hge l3.prevLe l3.prevRel c1 c2 c3 c4 c5
    show (P / s.pnebis.val 0 * s.pnebis.val k).Fin ∧ |(P / s.pnebis.val 0 * s.pnebis.val k).val - P.val * (mil (2 / y.val) m (m + 1 - k) / mil (2 / y.val) m (m + 1 - 0))| ≤
      1 / 1000000000 * (P.val * (mil (2 / y.val) m (m + 1 - k) / mil (2 / y.val) m (m + 1 - 0))) + 2 ^ (-600 : ℤ)
    rw [hlast]
    exact this

end Verif.FunctionsFp
