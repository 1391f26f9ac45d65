import Verif.FunctionsFp.PnebiVectorModel
import Verif.FunctionsFp.Atan
import Verif.Ieee.Rel
import Verif.Bessel.Miller

/-! Relative errors of sums and products of positive numbers, and the exact back recursion. -/
namespace Verif.FunctionsFp
open Verif Ieee Fp Float.Model

/-- The relative error of an operation. -/
noncomputable def ulp : ℝ := 1 / 2 ^ 53

theorem ulp_pos : 0 < ulp := by unfold ulp; positivity
theorem ulp_lt : ulp < 1 / 1000000 := by unfold ulp; norm_num

/-- `b` differs from `v` by at most `N` relative errors. -/
def Rel (N : ℕ) (b v : ℝ) : Prop := v * (1 - ulp) ^ N ≤ b ∧ b ≤ v * (1 + ulp) ^ N

theorem rel_self (v : ℝ) : Rel 0 v v := by simp [Rel]

theorem Rel.nonneg {N : ℕ} {b v : ℝ} (h : Rel N b v) (hv : 0 ≤ v) : 0 ≤ b := by
  refine le_trans (mul_nonneg hv (pow_nonneg ?_ N)) h.1
  linarith [ulp_lt]

theorem Rel.mono {N M : ℕ} {b v : ℝ} (h : Rel N b v) (hv : 0 ≤ v) (hM : N ≤ M) : Rel M b v := by
  have h1 : (1 - ulp) ^ M ≤ (1 - ulp) ^ N := pow_le_pow_of_le_one (by linarith [ulp_lt]) (by linarith [ulp_pos]) hM
  have h2 : (1 + ulp) ^ N ≤ (1 + ulp) ^ M := pow_le_pow_right₀ (by linarith [ulp_pos]) hM
  exact ⟨(mul_le_mul_of_nonneg_left h1 hv).trans h.1, h.2.trans (mul_le_mul_of_nonneg_left h2 hv)⟩

theorem Rel.mul {N M : ℕ} {b v c w : ℝ} (h : Rel N b v) (h' : Rel M c w) (hv : 0 ≤ v) (hw : 0 ≤ w) : Rel (N + M) (b * c) (v * w) := by
  have hp : ∀ n : ℕ, 0 ≤ (1 - ulp) ^ n := fun n => pow_nonneg (by linarith [ulp_lt]) n
  have hq : ∀ n : ℕ, 0 ≤ (1 + ulp) ^ n := fun n => pow_nonneg (by linarith [ulp_pos]) n
  constructor
  · calc v * w * (1 - ulp) ^ (N + M) = v * (1 - ulp) ^ N * (w * (1 - ulp) ^ M) := by rw [pow_add]; ring
      _ ≤ b * c := mul_le_mul h.1 h'.1 (mul_nonneg hw (hp M)) (h.nonneg hv)
  · calc b * c ≤ v * (1 + ulp) ^ N * (w * (1 + ulp) ^ M) := mul_le_mul h.2 h'.2 (h'.nonneg hw) (mul_nonneg hv (hq N))
      _ = _ := by rw [pow_add]; ring

theorem Rel.add {N : ℕ} {b v c w : ℝ} (h : Rel N b v) (h' : Rel N c w) : Rel N (b + c) (v + w) := by
  constructor
  · linarith [h.1, h'.1, add_mul v w ((1 - ulp) ^ N)]
  · linarith [h.2, h'.2, add_mul v w ((1 + ulp) ^ N)]

theorem Rel.trans_one {N : ℕ} {b c v : ℝ} (h : Rel N b v) (hc : Rel 1 c b) : Rel (N + 1) c v := by
  have h1 := hc.1
  have h2 := hc.2
  rw [pow_one] at h1 h2
  constructor
  · refine le_trans ?_ h1
    rw [pow_succ, ← mul_assoc]
    exact mul_le_mul_of_nonneg_right h.1 (by linarith [ulp_lt])
  · refine h2.trans ?_
    rw [pow_succ, ← mul_assoc]
    exact mul_le_mul_of_nonneg_right h.2 (by linarith [ulp_pos])

/-- The rounding of a number that is not below the normal ones. -/
theorem round_rel {a : Dbl} {b : ℝ} (h : a.Is b) (hb : b = 0 ∨ 2 ^ (-1022 : ℤ) ≤ b) : Rel 1 a.val b := by
  unfold Rel
  rw [pow_one, pow_one]
  rcases hb with hb | hb
  · subst hb
    have : a.val = 0 := h.2.exact grid_zero
    rw [this]
    simp
  · have hp := two_pow_pos (-1022)
    have h1 : |a.val - b| ≤ b * ulp := by
      rcases h.2.rel with h1 | h1
      · rw [abs_of_pos (show 0 < b by linarith), mb.1] at h1
        refine le_of_le_of_eq h1 ?_
        unfold ulp
        rw [show (2 : ℝ) ^ (53 : ℤ) = 2 ^ 53 by norm_cast]
        ring
      · refine le_trans h1 ?_
        calc (2 : ℝ) ^ (Format.binary64.minExponent - 1) = 2 ^ (-1022 + -53 : ℤ) := rfl
          _ = 2 ^ (-1022 : ℤ) * ulp := by rw [two_pow_add]; unfold ulp; norm_num
          _ ≤ b * ulp := mul_le_mul_of_nonneg_right hb ulp_pos.le
    have := abs_le.1 h1
    constructor <;> linarith

theorem Rel.round {N : ℕ} {a : Dbl} {b v : ℝ} (h : Rel N b v) (ha : a.Is b) (hb : b = 0 ∨ 2 ^ (-1022 : ℤ) ≤ b) : Rel (N + 1) a.val v :=
  h.trans_one (round_rel ha hb)

/-- Many relative errors. -/
theorem pow_bounds {N : ℕ} (hN : N ≤ 4000000) : 1 - N * ulp ≤ (1 - ulp) ^ N ∧ (1 + ulp) ^ N * (1 - N * ulp) ≤ 1 ∧ (N : ℝ) * ulp ≤ 45 / 100000000000 := by
  have h1 : 1 - N * ulp ≤ (1 - ulp) ^ N := by
    have := one_add_mul_le_pow (a := -ulp) (by linarith [ulp_lt]) N
    rw [← sub_eq_add_neg] at this
    linarith
  refine ⟨h1, ?_, ?_⟩
  · have h2 : (1 + ulp) ^ N * (1 - ulp) ^ N ≤ 1 := by
      rw [← mul_pow]
      have := ulp_pos
      have := ulp_lt
      exact pow_le_one₀ (by nlinarith) (by nlinarith)
    refine le_trans (mul_le_mul_of_nonneg_left h1 (pow_nonneg (by linarith [ulp_pos]) N)) h2
  · have : (N : ℝ) ≤ 4000000 := by exact_mod_cast hN
    calc (N : ℝ) * ulp ≤ 4000000 * ulp := mul_le_mul_of_nonneg_right this ulp_pos.le
      _ ≤ _ := by unfold ulp; norm_num

/-! ### The exact back recursion, numbered by the iterations -/

/-- The values of the back recursion from the order `m`: `mil f m i` has the order `m + 1 - i`. -/
noncomputable def mil (f : ℝ) (m : ℕ) : ℕ → ℝ
  | 0 => 0
  | 1 => 1
  | i + 2 => mil f m i + f * ((m - i : ℕ) : ℝ) * mil f m (i + 1)

variable {f : ℝ} {m : ℕ}

theorem mil_pos (hf : 0 < f) (i : ℕ) (hi : i ≤ m) : 0 ≤ mil f m i ∧ 0 < mil f m (i + 1) := by
  induction i with
  | zero => simp [mil]
  | succ i ih =>
    obtain ⟨h1, h2⟩ := ih (by omega)
    refine ⟨h2.le, ?_⟩
    rw [mil]
    have : (0 : ℝ) < ((m - i : ℕ) : ℝ) := by exact_mod_cast (by omega : 0 < m - i)
    positivity

/-- A value is at most `1 / f` times the next one. -/
theorem mil_low (hf : 0 < f) (i : ℕ) (hi : i ≤ m) : f * mil f m i ≤ mil f m (i + 1) := by
  cases i with
  | zero => simp [mil]
  | succ i =>
    rw [mil]
    have h1 := mil_pos (m := m) hf i (by omega)
    have : (1 : ℝ) ≤ ((m - i : ℕ) : ℝ) := by exact_mod_cast (by omega : 1 ≤ m - i)
    have h2 : 0 ≤ f * mil f m (i + 1) := by have := h1.2; positivity
    nlinarith [h1.1]

theorem mil_high (hf : 0 < f) (i : ℕ) (hi : i ≤ m) : mil f m (i + 2) ≤ (1 / f + f * m) * mil f m (i + 1) := by
  rw [mil]
  have h1 := mil_low hf i hi
  have h2 := mil_pos hf i hi
  have h3 : mil f m i ≤ 1 / f * mil f m (i + 1) := by
    rw [div_mul_eq_mul_div, one_mul, le_div_iff₀ hf]
    linarith
  have h4 : f * ((m - i : ℕ) : ℝ) * mil f m (i + 1) ≤ f * m * mil f m (i + 1) := by
    have : ((m - i : ℕ) : ℝ) ≤ m := by exact_mod_cast Nat.sub_le m i
    have := h2.2
    gcongr
  linarith

theorem mil_back {x : ℝ} (hx : 0 < x) (m : ℕ) : Bessel.Back x m fun j => mil (2 / x) m (m + 1 - j) := by
  have hf : 0 < 2 / x := by positivity
  refine ⟨by simp [mil], (mil_pos hf m le_rfl).2, fun j hj => ?_⟩
  show mil _ m (m + 1 - j) = mil _ m (m + 1 - (j + 2)) + _ * mil _ m (m + 1 - (j + 1))
  have e1 : m + 1 - j = (m - 1 - j) + 2 := by omega
  rw [e1, mil, show m + 1 - (j + 2) = m - 1 - j by omega, show m + 1 - (j + 1) = m - 1 - j + 1 by omega, show m - (m - 1 - j) = j + 1 by omega]

end Verif.FunctionsFp
