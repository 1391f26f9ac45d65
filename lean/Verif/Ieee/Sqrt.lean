import Verif.Ieee.Fp
import Mathlib.Analysis.Real.Sqrt

/-!
The square root of IEEE 754 (the function `sqrt` of the C library, which is correctly rounded) and its specification.
-/
namespace Verif.Ieee
open Float.Model UnpackedFloat

variable {spec : Format}

/-- The integer square root and the remainder describe the square root. -/
theorem rep_sqrt (M : ℕ) : Rep (ExtendedMantissa.ofMantissaAndAccuracy (Nat.sqrt M)
    (if M - Nat.sqrt M * Nat.sqrt M = 0 then .exact else .inexact (if M - Nat.sqrt M * Nat.sqrt M ≤ Nat.sqrt M then .lt else .gt))) (Real.sqrt M) := by
  have h1 := Nat.sqrt_le M
  have h2 := Nat.lt_succ_sqrt M
  generalize Nat.sqrt M = r at *
  have r0 : (0 : ℝ) ≤ r := Nat.cast_nonneg r
  have h2' : M < (r + 1) * (r + 1) := h2
  split_ifs with h h'
  · show Real.sqrt M = r
    have : M = r * r := by omega
    rw [this]
    push_cast
    exact Real.sqrt_mul_self r0
  · show (r : ℝ) < Real.sqrt M ∧ Real.sqrt M < r + 1 / 2
    have e1 : r * r < M := by omega
    have e2 : M ≤ r * r + r := by omega
    have e1' : (r : ℝ) * r < M := by exact_mod_cast e1
    have e2' : (M : ℝ) ≤ r * r + r := by exact_mod_cast e2
    exact ⟨Real.lt_sqrt_of_sq_lt (by nlinarith), (Real.sqrt_lt' (by linarith)).2 (by nlinarith)⟩
  · show (r : ℝ) + 1 / 2 < Real.sqrt M ∧ Real.sqrt M < r + 1
    have e1 : r * r + r + 1 ≤ M := by omega
    have e1' : (r : ℝ) * r + r + 1 ≤ M := by exact_mod_cast e1
    have e2' : (M : ℝ) < (r + 1) * (r + 1) := by exact_mod_cast h2'
    exact ⟨Real.lt_sqrt_of_sq_lt (by nlinarith), (Real.sqrt_lt' (by linarith)).2 (by nlinarith)⟩

theorem sqrt_spec (hg : Good spec) {x : UnpackedFloat} (hx : Fin x) (h0 : 0 ≤ val x) : Rounded spec (Real.sqrt (val x)) (UnpackedFloat.sqrt spec x) := by
  cases x with
  | infinity s => cases hx
  | notANumber => cases hx
  | zero s =>
    show Rounded spec (Real.sqrt 0) _
    rw [Real.sqrt_zero]
    exact rounded_zero _
  | finite s m e h =>
    have hm : (0 : ℝ) < m := by exact_mod_cast h
    cases s with
    | negative =>
      exfalso
      have : val (.finite .negative m e h) = -(m * 2 ^ e) := by simp only [val, sgn]; ring
      rw [this] at h0
      have := mul_pos hm (two_pow_pos e)
      linarith
    | positive =>
      show Rounded spec _ (roundWithAccuracy spec .positive (sqrtCore spec m e).1 (sqrtCore spec m e).2.1 (sqrtCore spec m e).2.2)
      unfold sqrtCore
      dsimp only
      obtain ⟨t, ht⟩ : ∃ t, t = min (e.ediv 2) (spec.targetExponent ((totalExponent m e + 1).ediv 2)) := ⟨_, rfl⟩
      rw [← ht]
      have hte : t ≤ e / 2 := by rw [ht]; exact min_le_left _ _
      have htt : t ≤ spec.targetExponent ((totalExponent m e + 1) / 2) := by rw [ht]; exact min_le_right _ _
      clear ht
      obtain ⟨n, hn⟩ : ∃ n : ℕ, e = 2 * t + n := ⟨(e - 2 * t).toNat, by omega⟩
      have : (e - 2 * t).toNat = n := by omega
      rw [this]
      have hml := log2_shiftLeft h n
      obtain ⟨M, hM⟩ : ∃ M, M = m <<< n := ⟨_, rfl⟩
      rw [← hM] at hml ⊢
      have hM0 : 0 < M := by
        rw [hM, Nat.shiftLeft_eq]
        positivity
      have he : t ≤ spec.targetExponent (totalExponent (Nat.sqrt M) t) := by
        unfold Format.targetExponent at htt ⊢
        rcases le_max_iff.1 htt with h1 | h1
        · refine le_max_of_le_left (h1.trans ?_)
          -- the root has enough bits
          have h2 : M < 2 ^ (2 * ((Nat.sqrt M).log2 + 1)) := by
            have a1 : Nat.sqrt M + 1 ≤ 2 ^ ((Nat.sqrt M).log2 + 1) := Nat.lt_log2_self
            calc M < (Nat.sqrt M + 1) * (Nat.sqrt M + 1) := Nat.lt_succ_sqrt M
              _ ≤ 2 ^ ((Nat.sqrt M).log2 + 1) * 2 ^ ((Nat.sqrt M).log2 + 1) := Nat.mul_le_mul a1 a1
              _ = _ := by rw [← pow_add]; congr 1; ring
          have h3 := (log2_bounds hM0).1
          have h4 : M.log2 < 2 * ((Nat.sqrt M).log2 + 1) := by
            by_contra hh
            exact absurd (lt_of_lt_of_le h2 (le_trans (Nat.pow_le_pow_right (by norm_num) (not_lt.1 hh)) h3)) (lt_irrefl _)
          unfold totalExponent
          omega
        · exact le_max_of_le_right h1
      have := roundWithAccuracy_spec hg.p .positive (Nat.sqrt M) t _ (rep_sqrt M) he
      have h2 : sgn .positive * (Real.sqrt M * 2 ^ t) = Real.sqrt (val (.finite .positive m e h)) := by
        have h3 : val (.finite .positive m e h) = M * (2 ^ t) ^ 2 := by
          simp only [val, sgn]
          rw [hM, Nat.shiftLeft_eq, hn, two_pow_add, two_mul, two_pow_add, zpow_natCast]
          push_cast
          ring
        rw [h3, Real.sqrt_mul (Nat.cast_nonneg _), Real.sqrt_sq (two_pow_pos t).le]
        simp only [sgn, one_mul]
      rw [h2] at this
      exact this

namespace Fp
variable [Fmt spec]

/-- `sqrt` of the C library. -/
def sqrt (a : Fp spec) : Fp spec := ofU spec (UnpackedFloat.sqrt spec a.x)

/-- The square root is the rounded square root of the value. -/
theorem sqrt_is {a : Fp spec} (ha : a.Fin) (h0 : 0 ≤ a.val) (h : Real.sqrt a.val ≤ 2 ^ top spec) : (sqrt a).Is (Real.sqrt a.val) :=
  ofU_spec' (sqrt_spec Fmt.good ha h0) (by rwa [abs_of_nonneg (Real.sqrt_nonneg _)])

/-- The square root of a negative number is not a number. -/
theorem sqrt_nan {a : Fp spec} (ha : a.Fin) (h0 : a.val < 0) : (sqrt a).NaN := by
  apply nan_ofU
  unfold Fp.val at h0
  unfold Fp.Fin at ha
  cases hx : a.x with
  | infinity s => rw [hx] at ha; cases ha
  | notANumber => rfl
  | zero s => rw [hx] at h0; exact absurd h0 (lt_irrefl _)
  | finite s m e h =>
    cases s with
    | negative => rfl
    | positive =>
      exfalso
      rw [hx] at h0
      simp only [Ieee.val, sgn, one_mul] at h0
      have : (0 : ℝ) ≤ m * 2 ^ e := by positivity
      linarith

-- the square root of 2 to the nearest double
example : sqrt (lit .binary64 2 0) = lit .binary64 14142135623730951 (-16) := by decide +kernel

end Fp
end Verif.Ieee
