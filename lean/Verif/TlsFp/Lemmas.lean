import Verif.TlsFp.Model
import Verif.Ieee.Approx

/-! Lemmas for C107 about single operations. -/
namespace Verif.Ieee
open Float.Model Float.Model.UnpackedFloat

variable {spec : Format}

/-- Rounding keeps the multiples of a power of two. -/
theorem Rounded.multiple {x : ℝ} {y : UnpackedFloat} (h : Rounded spec x y) {s : ℤ} (hs : spec.minExponent ≤ s) (hx : ∃ n : ℤ, x = n * 2 ^ s) : ∃ n : ℤ, Ieee.val y = n * 2 ^ s := by
  obtain ⟨t, r, h1, h2, h3, h4, h5⟩ := h.near
  rcases le_or_gt s t with hst | hst
  · obtain ⟨k, hk⟩ : ∃ k : ℕ, t = s + k := ⟨(t - s).toNat, by omega⟩
    refine ⟨r * 2 ^ k, ?_⟩
    rw [h5, hk, two_pow_add, zpow_natCast]
    push_cast
    ring
  · obtain ⟨n, rfl⟩ := hx
    refine ⟨n, h.exact ⟨n * 2 ^ (s - t).toNat, t, ?_, h1, ?_⟩⟩
    · have e : (n : ℝ) * 2 ^ s = (n * 2 ^ (s - t).toNat : ℤ) * 2 ^ t := by
        push_cast
        rw [mul_assoc, ← zpow_natCast, ← two_pow_add]
        congr 2
        omega
      rw [e, abs_mul, abs_of_pos (two_pow_pos t), two_pow_add] at h2
      exact le_of_mul_le_mul_right h2 (two_pow_pos t)
    · push_cast
      rw [mul_assoc, ← zpow_natCast, ← two_pow_add]
      congr 2
      omega

/-- A number not below a power of two is a multiple of its last place. -/
theorem canon_multiple {y : UnpackedFloat} (h : Canon spec y) {s : ℤ} (hy : 2 ^ s ≤ |Ieee.val y|) : ∃ n : ℤ, Ieee.val y = n * 2 ^ (s - spec.mantissaBits + 1) := by
  cases y with
  | finite sg m e hm =>
    rw [Ieee.val, abs_mul, sgn_abs, one_mul, abs_of_nonneg (mul_nonneg (Nat.cast_nonneg _) (two_pow_pos e).le)] at hy
    have h1 : (m : ℝ) * 2 ^ e < 2 ^ ((spec.mantissaBits : ℤ) + e) := by
      rw [two_pow_add, zpow_natCast]
      exact mul_lt_mul_of_pos_right (by exact_mod_cast h.1) (two_pow_pos e)
    have h2 : s < spec.mantissaBits + e := by
      by_contra hc
      exact absurd (lt_of_le_of_lt hy h1) (not_lt.2 (two_pow_le (not_lt.1 hc)))
    obtain ⟨k, hk⟩ : ∃ k : ℕ, e = s - spec.mantissaBits + 1 + k := ⟨(e - (s - spec.mantissaBits + 1)).toNat, by omega⟩
    refine ⟨sg.apply m * 2 ^ k, ?_⟩
    rw [Ieee.val]
    push_cast
    rw [apply_cast, hk, two_pow_add, zpow_natCast]
    push_cast
    ring
  | zero s => exact ⟨0, by simp [Ieee.val]⟩
  | infinity s => exact ⟨0, by simp [Ieee.val]⟩
  | notANumber => exact ⟨0, by simp [Ieee.val]⟩

namespace Fp
variable [Fmt spec]

theorem NaN.add {a b : Fp spec} (h : a.NaN ∨ b.NaN) : (a + b).NaN := by
  apply nan_ofU
  rcases h with h | h <;> rw [show _ = _ from h]
  · rfl
  · cases a.x <;> rfl

/-- Zero times an infinity or NaN. -/
theorem zero_mul_nan {a b : Fp spec} (ha : a.x = .zero .positive) (hb : ¬ b.Fin) : (a * b).NaN := by
  apply nan_ofU
  rw [ha]
  unfold Fin at hb
  cases h : b.x with
  | notANumber => rfl
  | infinity s => rfl
  | zero s => exact absurd (by rw [h]; trivial) hb
  | finite s m e hm => exact absurd (by rw [h]; trivial) hb

omit [Fmt spec] in
theorem x_zero {a : Fp spec} (ha : a.Fin) (h0 : a.val = 0) : ∃ s, a.x = .zero s := by
  unfold Fin at ha
  unfold val at h0
  cases h : a.x with
  | notANumber => rw [h] at ha; cases ha
  | infinity s => rw [h] at ha; cases ha
  | zero s => exact ⟨s, rfl⟩
  | finite s m e hm =>
    rw [h, Ieee.val] at h0
    have h1 : (0 : ℝ) < m * 2 ^ e := mul_pos (by exact_mod_cast hm) (two_pow_pos e)
    have := sgn_abs s
    rcases mul_eq_zero.1 h0 with h2 | h2
    · rw [h2] at this; norm_num at this
    · exact absurd h2 h1.ne'

/-- A division by zero. -/
theorem div_zero_not_fin {a b : Fp spec} (hb : b.Fin) (h0 : b.val = 0) : ¬ (a / b).Fin := by
  obtain ⟨s, hs⟩ := x_zero hb h0
  have e : (a / b) = ofU spec (UnpackedFloat.div spec a.x b.x) := rfl
  rw [e, hs]
  cases a.x with
  | notANumber => rw [show UnpackedFloat.div spec .notANumber (.zero s) = .notANumber from rfl, ofU_repr (y := .notANumber) trivial]; exact id
  | infinity s' => rw [show UnpackedFloat.div spec (.infinity s') (.zero s) = .infinity (s' / s) from rfl, ofU_repr (y := .infinity _) trivial]; exact id
  | zero s' => rw [show UnpackedFloat.div spec (.zero s') (.zero s) = .notANumber from rfl, ofU_repr (y := .notANumber) trivial]; exact id
  | finite s' m e hm => rw [show UnpackedFloat.div spec (.finite s' m e hm) (.zero s) = .infinity (s' / s) from rfl, ofU_repr (y := .infinity _) trivial]; exact id

end Fp
end Verif.Ieee

namespace Verif.TlsFp
open Verif Ieee Fp Float.Model

variable {spec : Format} [Fmt spec]

theorem ofInt_is {n : ℤ} (h : |(n : ℝ)| ≤ 2 ^ (spec.mantissaBits : ℤ)) (h' : |(n : ℝ)| ≤ 2 ^ top spec) : (ofInt spec n).Fin ∧ (ofInt spec n).val = n := by
  have := normalize_spec (Fmt.good (spec := spec)) n 0 .positive
  rw [zpow_zero, mul_one] at this
  have := ofU_spec' this h'
  exact ⟨this.1, this.2.exact (grid_int Fmt.good h)⟩

theorem ofInt_zero : (ofInt spec 0).x = .zero .positive := by
  unfold ofInt
  rw [show UnpackedFloat.normalize spec 0 0 .positive = .zero .positive from rfl, ofU_repr (y := .zero _) trivial]

/-- The signs ±1 multiply exactly. -/
theorem sign_mul {c : ℤ} (hc : c = 1 ∨ c = -1) (hM : 1 ≤ (spec.mantissaBits : ℤ)) (hT : 0 ≤ top spec) {a : Fp spec} (ha : a.Fin) (hA : |a.val| ≤ 2 ^ top spec) :
    (ofInt spec c * a).Fin ∧ (ofInt spec c * a).val = c * a.val := by
  have h1 : |(c : ℝ)| = 1 := by rcases hc with rfl | rfl <;> simp
  have h2 := ofInt_is (spec := spec) (n := c) (by rw [h1]; exact one_le_zpow₀ (by norm_num) (by omega)) (by rw [h1]; exact one_le_zpow₀ (by norm_num) hT)
  have h3 := mul_is h2.1 ha (by rw [h2.2, abs_mul, h1, one_mul]; exact hA)
  rw [h2.2] at h3
  refine ⟨h3.1, h3.2.exact ?_⟩
  rcases hc with rfl | rfl
  · simpa using a.grid
  · simpa using a.grid.neg

end Verif.TlsFp
