import Verif.Ieee.FpSpec

/-!
Propagation of the rounding errors: a floating point number that approximates a real number.
-/
namespace Verif.Ieee
open Float.Model Float.Model.UnpackedFloat

namespace Fp
variable {spec : Format} [Fmt spec]

/-- `a` is finite and its value differs from `v` by at most `e`. -/
def Approx (a : Fp spec) (v e : ℝ) : Prop := a.Fin ∧ |a.val - v| ≤ e

omit [Fmt spec] in
theorem approx_self {a : Fp spec} (h : a.Fin) : Approx a a.val 0 := ⟨h, by simp⟩

omit [Fmt spec] in
theorem Approx.weaken {a : Fp spec} {v e e' : ℝ} (h : Approx a v e) (he : e ≤ e') : Approx a v e' := ⟨h.1, h.2.trans he⟩

omit [Fmt spec] in
theorem Approx.trans {a : Fp spec} {v w e e' : ℝ} (h : Approx a v e) (h' : |v - w| ≤ e') : Approx a w (e + e') :=
  ⟨h.1, by
    have := abs_add_le (a.val - v) (v - w)
    rw [sub_add_sub_cancel] at this
    linarith [h.2]⟩

theorem Is.approx {a : Fp spec} {v x e : ℝ} (h : a.Is x) (k : ℤ) (hk : spec.minExponent + spec.mantissaBits ≤ k) (hx : |x| ≤ 2 ^ k) (hv : |x - v| ≤ e) :
    Approx a v (2 ^ (k - spec.mantissaBits - 1) + e) := by
  refine ⟨h.1, ?_⟩
  have h1 : |a.val - x| ≤ _ := h.2.err hk hx
  have := abs_add_le (a.val - x) (x - v)
  rw [sub_add_sub_cancel] at this
  linarith

omit [Fmt spec] in
theorem Approx.abs_le {a : Fp spec} {v e V : ℝ} (h : Approx a v e) (hV : |v| ≤ V) : |a.val| ≤ V + e := by
  have := abs_add_le (a.val - v) v
  rw [sub_add_cancel] at this
  linarith [h.2]

theorem Approx.add {a b : Fp spec} {v w e f V W E : ℝ} (ha : Approx a v e) (hb : Approx b w f) (k : ℤ) (hk : spec.minExponent + spec.mantissaBits ≤ k) (hk' : k ≤ top spec)
    (hV : |v| ≤ V) (hW : |w| ≤ W) (hB : V + e + (W + f) ≤ 2 ^ k) (hE : 2 ^ (k - spec.mantissaBits - 1) + (e + f) ≤ E) : Approx (a + b) (v + w) E := by
  have h1 : |a.val + b.val| ≤ 2 ^ k := (abs_add_le _ _).trans (by linarith [ha.abs_le hV, hb.abs_le hW])
  have h2 : |a.val + b.val - (v + w)| ≤ e + f := by
    rw [show a.val + b.val - (v + w) = (a.val - v) + (b.val - w) by ring]
    exact (abs_add_le _ _).trans (add_le_add ha.2 hb.2)
  exact ((add_is ha.1 hb.1 (h1.trans (two_pow_le hk'))).approx k hk h1 h2).weaken hE

theorem Approx.sub {a b : Fp spec} {v w e f V W E : ℝ} (ha : Approx a v e) (hb : Approx b w f) (k : ℤ) (hk : spec.minExponent + spec.mantissaBits ≤ k) (hk' : k ≤ top spec)
    (hV : |v| ≤ V) (hW : |w| ≤ W) (hB : V + e + (W + f) ≤ 2 ^ k) (hE : 2 ^ (k - spec.mantissaBits - 1) + (e + f) ≤ E) : Approx (a - b) (v - w) E := by
  have h0 : |a.val - b.val| ≤ |a.val| + |b.val| := by
    have := abs_add_le a.val (-b.val)
    rwa [abs_neg, ← sub_eq_add_neg] at this
  have h1 : |a.val - b.val| ≤ 2 ^ k := h0.trans (by linarith [ha.abs_le hV, hb.abs_le hW])
  have h2 : |a.val - b.val - (v - w)| ≤ e + f := by
    rw [show a.val - b.val - (v - w) = (a.val - v) + -(b.val - w) by ring]
    exact (abs_add_le _ _).trans (add_le_add ha.2 (by rw [abs_neg]; exact hb.2))
  exact ((sub_is ha.1 hb.1 (h1.trans (two_pow_le hk'))).approx k hk h1 h2).weaken hE

/-- A difference whose exact value is known to be small. -/
theorem Approx.sub' {a b : Fp spec} {v w e f V E : ℝ} (ha : Approx a v e) (hb : Approx b w f) (k : ℤ) (hk : spec.minExponent + spec.mantissaBits ≤ k) (hk' : k ≤ top spec)
    (hV : |v - w| ≤ V) (hB : V + e + f ≤ 2 ^ k) (hE : 2 ^ (k - spec.mantissaBits - 1) + (e + f) ≤ E) : Approx (a - b) (v - w) E := by
  have h2 : |a.val - b.val - (v - w)| ≤ e + f := by
    rw [show a.val - b.val - (v - w) = (a.val - v) + -(b.val - w) by ring]
    exact (abs_add_le _ _).trans (add_le_add ha.2 (by rw [abs_neg]; exact hb.2))
  have h1 : |a.val - b.val| ≤ 2 ^ k := by
    have := abs_add_le (a.val - b.val - (v - w)) (v - w)
    rw [sub_add_cancel] at this
    linarith
  exact ((sub_is ha.1 hb.1 (h1.trans (two_pow_le hk'))).approx k hk h1 h2).weaken hE

theorem Approx.mul {a b : Fp spec} {v w e f V W E : ℝ} (ha : Approx a v e) (hb : Approx b w f) (k : ℤ) (hk : spec.minExponent + spec.mantissaBits ≤ k) (hk' : k ≤ top spec)
    (hV : |v| ≤ V) (hW : |w| ≤ W) (hB : (V + e) * (W + f) ≤ 2 ^ k) (hE : 2 ^ (k - spec.mantissaBits - 1) + (V * f + W * e + e * f) ≤ E) : Approx (a * b) (v * w) E := by
  have h3 := ha.abs_le hV
  have h4 := hb.abs_le hW
  have h1 : |a.val * b.val| ≤ 2 ^ k := by
    rw [abs_mul]
    exact (mul_le_mul h3 h4 (abs_nonneg _) ((abs_nonneg _).trans h3)).trans hB
  have he : 0 ≤ e := (abs_nonneg _).trans ha.2
  have h2 : |a.val * b.val - v * w| ≤ V * f + W * e + e * f := by
    rw [show a.val * b.val - v * w = v * (b.val - w) + w * (a.val - v) + (a.val - v) * (b.val - w) by ring]
    refine (abs_add_le _ _).trans (add_le_add ((abs_add_le _ _).trans (add_le_add ?_ ?_)) ?_)
    · rw [abs_mul]
      exact mul_le_mul hV hb.2 (abs_nonneg _) ((abs_nonneg _).trans hV)
    · rw [abs_mul]
      exact mul_le_mul hW ha.2 (abs_nonneg _) ((abs_nonneg _).trans hW)
    · rw [abs_mul]
      exact mul_le_mul ha.2 hb.2 (abs_nonneg _) he
  exact ((mul_is ha.1 hb.1 (h1.trans (two_pow_le hk'))).approx k hk h1 h2).weaken hE

theorem Approx.neg {a : Fp spec} {v e : ℝ} (ha : Approx a v e) : Approx (-a) (-v) e :=
  ⟨neg_fin.2 ha.1, by rw [neg_val, show -a.val - -v = -(a.val - v) by ring, abs_neg]; exact ha.2⟩

theorem Approx.abs {a : Fp spec} {v e : ℝ} (ha : Approx a v e) : Approx a.abs |v| e :=
  ⟨abs_fin.2 ha.1, by rw [abs_val]; exact (abs_abs_sub_abs_le _ _).trans ha.2⟩

theorem Approx.conv {spec' : Format} {a : Fp spec'} {v e V E : ℝ} (ha : Approx a v e) (k : ℤ) (hk : spec.minExponent + spec.mantissaBits ≤ k) (hk' : k ≤ top spec)
    (hV : |v| ≤ V) (hB : V + e ≤ 2 ^ k) (hE : 2 ^ (k - spec.mantissaBits - 1) + e ≤ E) : Approx (conv a : Fp spec) v E := by
  have h1 : |a.val| ≤ 2 ^ k := (ha.abs_le hV).trans hB
  exact ((conv_is ha.1 (h1.trans (two_pow_le hk'))).approx k hk h1 ha.2).weaken hE

theorem Approx.copysign {a b : Fp spec} {v e : ℝ} (ha : Approx a v e) (hv : 0 ≤ v) : Approx (copysign a b) (sgn (sign b) * v) e := by
  refine ⟨copysign_fin.2 ha.1, ?_⟩
  rw [copysign_val, ← mul_sub, abs_mul, sgn_abs, one_mul]
  have := abs_abs_sub_abs_le a.val v
  rw [abs_of_nonneg hv] at this
  exact this.trans ha.2

/-- A quotient in the unit interval. -/
theorem div_unit {a b : Fp spec} (ha : a.Fin) (hb : b.Fin) (h0 : 0 ≤ a.val) (hb0 : 0 < b.val) (h : a.val ≤ b.val) (hk : spec.minExponent + spec.mantissaBits ≤ 0) (hk' : 0 ≤ top spec) :
    Approx (a / b) (a.val / b.val) (2 ^ (-(spec.mantissaBits : ℤ) - 1)) ∧ 0 ≤ (a / b).val ∧ (a / b).val ≤ 1 := by
  have h1 : 0 ≤ a.val / b.val := div_nonneg h0 hb0.le
  have h2 : a.val / b.val ≤ 1 := (div_le_one hb0).2 h
  have h3 : |a.val / b.val| ≤ 2 ^ (0 : ℤ) := by rwa [abs_of_nonneg h1, zpow_zero]
  have h4 := div_is ha hb hb0.ne' (h3.trans (two_pow_le hk'))
  refine ⟨?_, h4.2.mono_ge grid_zero h1, ?_⟩
  · have := h4.approx (v := a.val / b.val) (e := 0) 0 hk h3 (by simp)
    rwa [add_zero, zero_sub] at this
  · have := h4.2.mono_le (grid_two_pow (spec := spec) (k := 0) (by omega)) (by rwa [zpow_zero])
    rwa [zpow_zero] at this

theorem approx_lit {m k : ℕ} (j : ℤ) (hm : m ≠ 0) (hk0 : 0 < k) (hk : (k : ℤ) ≤ 2 ^ spec.exponentBits) (hj : spec.minExponent + spec.mantissaBits ≤ j) (hj' : j ≤ top spec)
    (h : (m : ℝ) / 10 ^ k ≤ 2 ^ j) : Approx (lit spec m (-(k : ℤ))) (m / 10 ^ k) (2 ^ (j - spec.mantissaBits - 1)) := by
  have h0 : |(m : ℝ) / 10 ^ k| ≤ 2 ^ j := by rwa [abs_of_nonneg (by positivity)]
  have := (lit_is (spec := spec) hm hk0 hk (h.trans (two_pow_le hj'))).approx (v := m / 10 ^ k) (e := 0) j hj h0 (by simp)
  rwa [add_zero] at this

end Fp
end Verif.Ieee
