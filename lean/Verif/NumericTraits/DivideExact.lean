import Verif.NumericTraits.DivideProps

/-! Property C125, exact condition. -/
namespace Verif.NumericTraits
open Verif.BitManip Spec

/-- C125, exact condition: for normal numbers the quotient is right exactly for n = 0, numbers from 1 to less than 2^(MANTISSA_BITS + 1) and a fraction field less than
2^exponent. -/
theorem C125_iff (t : FTy) (f : BitVec t.w) (hf : Normal t f) (n : ℤ) (h1 : -2 ^ (t.w - 1) ≤ n) :
    (∃ g, dividePow2 t f n = .ok g ∧ value t g = value t f / 2 ^ n) ↔
      n = 0 ∧ 0 ≤ (expo t f : ℤ) - bias t ∧ (expo t f : ℤ) - bias t ≤ mb t ∧ frac t f < 2 ^ ((expo t f : ℤ) - bias t).toNat := by
  constructor
  · rintro ⟨g, hg, hv⟩
    have hn : n = 0 := by
      by_contra hn
      exact C125_never_violated t f hf n hn h1 g hg hv
    subst hn
    obtain ⟨r1, r2, r3⟩ := C125_result t f 0 h1
    rw [zpow_zero, div_one] at hv
    have hm := mag_normal hf.1
    have hE : (0 : ℚ) < 2 ^ ((expo t f : ℤ) - bias t) := by positivity
    have hne : value t f ≠ 0 := by
      unfold value
      split_ifs
      · exact neg_ne_zero.2 (by linarith)
      · linarith
    rcases lt_or_ge ((expo t f : ℤ) - bias t) 0 with hc | hc
    · obtain rfl := Except.ok.inj (hg.symm.trans (r1 hc))
      rw [← hv] at hne
      exact absurd (by cases t <;> decide +kernel) hne
    rcases le_or_gt ((expo t f : ℤ) - bias t) (0 + mb t) with hc' | hc'
    · obtain ⟨g', e1, e2, e3, e4⟩ := r2 hc hc'
      obtain rfl := Except.ok.inj (hg.symm.trans e1)
      refine ⟨rfl, hc, by omega, ?_⟩
      rw [sub_zero] at e4
      have hmag : mag t g = mag t f := by
        unfold value at hv
        rw [e2] at hv
        split_ifs at hv
        · exact neg_injective hv
        · exact hv
      unfold mag at hmag
      rw [e3, if_neg hf.1.ne', if_neg hf.1.ne'] at hmag
      have hp : (0 : ℚ) < 2 ^ ((expo t f : ℤ) - bias t - mb t) := by positivity
      have h2 := mul_right_cancel₀ hp.ne' hmag
      have h3 : (frac t g : ℚ) = frac t f := by linarith
      have h4 : frac t g = frac t f := by exact_mod_cast h3
      rw [← h4, e4]
      exact Nat.mod_lt _ (by positivity)
    · rcases r3 hc' with hr | hr <;> rw [hg] at hr <;> cases hr
  · rintro ⟨rfl, h2, h3, h4⟩
    obtain ⟨g, e1, e2, e3, e4⟩ := (C125_result t f 0 h1).2.1 h2 (by omega)
    refine ⟨g, e1, ?_⟩
    rw [sub_zero, Nat.mod_eq_of_lt h4] at e4
    rw [zpow_zero, div_one]
    unfold value mag
    rw [e2, e3, e4]

/-- One of the right ones: 2.25 has the exponent 1 and the fraction 1/8, which is not below; 4 and 1 are right. -/
example : dividePow2 .f32 0x40800000#32 0 = .ok 0x40800000#32 ∧ dividePow2 .f32 0x40100000#32 0 = .ok 0x40000000#32 := by decide +kernel

end Verif.NumericTraits
