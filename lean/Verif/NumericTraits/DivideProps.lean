import Mathlib.Algebra.Order.Field.Power
import Mathlib.Data.Rat.Floor
import Mathlib.Tactic.Linarith
import Mathlib.Tactic.Ring
import Verif.NumericTraits.DivideModel
import Verif.BitManip.Props

/-! Property C125: `dividePow2`. -/
namespace Verif.NumericTraits
open Verif.BitManip

namespace Spec

/-- Number of exponent bits of the IEEE-754 formats. -/
def eb : FTy → ℕ
  | .f32 => 8
  | .f64 => 11

/-- Number of explicit mantissa bits of the IEEE-754 formats. -/
def mb : FTy → ℕ
  | .f32 => 23
  | .f64 => 52

/-- Exponent bias of the IEEE-754 formats. -/
def bias : FTy → ℤ
  | .f32 => 127
  | .f64 => 1023

/-- Exponent field. -/
def expo (t : FTy) (a : BitVec t.w) : ℕ := a.toNat / 2 ^ mb t % 2 ^ eb t

/-- Fraction field. -/
def frac (t : FTy) (a : BitVec t.w) : ℕ := a.toNat % 2 ^ mb t

/-- Sign bit. -/
def neg (t : FTy) (a : BitVec t.w) : Bool := decide (2 ^ (t.w - 1) ≤ a.toNat)

/-- Magnitude of a finite number. -/
def mag (t : FTy) (a : BitVec t.w) : ℚ :=
  if expo t a = 0 then frac t a * 2 ^ (1 - bias t - mb t) else (2 ^ mb t + frac t a) * 2 ^ (expo t a - bias t - mb t)

/-- Value of a finite number. -/
def value (t : FTy) (a : BitVec t.w) : ℚ := if neg t a then -mag t a else mag t a

/-- Normal numbers: finite, and not zero or subnormal. -/
def Normal (t : FTy) (a : BitVec t.w) : Prop := 0 < expo t a ∧ expo t a < 2 ^ eb t - 1

end Spec
open Spec

theorem decompose_eq (t : FTy) (f : BitVec t.w) : decompose t f = ((frac t f : ℤ), (expo t f : ℤ) - bias t, neg t f) := by
  cases t
  · exact getF_eq f
  · exact getD_eq f

theorem compose_ok (t : FTy) {m e : ℤ} (s : Bool) (hm : 0 ≤ m) (hm' : m < 2 ^ mb t) (he : 0 ≤ e) (he' : e < 2 ^ eb t) :
    ∃ g, compose t m (e - bias t) s = .ok g ∧ (frac t g : ℤ) = m ∧ (expo t g : ℤ) = e ∧ neg t g = s := by
  cases t
  · obtain ⟨g, h1, h2⟩ := C04_float_get_set m (e - 127) s hm hm' (by omega) (by have : e < 256 := he'; omega)
    have h3 := decompose_eq .f32 g
    have h4 : decompose .f32 g = (m, e - 127, s) := h2
    rw [h4] at h3
    simp only [Prod.mk.injEq] at h3
    exact ⟨g, h1, h3.1.symm, by have := h3.2.1; change e - 127 = _ - 127 at this; omega, h3.2.2.symm⟩
  · obtain ⟨g, h1, h2⟩ := C04_double_get_set m (e - 1023) s hm hm' (by omega) (by have : e < 2048 := he'; omega)
    have h3 := decompose_eq .f64 g
    have h4 : decompose .f64 g = (m, e - 1023, s) := h2
    rw [h4] at h3
    simp only [Prod.mk.injEq] at h3
    exact ⟨g, h1, h3.1.symm, by have := h3.2.1; change e - 1023 = _ - 1023 at this; omega, h3.2.2.symm⟩

theorem expo_lt (t : FTy) (f : BitVec t.w) : expo t f < 2 ^ eb t := Nat.mod_lt _ (by positivity)
theorem frac_lt (t : FTy) (f : BitVec t.w) : frac t f < 2 ^ mb t := Nat.mod_lt _ (by positivity)

/-- The mask of the low bits, MANTISSA_MASK >> k. -/
theorem mask_and (t : FTy) {m : ℕ} (hm : m < 2 ^ mb t) {k : ℕ} (hk : k ≤ mb t) :
    (BitVec.ofInt t.w (m : ℤ) &&& (BitVec.ofInt t.w t.mantissaMask).sshiftRight k).toInt = (m % 2 ^ (mb t - k) : ℕ) := by
  have hw : 2 ^ mb t * 2 ≤ 2 ^ (t.w - 1) ∧ 2 ^ t.w = 2 ^ (t.w - 1) * 2 := by cases t <;> decide
  have hmask : t.mantissaMask = ((2 ^ mb t - 1 : ℕ) : ℤ) := by cases t <;> rfl
  have hn : (BitVec.ofInt t.w (m : ℤ)).toNat = m := by
    rw [BitVec.ofInt_natCast, BitVec.toNat_ofNat, Nat.mod_eq_of_lt (by omega)]
  have hs : ((BitVec.ofInt t.w t.mantissaMask).sshiftRight k).toNat = 2 ^ (mb t - k) - 1 := by
    have h1 : (BitVec.ofInt t.w t.mantissaMask).toNat = 2 ^ mb t - 1 := by
      rw [hmask, BitVec.ofInt_natCast, BitVec.toNat_ofNat, Nat.mod_eq_of_lt (by omega)]
    have h2 : (BitVec.ofInt t.w t.mantissaMask).msb = false := by
      rw [BitVec.msb_eq_decide, h1, decide_eq_false_iff_not]; omega
    rw [BitVec.sshiftRight_eq_of_msb_false h2, BitVec.toNat_ushiftRight, h1, Nat.shiftRight_eq_div_pow]
    have h3 : 2 ^ mb t = 2 ^ (mb t - k) * 2 ^ k := by rw [← pow_add]; congr 1; omega
    have h4 : 0 < 2 ^ k := by positivity
    have h5 : 0 < 2 ^ (mb t - k) := by positivity
    rw [h3]
    refine Nat.div_eq_of_lt_le ?_ ?_
    · rw [Nat.sub_mul]; omega
    · rw [Nat.sub_add_cancel h5]; exact Nat.sub_lt (by positivity) one_pos
  have h : (BitVec.ofInt t.w (m : ℤ) &&& (BitVec.ofInt t.w t.mantissaMask).sshiftRight k).toNat = m % 2 ^ (mb t - k) := by
    rw [BitVec.toNat_and, hn, hs, Nat.and_two_pow_sub_one_eq_mod]
  rw [BitVec.toInt_eq_toNat_of_lt (by rw [h]; have := Nat.mod_le m (2 ^ (mb t - k)); omega), h]

/-- C125: `dividePow2(x, n)` is x / 2^n. -/
def C125_statement (t : FTy) : Prop :=
  ∀ (f : BitVec t.w) (n : ℤ), Normal t f → |n| ≤ 64 → ∃ g, dividePow2 t f n = .ok g ∧ value t g = value t f / 2 ^ n

/-- What `dividePow2` does, for every bit pattern: numbers less than 2^n give zero; up to 2^(n + MANTISSA_BITS + 1), the sign and the exponent are kept and the fraction is reduced to its low bits; for the
other ones the behaviour is undefined. -/
theorem C125_result (t : FTy) (f : BitVec t.w) (n : ℤ) (h1 : -2 ^ (t.w - 1) ≤ n) :
    ((expo t f : ℤ) - bias t < n → dividePow2 t f n = .ok 0#t.w) ∧
    (n ≤ (expo t f : ℤ) - bias t → (expo t f : ℤ) - bias t ≤ n + mb t →
      ∃ g, dividePow2 t f n = .ok g ∧ neg t g = neg t f ∧ expo t g = expo t f ∧ frac t g = frac t f % 2 ^ ((expo t f : ℤ) - bias t - n).toNat) ∧
    (n + mb t < (expo t f : ℤ) - bias t → dividePow2 t f n = .error (.ub .shift) ∨ dividePow2 t f n = .error (.ub .overflow)) := by
  have he := expo_lt t f
  have hb : (2 : ℤ) ^ eb t ≤ 2048 ∧ 0 ≤ bias t ∧ bias t ≤ 1023 ∧ bias t < 2 ^ eb t ∧ (t.mantissaBits : ℤ) = mb t ∧ (mb t : ℤ) ≤ 52 ∧ (mb t : ℤ) < t.w ∧ (2 : ℤ) ^ eb t + 2048 ≤ 2 ^ (t.w - 1) := by cases t <;> decide
  obtain ⟨b1, b2, b3, b4, b5, b6, b7, b8⟩ := hb
  have he' : (expo t f : ℤ) < 2 ^ eb t := by exact_mod_cast he
  unfold dividePow2
  rw [decompose_eq]
  simp only
  refine ⟨fun h => by rw [if_pos h], fun h h' => ?_, fun h => ?_⟩
  · rw [if_neg (by omega)]
    have i1 : t.int (t.mantissaBits - ((expo t f : ℤ) - bias t)) = .ok (mb t - ((expo t f : ℤ) - bias t)) := by
      rw [FTy.int, b5, if_pos ⟨by omega, by omega⟩]
    have i2 : t.int (mb t - ((expo t f : ℤ) - bias t) + n) = .ok (mb t - ((expo t f : ℤ) - bias t) + n) := by
      rw [FTy.int, if_pos ⟨by omega, by omega⟩]
    rw [i1]
    simp only [bind, Except.bind]
    rw [i2]
    simp only
    rw [if_neg (by omega)]
    obtain ⟨k, hk⟩ : ∃ k : ℕ, mb t - ((expo t f : ℤ) - bias t) + n = k := ⟨(mb t - ((expo t f : ℤ) - bias t) + n).toNat, by omega⟩
    rw [hk, Int.toNat_natCast, mask_and t (frac_lt t f) (by omega)]
    have hx : mb t - k = ((expo t f : ℤ) - bias t - n).toNat := by omega
    obtain ⟨g, g1, g2, g3, g4⟩ := compose_ok t (m := (frac t f % 2 ^ (mb t - k) : ℕ)) (e := expo t f) (neg t f) (by positivity)
      (by exact_mod_cast lt_of_le_of_lt (Nat.mod_le _ _) (frac_lt t f)) (by positivity) he'
    exact ⟨g, g1, g4, by exact_mod_cast g3, by rw [← hx]; exact_mod_cast g2⟩
  · rw [if_neg (by omega)]
    have i1 : t.int (t.mantissaBits - ((expo t f : ℤ) - bias t)) = .ok (mb t - ((expo t f : ℤ) - bias t)) := by
      rw [FTy.int, b5, if_pos ⟨by omega, by omega⟩]
    rw [i1]
    simp only [bind, Except.bind]
    unfold FTy.int
    split_ifs with hi
    · left
      simp only
      rw [if_pos (Or.inl (by omega))]
    · right; rfl

theorem mag_normal {t : FTy} {f : BitVec t.w} (h : 0 < expo t f) :
    (2 : ℚ) ^ ((expo t f : ℤ) - bias t) ≤ mag t f ∧ mag t f < 2 * 2 ^ ((expo t f : ℤ) - bias t) := by
  have hf : (frac t f : ℚ) < 2 ^ mb t := by exact_mod_cast frac_lt t f
  have hf0 : (0 : ℚ) ≤ frac t f := Nat.cast_nonneg _
  have hp : (0 : ℚ) < 2 ^ ((expo t f : ℤ) - bias t - mb t) := by positivity
  have he : (2 : ℚ) ^ ((expo t f : ℤ) - bias t) = 2 ^ mb t * 2 ^ ((expo t f : ℤ) - bias t - mb t) := by
    rw [← zpow_natCast (2 : ℚ) (mb t), ← zpow_add₀ (by norm_num)]; congr 1; ring
  unfold mag
  rw [if_neg (by omega), he, ← mul_assoc]
  exact ⟨by nlinarith, by nlinarith⟩

/-- `dividePow2` never divides: for no normal number and no n other than 0 does it return x / 2^n. -/
theorem C125_never_violated (t : FTy) (f : BitVec t.w) (hf : Normal t f) (n : ℤ) (hn : n ≠ 0) (h1 : -2 ^ (t.w - 1) ≤ n) (g : BitVec t.w) (h : dividePow2 t f n = .ok g) :
    value t g ≠ value t f / 2 ^ n := by
  obtain ⟨r1, r2, r3⟩ := C125_result t f n h1
  have hm := mag_normal hf.1
  have hE : (0 : ℚ) < 2 ^ ((expo t f : ℤ) - bias t) := by positivity
  have hN : (0 : ℚ) < 2 ^ n := by positivity
  have habs : ∀ a : BitVec t.w, 0 ≤ mag t a → |value t a| = mag t a := by
    intro a ha
    unfold value
    split_ifs
    · rw [abs_neg, abs_of_nonneg ha]
    · rw [abs_of_nonneg ha]
  intro hv
  have hv' : |value t g| * 2 ^ n = mag t f := by
    rw [hv, abs_div, abs_of_pos hN, div_mul_cancel₀ _ hN.ne', habs f (by linarith)]
  rcases lt_or_ge ((expo t f : ℤ) - bias t) n with hc | hc
  · have hg := r1 hc
    rw [h] at hg
    obtain rfl := Except.ok.inj hg
    have : value t 0#t.w = 0 := by cases t <;> decide +kernel
    rw [this, abs_zero, zero_mul] at hv'
    linarith
  rcases le_or_gt ((expo t f : ℤ) - bias t) (n + mb t) with hd | hd
  · obtain ⟨g', g1, g2, g3, g4⟩ := r2 hc hd
    rw [h] at g1
    obtain rfl := Except.ok.inj g1
    have hg := mag_normal (t := t) (f := g) (by rw [g3]; exact hf.1)
    rw [g3] at hg
    rw [habs g (by linarith)] at hv'
    rcases lt_or_gt_of_ne hn with hneg | hpos
    · have h2 : (2 : ℚ) ^ n ≤ 1 / 2 := by
        calc (2 : ℚ) ^ n ≤ 2 ^ (-1 : ℤ) := zpow_le_zpow_right₀ (by norm_num) (by omega)
          _ = 1 / 2 := by norm_num
      nlinarith
    · have h2 : (2 : ℚ) ≤ 2 ^ n := by
        calc (2 : ℚ) = 2 ^ (1 : ℤ) := by norm_num
          _ ≤ 2 ^ n := zpow_le_zpow_right₀ (by norm_num) (by omega)
      nlinarith
  · rcases r3 hd with hr | hr <;> rw [h] at hr <;> cases hr

/-- C125 is false for both types. -/
theorem C125_violated (t : FTy) : ¬ C125_statement t := by
  intro h
  have hf : ∃ f, Normal t f := by
    cases t
    · exact ⟨0x3F800000#32, by decide +kernel, by decide +kernel⟩
    · exact ⟨0x3FF0000000000000#64, by decide +kernel, by decide +kernel⟩
  obtain ⟨f, hf⟩ := hf
  obtain ⟨g, g1, g2⟩ := h f 3 hf (by norm_num)
  exact C125_never_violated t f hf 3 (by norm_num) (by cases t <;> norm_num) g g1 g2

/-- C125, the part that holds: the result is zero for the numbers below 2^n; otherwise, when it is defined, it has the sign of x and is at most |x| and more than half of it. Missing: the quotient, for which it
is false, see `C125_never_violated`. -/
theorem C125_bounds_partial (t : FTy) (f : BitVec t.w) (hf : Normal t f) (n : ℤ) (h1 : -2 ^ (t.w - 1) ≤ n) (g : BitVec t.w) (h : dividePow2 t f n = .ok g) :
    (mag t f < 2 ^ n ∧ value t g = 0) ∨ (2 ^ n ≤ mag t f ∧ neg t g = neg t f ∧ mag t g ≤ mag t f ∧ mag t f < 2 * mag t g) := by
  obtain ⟨r1, r2, r3⟩ := C125_result t f n h1
  have hm := mag_normal hf.1
  rcases lt_or_ge ((expo t f : ℤ) - bias t) n with hc | hc
  · left
    have hg := r1 hc
    rw [h] at hg
    obtain rfl := Except.ok.inj hg
    refine ⟨lt_of_lt_of_le hm.2 ?_, by cases t <;> decide +kernel⟩
    calc (2 : ℚ) * 2 ^ ((expo t f : ℤ) - bias t) = 2 ^ ((expo t f : ℤ) - bias t + 1) := by rw [zpow_add₀ (by norm_num), zpow_one, mul_comm]
      _ ≤ 2 ^ n := zpow_le_zpow_right₀ (by norm_num) (by omega)
  right
  rcases le_or_gt ((expo t f : ℤ) - bias t) (n + mb t) with hd | hd
  · obtain ⟨g', g1, g2, g3, g4⟩ := r2 hc hd
    rw [h] at g1
    obtain rfl := Except.ok.inj g1
    have hg := mag_normal (t := t) (f := g) (by rw [g3]; exact hf.1)
    rw [g3] at hg
    refine ⟨le_trans (zpow_le_zpow_right₀ (by norm_num) hc) hm.1, g2, ?_, by linarith⟩
    unfold mag
    rw [g3, if_neg (by have := hf.1; omega), if_neg (by have := hf.1; omega)]
    have : (frac t g : ℚ) ≤ frac t f := by exact_mod_cast (by rw [g4]; exact Nat.mod_le _ _ : frac t g ≤ frac t f)
    have hp : (0 : ℚ) < 2 ^ ((expo t f : ℤ) - bias t - mb t) := by positivity
    nlinarith
  · rcases r3 hd with hr | hr <;> rw [h] at hr <;> cases hr

-- 7 / 2^1: the result is 4
example : dividePow2 .f32 0x40E00000#32 1 = .ok 0x40800000#32 := by decide +kernel
-- 100 / 2^3 (as the tests of the repository print): the result is 64
example : dividePow2 .f32 0x42C80000#32 3 = .ok 0x42800000#32 := by decide +kernel
-- 1 / 2^3 is zero, 2^30 / 2^3 is undefined
example : dividePow2 .f32 0x3F800000#32 3 = .ok 0#32 ∧ dividePow2 .f32 0x4E800000#32 3 = .error (.ub .shift) := by decide +kernel
-- doubles: 7 / 2^1
example : dividePow2 .f64 0x401C000000000000#64 1 = .ok 0x4010000000000000#64 := by decide +kernel

end Verif.NumericTraits
