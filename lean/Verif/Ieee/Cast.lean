import Verif.Ieee.Rel

/-!
The nearest number of a format, the conversion of natural numbers and divisions by them.
-/
namespace Verif.Ieee
open Float.Model Float.Model.UnpackedFloat

variable {spec : Format}

/-- No number of the format is nearer than the rounded one. -/
theorem Rounded.nearest (hg : Good spec) {x z : ℝ} {y : UnpackedFloat} (h : Rounded spec x y) (hz : Grid spec z) : |val y - x| ≤ |z - x| := by
  obtain ⟨t, r, h1, h2, h3, h4, h5⟩ := h.near
  have ht := two_pow_pos t
  have key : ∀ w : ℤ, |val y - x| ≤ |w * 2 ^ t - x| := by
    intro w
    have e : ∀ s : ℤ, |(s : ℝ) * 2 ^ t - x| = |(s : ℝ) - x / 2 ^ t| * 2 ^ t := by
      intro s
      rw [show (s : ℝ) * 2 ^ t - x = (s - x / 2 ^ t) * 2 ^ t by field_simp, abs_mul, abs_of_pos ht]
    rw [h5, e, e]
    apply mul_le_mul_of_nonneg_right _ ht.le
    rcases eq_or_ne w r with rfl | hw
    · exact le_rfl
    · refine h4.trans ?_
      rw [_root_.abs_le] at h4
      rw [le_abs]
      rcases lt_or_gt_of_ne hw with hw | hw
      · right
        have : (w : ℝ) + 1 ≤ r := by exact_mod_cast hw
        linarith
      · left
        have : (r : ℝ) + 1 ≤ w := by exact_mod_cast hw
        linarith
  obtain ⟨q, u, h6, h7, rfl⟩ := hz
  rcases le_or_gt t u with htu | htu
  · obtain ⟨n, hn⟩ : ∃ n : ℕ, u = t + n := ⟨(u - t).toNat, by omega⟩
    have := key (q * 2 ^ n)
    rw [show ((q * 2 ^ n : ℤ) : ℝ) * 2 ^ t = q * 2 ^ u by rw [hn, two_pow_add, zpow_natCast]; push_cast; ring] at this
    exact this
  · have h3 : (2 : ℝ) ^ (spec.mantissaBits - 1 + t) ≤ |x| := by
      rcases h3 with h3 | h3
      · omega
      · exact h3
    have hmb : 2 ≤ spec.mantissaBits := hg.p
    obtain ⟨P, hP⟩ : ∃ P : ℕ, P = spec.mantissaBits - 1 := ⟨_, rfl⟩
    have eP : (2 : ℝ) ^ (spec.mantissaBits - 1 + t) = ((2 ^ P : ℤ) : ℝ) * 2 ^ t := by
      rw [two_pow_add, show ((spec.mantissaBits : ℤ) - 1) = (P : ℤ) by omega, zpow_natCast]
      push_cast
      rfl
    have hq : |(q : ℝ) * 2 ^ u| ≤ 2 ^ (spec.mantissaBits - 1 + t) := by
      rw [abs_mul, abs_of_pos (two_pow_pos u)]
      calc |(q : ℝ)| * 2 ^ u ≤ 2 ^ (spec.mantissaBits : ℤ) * 2 ^ u := mul_le_mul_of_nonneg_right h6 (two_pow_pos u).le
        _ = 2 ^ ((spec.mantissaBits : ℤ) + u) := (two_pow_add _ _).symm
        _ ≤ _ := two_pow_le (by omega)
    have k1 := key (2 ^ P)
    have k2 := key (-2 ^ P)
    push_cast at k2 eP k1
    rw [neg_mul, ← eP] at k2
    rw [← eP] at k1
    generalize (q : ℝ) * 2 ^ u = z at *
    generalize (2 : ℝ) ^ (spec.mantissaBits - 1 + t) = p at *
    rw [_root_.abs_le] at hq
    rcases _root_.abs_cases x with ⟨hx, hx0⟩ | ⟨hx, hx0⟩
    · refine k1.trans ?_
      rw [abs_of_nonpos (by linarith), abs_of_nonpos (by linarith)]
      linarith
    · refine k2.trans ?_
      rw [abs_of_nonneg (by linarith), abs_of_nonneg (by linarith)]
      linarith

/-- The rounded number is unique. -/
theorem Rounded.unique {x : ℝ} {y y' : UnpackedFloat} (h : Rounded spec x y) (h' : Rounded spec x y') : val y = val y' := by
  have key : ∀ {y y' : UnpackedFloat}, Rounded spec x y → Rounded spec x y' → (∃ t t' : ℤ, t < t' ∧ |x| ≤ 2 ^ (spec.mantissaBits + t) ∧ spec.minExponent ≤ t ∧
      (t' = spec.minExponent ∨ 2 ^ (spec.mantissaBits - 1 + t') ≤ |x|)) → val y = val y' := by
    intro y y' h h' ⟨t, t', h1, h2, h3, h4⟩
    have h5 : (2 : ℝ) ^ (spec.mantissaBits - 1 + t') ≤ |x| := by
      rcases h4 with h4 | h4
      · omega
      · exact h4
    have h6 : |x| = 2 ^ ((spec.mantissaBits : ℤ) + t) := le_antisymm h2 (le_trans (two_pow_le (by omega)) h5)
    have hg : Grid spec x := by
      have := grid_two_pow (spec := spec) (k := spec.mantissaBits + t) (by omega)
      rcases abs_choice x with hx | hx <;> rw [hx] at h6
      · rw [h6]; exact this
      · rw [show x = -2 ^ ((spec.mantissaBits : ℤ) + t) by linarith]; exact this.neg
    rw [h.exact hg, h'.exact hg]
  obtain ⟨t, r, h1, h2, h3, h4, h6, h5⟩ := h.even
  obtain ⟨t', r', k1, k2, k3, k4, k6, k5⟩ := h'.even
  rcases lt_trichotomy t t' with ht | rfl | ht
  · exact key h h' ⟨t, t', ht, h2, h1, k3⟩
  · rw [h5, k5]
    congr 2
    generalize x / 2 ^ t = v at *
    by_contra hne
    rw [_root_.abs_le] at h4 k4
    have hd : |r - r'| ≤ 1 := by
      have : |((r - r' : ℤ) : ℝ)| ≤ 1 := by
        push_cast
        rw [_root_.abs_le]
        constructor <;> linarith
      exact_mod_cast this
    rw [_root_.abs_le] at hd
    rcases lt_or_gt_of_ne hne with hlt | hlt
    · have e : (r' : ℝ) = r + 1 := by
        have : r' = r + 1 := by omega
        exact_mod_cast this
      have a := h6 (by rw [abs_eq (by norm_num)]; right; linarith)
      have b := k6 (by rw [abs_eq (by norm_num)]; left; linarith)
      rw [Int.even_iff] at a b
      omega
    · have e : (r : ℝ) = r' + 1 := by
        have : r = r' + 1 := by omega
        exact_mod_cast this
      have a := h6 (by rw [abs_eq (by norm_num)]; left; linarith)
      have b := k6 (by rw [abs_eq (by norm_num)]; right; linarith)
      rw [Int.even_iff] at a b
      omega
  · exact (key h' h ⟨t', t, ht, k2, k1, h3⟩).symm

/-- Rounding is monotone. -/
theorem Rounded.mono (hg : Good spec) {x x' : ℝ} {y y' : UnpackedFloat} (h : Rounded spec x y) (h' : Rounded spec x' y') (hx : x ≤ x') : val y ≤ val y' := by
  rcases eq_or_lt_of_le hx with rfl | hx
  · exact (h.unique h').le
  · by_contra hc
    rw [not_le] at hc
    have n1 := h.nearest hg (grid_val h'.canon)
    have n2 := h'.nearest hg (grid_val h.canon)
    have m1 : val y' ≤ x := by
      by_contra hm
      exact absurd (h.mono_le (grid_val h'.canon) (not_le.1 hm).le) (not_le.2 hc)
    have m2 : x' ≤ val y := by
      by_contra hm
      exact absurd (h'.mono_ge (grid_val h.canon) (not_le.1 hm).le) (not_le.2 hc)
    rw [abs_of_nonneg (by linarith), abs_of_nonpos (by linarith)] at n1
    rw [abs_of_nonpos (by linarith), abs_of_nonneg (by linarith)] at n2
    linarith

namespace Fp
variable [Fmt spec]

omit [Fmt spec] in
theorem Is.unique {a b : Fp spec} {x : ℝ} (h : a.Is x) (h' : b.Is x) : a.val = b.val := h.2.unique h'.2

theorem Is.mono {a b : Fp spec} {x y : ℝ} (h : a.Is x) (h' : b.Is y) (hx : x ≤ y) : a.val ≤ b.val := h.2.mono Fmt.good h'.2 hx

/-- The literal `0.0`. -/
instance : Zero (Fp spec) := ⟨⟨.zero .positive, trivial⟩⟩

/-- The conversion of an unsigned integer. -/
instance : NatCast (Fp spec) := ⟨fun n => ofU spec (normalize spec n 0 .positive)⟩

theorem zero_is : (0 : Fp spec).Fin ∧ (0 : Fp spec).val = 0 := ⟨trivial, rfl⟩

theorem natCast_is {n : ℕ} (h : (n : ℝ) ≤ 2 ^ top spec) : (n : Fp spec).Is n := by
  have := normalize_spec (Fmt.good (spec := spec)) n 0 .positive
  rw [zpow_zero, mul_one] at this
  refine ofU_spec' this ?_
  rw [abs_of_nonneg (by exact_mod_cast Nat.zero_le n)]
  exact_mod_cast h

theorem natCast_exact {n : ℕ} (h : (n : ℝ) ≤ 2 ^ (spec.mantissaBits : ℤ)) (h' : (n : ℝ) ≤ 2 ^ top spec) : (n : Fp spec).Fin ∧ (n : Fp spec).val = n := by
  have := natCast_is h'
  refine ⟨this.1, this.2.exact ?_⟩
  have := grid_int Fmt.good (n := (n : ℤ)) (by rw [abs_of_nonneg (by exact_mod_cast Nat.zero_le n)]; exact_mod_cast h)
  exact_mod_cast this

end Fp
end Verif.Ieee
