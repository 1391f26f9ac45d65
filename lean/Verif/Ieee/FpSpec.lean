import Verif.Ieee.Fp

/-!
Comparisons, `floor`, conversions and literals of the floating point numbers.
-/
namespace Verif.Ieee
open Float.Model Float.Model.UnpackedFloat

variable {spec : Format}

theorem mag_compare {m m' : ℕ} {e e' : ℤ} (h : m < 2 ^ spec.mantissaBits ∧ spec.minExponent ≤ e ∧ (2 ^ (spec.mantissaBits - 1) ≤ m ∨ e = spec.minExponent))
    (h' : m' < 2 ^ spec.mantissaBits ∧ spec.minExponent ≤ e' ∧ (2 ^ (spec.mantissaBits - 1) ≤ m' ∨ e' = spec.minExponent)) :
    (compare e e').then (compare m m') = compare ((m : ℝ) * 2 ^ e) (m' * 2 ^ e') := by
  have key : ∀ {m m' : ℕ} {e e' : ℤ}, (m < 2 ^ spec.mantissaBits ∧ spec.minExponent ≤ e ∧ (2 ^ (spec.mantissaBits - 1) ≤ m ∨ e = spec.minExponent)) →
      (m' < 2 ^ spec.mantissaBits ∧ spec.minExponent ≤ e' ∧ (2 ^ (spec.mantissaBits - 1) ≤ m' ∨ e' = spec.minExponent)) → e < e' → (m : ℝ) * 2 ^ e < m' * 2 ^ e' := by
    intro m m' e e' h h' hl
    have h1 : 2 ^ (spec.mantissaBits - 1) ≤ m' := by
      rcases h'.2.2 with h1 | h1
      · exact h1
      · have := h.2.1; omega
    have hp : (spec.mantissaBits : ℤ) = ((spec.mantissaBits - 1 : ℕ) : ℤ) + 1 := by
      have : 1 ≤ spec.mantissaBits := by unfold Format.mantissaBits; omega
      omega
    calc (m : ℝ) * 2 ^ e < 2 ^ (spec.mantissaBits : ℤ) * 2 ^ e := by
          apply mul_lt_mul_of_pos_right _ (two_pow_pos e)
          rw [zpow_natCast]
          exact_mod_cast h.1
      _ = 2 ^ ((spec.mantissaBits : ℤ) + e) := (two_pow_add _ _).symm
      _ ≤ 2 ^ (((spec.mantissaBits - 1 : ℕ) : ℤ) + e') := two_pow_le (by omega)
      _ = 2 ^ (spec.mantissaBits - 1) * 2 ^ e' := by rw [two_pow_add, zpow_natCast]
      _ ≤ m' * 2 ^ e' := mul_le_mul_of_nonneg_right (by exact_mod_cast h1) (two_pow_pos e').le
  rcases lt_trichotomy e e' with hl | hl | hl
  · rw [compare_lt_iff_lt.2 hl, compare_lt_iff_lt.2 (key h h' hl)]; rfl
  · subst hl
    rw [compare_eq_iff_eq.2 rfl]
    show compare m m' = _
    have hp := two_pow_pos e
    rcases lt_trichotomy m m' with hm | hm | hm
    · rw [compare_lt_iff_lt.2 hm, compare_lt_iff_lt.2 (mul_lt_mul_of_pos_right (by exact_mod_cast hm) hp)]
    · rw [hm, compare_eq_iff_eq.2 rfl, compare_eq_iff_eq.2 rfl]
    · rw [compare_gt_iff_gt.2 hm, compare_gt_iff_gt.2 (mul_lt_mul_of_pos_right (by exact_mod_cast hm) hp)]
  · rw [compare_gt_iff_gt.2 hl, compare_gt_iff_gt.2 (key h' h hl)]; rfl

theorem compare_spec {x y : UnpackedFloat} (hx : Fin x) (hy : Fin y) (cx : Canon spec x) (cy : Canon spec y) :
    x.compare y = some (compare (val x) (val y)) := by
  have pos : ∀ {m : ℕ} {e : ℤ}, 0 < m → (0 : ℝ) < m * 2 ^ e := fun h => mul_pos (by exact_mod_cast h) (two_pow_pos _)
  cases x with
  | infinity s => cases hx
  | notANumber => cases hx
  | zero s =>
    cases y with
    | infinity s => cases hy
    | notANumber => cases hy
    | zero s' =>
      show some Ordering.eq = some (compare (0 : ℝ) 0)
      rw [compare_eq_iff_eq.2 rfl]
    | finite s' m' e' h' =>
      cases s' with
      | negative =>
        show some Ordering.gt = some (compare (0 : ℝ) (-1 * (m' * 2 ^ e')))
        rw [compare_gt_iff_gt.2]
        have := pos (e := e') h'
        linarith
      | positive =>
        show some Ordering.lt = some (compare (0 : ℝ) (1 * (m' * 2 ^ e')))
        rw [compare_lt_iff_lt.2]
        have := pos (e := e') h'
        linarith
  | finite s m e h =>
    have hm := pos (e := e) h
    cases y with
    | infinity s => cases hy
    | notANumber => cases hy
    | zero s' =>
      cases s with
      | negative =>
        show some Ordering.lt = some (compare (-1 * (m * 2 ^ e) : ℝ) 0)
        rw [compare_lt_iff_lt.2]
        linarith
      | positive =>
        show some Ordering.gt = some (compare (1 * (m * 2 ^ e) : ℝ) 0)
        rw [compare_gt_iff_gt.2]
        linarith
    | finite s' m' e' h' =>
      have hm' := pos (e := e') h'
      cases s <;> cases s'
      · show some ((compare e e').then (compare m m')).swap = some (compare (-1 * (m * 2 ^ e) : ℝ) (-1 * (m' * 2 ^ e')))
        rw [mag_compare (spec := spec) cx cy]
        congr 1
        rcases lt_trichotomy ((m : ℝ) * 2 ^ e) (m' * 2 ^ e') with hl | hl | hl
        · rw [compare_lt_iff_lt.2 hl, compare_gt_iff_gt.2 (by linarith)]; rfl
        · rw [compare_eq_iff_eq.2 hl, compare_eq_iff_eq.2 (by linarith)]; rfl
        · rw [compare_gt_iff_gt.2 hl, compare_lt_iff_lt.2 (by linarith)]; rfl
      · show some Ordering.lt = some (compare (-1 * (m * 2 ^ e) : ℝ) (1 * (m' * 2 ^ e')))
        rw [compare_lt_iff_lt.2]
        linarith
      · show some Ordering.gt = some (compare (1 * (m * 2 ^ e) : ℝ) (-1 * (m' * 2 ^ e')))
        rw [compare_gt_iff_gt.2]
        linarith
      · show some ((compare e e').then (compare m m')) = some (compare (1 * (m * 2 ^ e) : ℝ) (1 * (m' * 2 ^ e')))
        rw [mag_compare (spec := spec) cx cy, one_mul, one_mul]

namespace Fp
variable [Fmt spec]

theorem lt_iff {a b : Fp spec} (ha : a.Fin) (hb : b.Fin) : a < b ↔ a.val < b.val := by
  show a.x.lt b.x = true ↔ _
  unfold UnpackedFloat.lt
  rw [compare_spec ha hb a.canon b.canon]
  unfold val
  rw [beq_iff_eq, Option.some_inj, compare_lt_iff_lt]

theorem le_iff {a b : Fp spec} (ha : a.Fin) (hb : b.Fin) : a ≤ b ↔ a.val ≤ b.val := by
  show a.x.le b.x = true ↔ _
  unfold UnpackedFloat.le
  rw [compare_spec ha hb a.canon b.canon]
  unfold val
  simp only [Option.any_some, Ordering.isLE_iff_ne_gt, ne_eq, compare_gt_iff_gt, not_lt]

theorem floorU_spec {x : UnpackedFloat} (hx : Ieee.Fin x) (cx : Canon spec x) : Rounded spec (⌊Ieee.val x⌋ : ℝ) (floorU spec x) ∧ Grid spec (⌊Ieee.val x⌋ : ℝ) := by
  cases x with
  | infinity s => cases hx
  | notANumber => cases hx
  | zero s =>
    simp only [Ieee.val, Int.floor_zero, Int.cast_zero]
    exact ⟨rounded_zero s, grid_zero⟩
  | finite s m e h =>
    show Rounded spec _ (if 0 ≤ e then .finite s m e h else normalize spec (s.apply m / 2 ^ (-e).toNat) 0 s) ∧ _
    split_ifs with he
    · have hv : Ieee.val (.finite s m e h) = ((s.apply m * 2 ^ e.toNat : ℤ) : ℝ) := by
        rw [Ieee.val]
        push_cast
        rw [apply_cast, ← zpow_natCast, show ((e.toNat : ℕ) : ℤ) = e by omega]
        push_cast
        ring
      have hfl : (⌊Ieee.val (.finite s m e h)⌋ : ℝ) = Ieee.val (.finite s m e h) := by
        rw [hv, Int.floor_intCast]
      rw [hfl]
      exact ⟨rounded_self cx hx, grid_val cx⟩
    · have hv : Ieee.val (.finite s m e h) = (s.apply m : ℤ) / ((2 ^ (-e).toNat : ℤ) : ℝ) := by
        rw [Ieee.val, apply_cast]
        push_cast
        rw [← zpow_natCast, show (((-e).toNat : ℕ) : ℤ) = -e by omega, zpow_neg]
        field_simp
      have hpos : (0 : ℤ) < 2 ^ (-e).toNat := by positivity
      have hfl : ⌊Ieee.val (.finite s m e h)⌋ = s.apply m / 2 ^ (-e).toNat := by
        rw [hv, Int.floor_eq_iff]
        have hposR : (0 : ℝ) < ((2 ^ (-e).toNat : ℤ) : ℝ) := by exact_mod_cast hpos
        have h1 := Int.emod_add_mul_ediv (s.apply (m : ℤ)) (2 ^ (-e).toNat)
        have h2 := Int.emod_nonneg (s.apply (m : ℤ)) hpos.ne'
        have h3 := Int.emod_lt_of_pos (s.apply (m : ℤ)) hpos
        constructor
        · rw [le_div_iff₀ hposR]
          exact_mod_cast (by linarith [mul_comm (s.apply (m : ℤ) / 2 ^ (-e).toNat) (2 ^ (-e).toNat)] : (s.apply (m : ℤ) / 2 ^ (-e).toNat) * 2 ^ (-e).toNat ≤ s.apply (m : ℤ))
        · rw [div_lt_iff₀ hposR]
          exact_mod_cast (by linarith [mul_comm (s.apply (m : ℤ) / 2 ^ (-e).toNat) (2 ^ (-e).toNat)] : s.apply (m : ℤ) < (s.apply (m : ℤ) / 2 ^ (-e).toNat + 1) * 2 ^ (-e).toNat)
      rw [hfl]
      have hN := normalize_spec (Fmt.good (spec := spec)) (s.apply m / 2 ^ (-e).toNat) 0 s
      rw [zpow_zero, mul_one] at hN
      refine ⟨hN, grid_int Fmt.good ?_⟩
      rw [← hfl]
      have hm : |Ieee.val (.finite s m e h)| ≤ 2 ^ (spec.mantissaBits : ℤ) := by
        rw [Ieee.val, abs_mul, sgn_abs, one_mul, abs_of_nonneg (mul_nonneg (Nat.cast_nonneg _) (two_pow_pos e).le), zpow_natCast]
        have h1 : (m : ℝ) ≤ 2 ^ spec.mantissaBits := by exact_mod_cast cx.1.le
        have h2 : (2 : ℝ) ^ e ≤ 2 ^ (0 : ℤ) := two_pow_le (by omega)
        rw [zpow_zero] at h2
        calc (m : ℝ) * 2 ^ e ≤ m * 1 := mul_le_mul_of_nonneg_left h2 (Nat.cast_nonneg _)
          _ ≤ _ := by linarith
      rw [_root_.abs_le] at hm ⊢
      have h1 : (⌊Ieee.val (.finite s m e h)⌋ : ℝ) ≤ Ieee.val (.finite s m e h) := Int.floor_le _
      constructor
      · have : -(2 ^ spec.mantissaBits : ℤ) ≤ ⌊Ieee.val (.finite s m e h)⌋ := by
          rw [Int.le_floor]
          push_cast
          rw [← zpow_natCast]
          exact hm.1
        rw [zpow_natCast]
        exact_mod_cast this
      · linarith [hm.2]

theorem floor_is {a : Fp spec} (ha : a.Fin) (ht : |(⌊a.val⌋ : ℝ)| ≤ 2 ^ top spec) : (floor a).Fin ∧ (floor a).val = ⌊a.val⌋ := by
  have h := floorU_spec ha a.canon
  have h2 := ofU_spec' h.1 ht
  exact ⟨h2.1, h2.2.exact h.2⟩

theorem conv_is {spec' : Format} {a : Fp spec'} (ha : a.Fin) (h : |a.val| ≤ 2 ^ top spec) : (conv a : Fp spec).Is a.val := by
  unfold conv
  apply ofU_spec' _ h
  unfold val
  have : Ieee.Fin a.x := ha
  cases hx : a.x with
  | infinity s => rw [hx] at this; cases this
  | notANumber => rw [hx] at this; cases this
  | zero s => exact rounded_zero s
  | finite s m e hm => exact round_spec Fmt.good s hm e

theorem lit_is {m k : ℕ} (hm : m ≠ 0) (hk0 : 0 < k) (hk : (k : ℤ) ≤ 2 ^ spec.exponentBits) (h : (m : ℝ) / 10 ^ k ≤ 2 ^ top spec) : (lit spec m (-(k : ℤ))).Is (m / 10 ^ k) := by
  unfold lit
  apply ofU_spec' _ (by rwa [abs_of_nonneg (by positivity)])
  unfold UnpackedFloat.ofScientific
  have h2 : (0 : ℤ) < 2 ^ spec.exponentBits := by positivity
  rw [dif_neg hm, if_neg (by omega), if_neg (by have : (0 : ℤ) ≤ m.log2 := Int.natCast_nonneg _; omega)]
  rw [if_neg (by omega)]
  have := div_spec (Fmt.good (spec := spec)) (x := .finite .positive m 0 (Nat.pos_iff_ne_zero.2 hm))
      (y := .finite .positive (10 ^ (-(-(k : ℤ))).toNat) 0 (Nat.pow_pos (by decide))) trivial trivial (by simp [Ieee.val, sgn])
  simpa [Ieee.val, sgn] using this

end Fp
end Verif.Ieee
