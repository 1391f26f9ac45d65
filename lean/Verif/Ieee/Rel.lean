import Verif.Ieee.Approx

/-!
Relative errors and signs of the differences.
-/
namespace Verif.Ieee
open Float.Model Float.Model.UnpackedFloat

variable {spec : Format}

/-- A number of the format is a multiple of the smallest positive one. -/
theorem Grid.multiple {z : ℝ} (h : Grid spec z) : ∃ n : ℤ, z = n * 2 ^ spec.minExponent := by
  obtain ⟨q, u, _, hu, rfl⟩ := h
  obtain ⟨n, hn⟩ : ∃ n : ℕ, u = spec.minExponent + n := ⟨(u - spec.minExponent).toNat, by omega⟩
  refine ⟨q * 2 ^ n, ?_⟩
  rw [hn, two_pow_add, zpow_natCast]
  push_cast
  ring

/-- The rounding of a multiple of the smallest number has a relative error. -/
theorem Rounded.rel_multiple {x : ℝ} {y : UnpackedFloat} (h : Rounded spec x y) (hx : ∃ n : ℤ, x = n * 2 ^ spec.minExponent) :
    |val y - x| ≤ |x| / 2 ^ (spec.mantissaBits : ℤ) := by
  rcases h.rel with h1 | h1
  · exact h1
  · obtain ⟨n, hn⟩ := hx
    obtain ⟨m, hm⟩ := (grid_val h.canon).multiple
    have hp := two_pow_pos spec.minExponent
    have : m = n := by
      rw [hm, hn, ← sub_mul, abs_mul, abs_of_pos hp, two_pow_sub, zpow_one] at h1
      have h2 : |((m - n : ℤ) : ℝ)| ≤ 1 / 2 := by
        push_cast
        rw [← mul_le_mul_iff_left₀ hp]
        linarith
      have h3 : |m - n| < 1 := by
        have : |((m - n : ℤ) : ℝ)| < 1 := by linarith
        exact_mod_cast this
      have := Int.abs_lt_one_iff.1 h3
      omega
    rw [hm, hn, this, sub_self, abs_zero]
    positivity

/-- The rounding of a positive multiple of the smallest number is positive. -/
theorem Rounded.pos_multiple {x : ℝ} {y : UnpackedFloat} (h : Rounded spec x y) (hx : ∃ n : ℤ, x = n * 2 ^ spec.minExponent) (h0 : 0 < x) : 0 < val y := by
  obtain ⟨n, hn⟩ := hx
  have hp := two_pow_pos spec.minExponent
  have hn0 : 0 < n := by
    rw [hn] at h0
    have := pos_of_mul_pos_left h0 hp.le
    exact_mod_cast this
  have h1 : (2 : ℝ) ^ spec.minExponent ≤ x := by
    rw [hn]
    have : (1 : ℝ) ≤ n := by exact_mod_cast hn0
    nlinarith
  exact lt_of_lt_of_le hp (h.mono_ge (grid_two_pow le_rfl) h1)

namespace Fp
variable [Fmt spec]

omit [Fmt spec] in
theorem multiple_sub (a b : Fp spec) : ∃ n : ℤ, a.val - b.val = n * 2 ^ spec.minExponent := by
  obtain ⟨m, hm⟩ := a.grid.multiple
  obtain ⟨n, hn⟩ := b.grid.multiple
  exact ⟨m - n, by rw [hm, hn]; push_cast; ring⟩

/-- A difference has a relative error, also below the normal numbers. -/
theorem sub_rel {a b : Fp spec} (ha : a.Fin) (hb : b.Fin) (h : |a.val - b.val| ≤ 2 ^ top spec) :
    (a - b).Fin ∧ |(a - b).val - (a.val - b.val)| ≤ |a.val - b.val| / 2 ^ (spec.mantissaBits : ℤ) :=
  ⟨(sub_is ha hb h).1, (sub_is ha hb h).2.rel_multiple (multiple_sub a b)⟩

/-- A difference has the sign of the exact one. -/
theorem sub_sign {a b : Fp spec} (ha : a.Fin) (hb : b.Fin) (h : |a.val - b.val| ≤ 2 ^ top spec) :
    (0 < (a - b).val ↔ b.val < a.val) ∧ ((a - b).val < 0 ↔ a.val < b.val) ∧ ((a - b).val = 0 ↔ a.val = b.val) := by
  have hs := sub_is ha hb h
  have p : b.val < a.val → 0 < (a - b).val := fun h' => hs.2.pos_multiple (multiple_sub a b) (by linarith)
  have n : a.val < b.val → (a - b).val < 0 := by
    intro h'
    obtain ⟨m, hm⟩ := multiple_sub a b
    have hp := two_pow_pos spec.minExponent
    have h1 : a.val - b.val ≤ -2 ^ spec.minExponent := by
      have hm0 : m < 0 := by
        by_contra hc
        have : (0 : ℝ) ≤ m := by exact_mod_cast not_lt.1 hc
        nlinarith
      have : (m : ℝ) ≤ -1 := by
        have : m ≤ -1 := by omega
        exact_mod_cast this
      rw [hm]
      nlinarith
    have h2 : (a - b).val ≤ -2 ^ spec.minExponent := hs.2.mono_le (grid_two_pow le_rfl).neg h1
    linarith
  have z : a.val = b.val → (a - b).val = 0 := by
    intro h'
    have := hs.2
    rw [h', sub_self] at this
    exact this.exact grid_zero
  rcases lt_trichotomy a.val b.val with h' | h' | h'
  · have := n h'
    exact ⟨⟨fun h => by linarith, fun h => by linarith⟩, ⟨fun _ => h', fun _ => this⟩, ⟨fun h => by linarith, fun h => by linarith⟩⟩
  · have := z h'
    exact ⟨⟨fun h => by linarith, fun h => by linarith⟩, ⟨fun h => by linarith, fun h => by linarith⟩, ⟨fun _ => h', fun _ => this⟩⟩
  · have := p h'
    exact ⟨⟨fun _ => h', fun _ => this⟩, ⟨fun h => by linarith, fun h => by linarith⟩, ⟨fun h => by linarith, fun h => by linarith⟩⟩

omit [Fmt spec] in
theorem multiple_add (a b : Fp spec) : ∃ n : ℤ, a.val + b.val = n * 2 ^ spec.minExponent := by
  obtain ⟨m, hm⟩ := a.grid.multiple
  obtain ⟨n, hn⟩ := b.grid.multiple
  exact ⟨m + n, by rw [hm, hn]; push_cast; ring⟩

/-- The exchange of the terms of a difference, bit by bit: the opposite, except for the positive zero. -/
theorem sub_swap (a b : Fp spec) : b - a = -(a - b) ∨ ((a - b).x = .zero .positive ∧ (b - a).x = .zero .positive) := by
  have key : UnpackedFloat.sub spec b.x a.x = (UnpackedFloat.sub spec a.x b.x).neg ∨
      (UnpackedFloat.sub spec a.x b.x = .zero .positive ∧ UnpackedFloat.sub spec b.x a.x = .zero .positive) := by
    cases a.x with
    | notANumber => left; cases b.x <;> rfl
    | infinity s => cases b.x <;> cases s <;> first | (left; rfl) | (rename_i t; cases t <;> left <;> rfl) | (rename_i t _ _ _; cases t <;> left <;> rfl)
    | zero s =>
      cases b.x with
      | notANumber => left; rfl
      | infinity t => cases s <;> cases t <;> left <;> rfl
      | zero t => cases s <;> cases t <;> first | (left; rfl) | (right; exact ⟨rfl, rfl⟩)
      | finite t m' e' h' => cases s <;> cases t <;> left <;> rfl
    | finite s m e h =>
      cases b.x with
      | notANumber => left; rfl
      | infinity t => cases s <;> cases t <;> left <;> rfl
      | zero t => cases s <;> cases t <;> left <;> rfl
      | finite t m' e' h' =>
        show normalize spec (t.apply (decreaseExponent m' e' (min e' e)).1 - s.apply (decreaseExponent m e (min e' e)).1) (min e' e) .positive =
          (normalize spec (s.apply (decreaseExponent m e (min e e')).1 - t.apply (decreaseExponent m' e' (min e e')).1) (min e e') .positive).neg ∨
          (normalize spec (s.apply (decreaseExponent m e (min e e')).1 - t.apply (decreaseExponent m' e' (min e e')).1) (min e e') .positive = .zero .positive ∧
          normalize spec (t.apply (decreaseExponent m' e' (min e' e)).1 - s.apply (decreaseExponent m e (min e' e)).1) (min e' e) .positive = .zero .positive)
        rw [min_comm e' e]
        generalize s.apply (decreaseExponent m e (min e e')).1 = p
        generalize t.apply (decreaseExponent m' e' (min e e')).1 = q
        generalize min e e' = j
        rw [show q - p = -(p - q) by ring]
        generalize p - q = r
        have rn : ∀ (u : Sign) (n : ℕ), UnpackedFloat.round spec (-u) n j = (UnpackedFloat.round spec u n j).neg := fun u n => roundWithAccuracy_neg _ _ _ _
        unfold normalize
        rcases lt_trichotomy r 0 with h0 | h0 | h0
        · left
          rw [show compare r 0 = .lt from compare_lt_iff_lt.2 h0, show compare (-r) 0 = .gt from compare_gt_iff_gt.2 (by omega)]
          exact rn .negative _
        · right
          rw [h0]
          exact ⟨rfl, rfl⟩
        · left
          rw [show compare r 0 = .gt from compare_gt_iff_gt.2 h0, show compare (-r) 0 = .lt from compare_lt_iff_lt.2 (by omega), neg_neg]
          exact rn .positive _
  rcases key with h | ⟨h1, h2⟩
  · left
    show ofU spec _ = -ofU spec _
    rw [h, ofU_neg]
  · right
    constructor
    · show (ofU spec _).x = _
      rw [h1, ofU_repr (y := .zero .positive) trivial]
    · show (ofU spec _).x = _
      rw [h2, ofU_repr (y := .zero .positive) trivial]

/-- A rounded multiple of the smallest number has the sign of the exact one. -/
theorem Is.sign_iff {a : Fp spec} {x : ℝ} (h : a.Is x) (hx : ∃ n : ℤ, x = n * 2 ^ spec.minExponent) : (0 < a.val ↔ 0 < x) ∧ (a.val < 0 ↔ x < 0) := by
  have z : x = 0 → a.val = 0 := fun h0 => by
    have := h.2
    rw [h0] at this
    exact this.exact grid_zero
  have p : 0 < x → 0 < a.val := fun h0 => h.2.pos_multiple hx h0
  have n : x < 0 → a.val < 0 := by
    intro h'
    obtain ⟨m, hm⟩ := hx
    have hp := two_pow_pos spec.minExponent
    have h1 : x ≤ -2 ^ spec.minExponent := by
      have hm0 : m < 0 := by
        by_contra hc
        have : (0 : ℝ) ≤ m := by exact_mod_cast not_lt.1 hc
        nlinarith
      have : (m : ℝ) ≤ -1 := by
        have : m ≤ -1 := by omega
        exact_mod_cast this
      rw [hm]
      nlinarith
    have h2 : a.val ≤ -2 ^ spec.minExponent := h.2.mono_le (grid_two_pow le_rfl).neg h1
    linarith
  rcases lt_trichotomy x 0 with h' | h' | h'
  · have := n h'
    exact ⟨⟨fun h => by linarith, fun h => by linarith⟩, ⟨fun _ => h', fun _ => this⟩⟩
  · have := z h'
    exact ⟨⟨fun h => by linarith, fun h => by linarith⟩, ⟨fun h => by linarith, fun h => by linarith⟩⟩
  · have := p h'
    exact ⟨⟨fun _ => h', fun _ => this⟩, ⟨fun h => by linarith, fun h => by linarith⟩⟩

/-- A product has a relative error, unless it is below the normal numbers. -/
theorem mul_rel {a b : Fp spec} (ha : a.Fin) (hb : b.Fin) (h : |a.val * b.val| ≤ 2 ^ top spec) :
    (a * b).Fin ∧ |(a * b).val - a.val * b.val| ≤ |a.val * b.val| / 2 ^ (spec.mantissaBits : ℤ) + 2 ^ (spec.minExponent - 1) := by
  have hs := mul_is ha hb h
  refine ⟨hs.1, ?_⟩
  have h1 := two_pow_pos (spec.minExponent - 1)
  have h2 : 0 ≤ |a.val * b.val| / 2 ^ (spec.mantissaBits : ℤ) := by positivity
  rcases hs.2.rel with h3 | h3
  · exact h3.trans (by linarith)
  · exact h3.trans (by linarith)

/-- A difference of numbers whose exact difference is in the format. -/
theorem sub_exact {a b : Fp spec} (ha : a.Fin) (hb : b.Fin) (h : |a.val - b.val| ≤ 2 ^ top spec) (hg : Grid spec (a.val - b.val)) : (a - b).Fin ∧ (a - b).val = a.val - b.val :=
  ⟨(sub_is ha hb h).1, (sub_is ha hb h).2.exact hg⟩

theorem mul_exact {a b : Fp spec} (ha : a.Fin) (hb : b.Fin) (h : |a.val * b.val| ≤ 2 ^ top spec) (hg : Grid spec (a.val * b.val)) : (a * b).Fin ∧ (a * b).val = a.val * b.val :=
  ⟨(mul_is ha hb h).1, (mul_is ha hb h).2.exact hg⟩

end Fp
end Verif.Ieee
