import Verif.HoughFp.Insert
import Verif.Ieee.Approx
import Mathlib.Tactic.FieldSimp
import Mathlib.Tactic.Linarith

/-! Lemmas for C110: the index of a point. -/
namespace Verif.HoughFp
open Verif Hough Ieee Fp Interval Interval.Spec Float.Model

/-- The conversion of a finite number truncates. -/
theorem toInt?_fin {spec : Format} {a : Fp spec} (h : a.Fin) : toInt? a = some (trunc a.val) := by
  unfold toInt? Fp.val Fp.Fin at *
  cases hx : a.x with
  | infinity s => rw [hx] at h; cases h
  | notANumber => rw [hx] at h; cases h
  | zero s =>
    show some 0 = some (trunc (0 : ℝ))
    unfold trunc
    simp
  | finite s m e hm =>
    show some _ = some _
    congr 1
    have key : ∀ k : ℕ, (k : ℝ) ≤ (m : ℝ) * 2 ^ e → (m : ℝ) * 2 ^ e < k + 1 → s.apply (k : ℤ) = trunc (Ieee.val (.finite s m e hm)) := by
      intro k h1 h2
      unfold trunc
      have h0 : (0 : ℝ) ≤ (m : ℝ) * 2 ^ e := mul_nonneg (Nat.cast_nonneg _) (two_pow_pos e).le
      have hp : (0 : ℝ) < (m : ℝ) * 2 ^ e := mul_pos (by exact_mod_cast hm) (two_pow_pos e)
      rw [Ieee.val]
      cases s with
      | positive =>
        show (k : ℤ) = if 0 ≤ 1 * ((m : ℝ) * 2 ^ e) then _ else _
        rw [one_mul, if_pos h0]
        show _ = ⌊(1 : ℝ) * ((m : ℝ) * 2 ^ e)⌋
        symm
        rw [one_mul, Int.floor_eq_iff]
        exact ⟨by exact_mod_cast h1, by exact_mod_cast h2⟩
      | negative =>
        show -(k : ℤ) = if 0 ≤ -1 * ((m : ℝ) * 2 ^ e) then _ else _
        rw [if_neg (by linarith)]
        show _ = ⌈(-1 : ℝ) * ((m : ℝ) * 2 ^ e)⌉
        symm
        rw [Int.ceil_eq_iff]
        push_cast
        constructor <;> linarith
    split_ifs with he
    · have e1 : ((m * 2 ^ e.toNat : ℕ) : ℝ) = (m : ℝ) * 2 ^ e := by
        push_cast
        rw [← zpow_natCast, show ((e.toNat : ℕ) : ℤ) = e by omega]
      exact key _ e1.le (by rw [e1]; linarith)
    · have e1 : (m : ℝ) * 2 ^ e = (m : ℝ) / ((2 ^ (-e).toNat : ℕ) : ℝ) := by
        push_cast
        rw [← zpow_natCast, show (((-e).toNat : ℕ) : ℤ) = -e by omega, zpow_neg]
        field_simp
      have hpos : 0 < 2 ^ (-e).toNat := by positivity
      have hposR : (0 : ℝ) < ((2 ^ (-e).toNat : ℕ) : ℝ) := by exact_mod_cast hpos
      refine key _ ?_ ?_
      · rw [e1, le_div_iff₀ hposR]
        exact_mod_cast Nat.div_mul_le_self m _
      · rw [e1, div_lt_iff₀ hposR]
        have := Nat.lt_div_mul_add (a := m) hpos
        exact_mod_cast (by rw [Nat.add_mul, one_mul]; exact this : m < (m / 2 ^ (-e).toNat + 1) * 2 ^ (-e).toNat)

theorem toInt?_none {spec : Format} {a : Fp spec} (h : ¬ a.Fin) : toInt? a = none := by
  unfold toInt? Fp.Fin at *
  cases hx : a.x with
  | infinity s => rfl
  | notANumber => rfl
  | zero s => rw [hx] at h; exact absurd trivial h
  | finite s m e hm => rw [hx] at h; exact absurd trivial h

/-- The sizes, up to 2^k, of a point and the parameters of a detector: the indices are below 2^30. -/
structure Dom (k : ℤ) (rhoMin rhoRes : Flt) (n p : V3 Flt) : Prop where
  k0 : -60 ≤ k
  k1 : k ≤ 60
  n : (n.1.Fin ∧ |n.1.val| ≤ 1) ∧ (n.2.1.Fin ∧ |n.2.1.val| ≤ 1) ∧ (n.2.2.Fin ∧ |n.2.2.val| ≤ 1)
  p : (p.1.Fin ∧ |p.1.val| ≤ 2 ^ k) ∧ (p.2.1.Fin ∧ |p.2.1.val| ≤ 2 ^ k) ∧ (p.2.2.Fin ∧ |p.2.2.val| ≤ 2 ^ k)
  rhoMin : rhoMin.Fin ∧ |rhoMin.val| ≤ 2 ^ (k + 2)
  rhoRes : rhoRes.Fin ∧ 2 ^ (k - 27) ≤ rhoRes.val ∧ rhoRes.val ≤ 2 ^ (60 : ℤ)

/-- The exact projection of a point. -/
noncomputable def dot (n p : V3 Flt) : ℝ := n.1.val * p.1.val + n.2.1.val * p.2.1.val + n.2.2.val * p.2.2.val

theorem prod_is {k : ℤ} (k0 : -60 ≤ k) (k1 : k ≤ 60) {a b : Flt} (ha : a.Fin ∧ |a.val| ≤ 1) (hb : b.Fin ∧ |b.val| ≤ 2 ^ k) :
    (a * b).Fin ∧ |(a * b).val| ≤ 2 ^ k ∧ |(a * b).val - a.val * b.val| ≤ 2 ^ (k - 25) := by
  have h1 : |a.val * b.val| ≤ 2 ^ k := by
    rw [abs_mul]
    calc _ ≤ 1 * (2 : ℝ) ^ k := mul_le_mul ha.2 hb.2 (abs_nonneg _) (by norm_num)
      _ = _ := one_mul _
  have h := mul_is ha.1 hb.1 (h1.trans (two_pow_le (show k ≤ 127 by omega)))
  exact ⟨h.1, h.2.abs_le (show (-149 : ℤ) ≤ k by omega) h1, (h.2.err (show (-149 : ℤ) + 24 ≤ k by omega) h1).trans (two_pow_le (show k - 24 - 1 ≤ k - 25 by omega))⟩

theorem sum_is {k : ℤ} (k0 : -60 ≤ k) (k1 : k ≤ 70) {a b : Flt} (ha : a.Fin) (hb : b.Fin) (h1 : |a.val| + |b.val| ≤ 2 ^ k) :
    ((a + b).Fin ∧ |(a + b).val| ≤ 2 ^ k ∧ |(a + b).val - (a.val + b.val)| ≤ 2 ^ (k - 25)) ∧
    ((a - b).Fin ∧ |(a - b).val| ≤ 2 ^ k ∧ |(a - b).val - (a.val - b.val)| ≤ 2 ^ (k - 25)) := by
  have h2 : |a.val + b.val| ≤ 2 ^ k := (abs_add_le _ _).trans h1
  have h3 : |a.val - b.val| ≤ 2 ^ k := (abs_sub _ _).trans h1
  have ht : (2 : ℝ) ^ k ≤ 2 ^ (127 : ℤ) := two_pow_le (by omega)
  have h := add_is ha hb (h2.trans ht)
  have h' := sub_is ha hb (h3.trans ht)
  exact ⟨⟨h.1, h.2.abs_le (show (-149 : ℤ) ≤ k by omega) h2, (h.2.err (show (-149 : ℤ) + 24 ≤ k by omega) h2).trans (two_pow_le (show k - 24 - 1 ≤ k - 25 by omega))⟩,
    ⟨h'.1, h'.2.abs_le (show (-149 : ℤ) ≤ k by omega) h3, (h'.2.err (show (-149 : ℤ) + 24 ≤ k by omega) h3).trans (two_pow_le (show k - 24 - 1 ≤ k - 25 by omega))⟩⟩

/-- The projection of a point and its difference from the least rho. -/
theorem project_near {k : ℤ} {rhoMin rhoRes : Flt} {n p : V3 Flt} (h : Dom k rhoMin rhoRes n p) :
    (project n p - rhoMin).Fin ∧ |(project n p - rhoMin).val| ≤ 2 ^ (k + 3) ∧ |(project n p - rhoMin).val - (dot n p - rhoMin.val)| ≤ 17 * 2 ^ (k - 25) := by
  have k0 := h.k0
  have k1 := h.k1
  have hp : ∀ j : ℕ, (2 : ℝ) ^ (k + j) = 2 ^ j * 2 ^ k := fun j => by rw [two_pow_add, zpow_natCast, mul_comm]
  have hq : ∀ j : ℕ, (2 : ℝ) ^ (k + j - 25) = 2 ^ j * 2 ^ (k - 25) := fun j => by rw [show k + j - 25 = (k - 25) + j by ring, two_pow_add, zpow_natCast, mul_comm]
  have p1 := hp 1
  have p2 := hp 2
  have p3 := hp 3
  have q1 := hq 1
  have q2 := hq 2
  have q3 := hq 3
  push_cast at p1 p2 p3 q1 q2 q3
  have u0 := two_pow_pos k
  have hm := h.rhoMin
  rw [p2] at hm
  obtain ⟨a1, b1, c1⟩ := prod_is k0 k1 h.n.1 h.p.1
  obtain ⟨a2, b2, c2⟩ := prod_is k0 k1 h.n.2.1 h.p.2.1
  obtain ⟨a3, b3, c3⟩ := prod_is k0 k1 h.n.2.2 h.p.2.2
  obtain ⟨a4, b4, c4⟩ := (sum_is (k := k + 1) (by omega) (by omega) a1 a2 (by rw [p1]; linarith)).1
  rw [p1] at b4
  obtain ⟨a5, b5, c5⟩ := (sum_is (k := k + 2) (by omega) (by omega) a4 a3 (by rw [p2]; linarith)).1
  rw [p2] at b5
  obtain ⟨a6, b6, c6⟩ := (sum_is (k := k + 3) (by omega) (by omega) a5 hm.1 (by rw [p3]; linarith)).2
  refine ⟨a6, b6, ?_⟩
  rw [q1] at c4
  rw [q2] at c5
  rw [q3] at c6
  unfold dot
  change |(project n p - rhoMin).val - ((project n p).val - rhoMin.val)| ≤ _ at c6
  change |(project n p).val - _| ≤ _ at c5
  rw [_root_.abs_le] at c1 c2 c3 c4 c5 c6 ⊢
  constructor <;> linarith

/-- The margin of the indices. -/
noncomputable def margin (k : ℤ) : ℝ := 33 * 2 ^ (k - 25)

/-- The index of a point is the truncation of a number near the exact quotient. -/
theorem index_near {k : ℤ} {rhoMin rhoRes : Flt} {n p : V3 Flt} (h : Dom k rhoMin rhoRes n p) :
    ∃ q : ℝ, index rhoMin rhoRes n p = .ok (trunc q) ∧ |q| ≤ 2 ^ (30 : ℤ) ∧ |q * rhoRes.val - (dot n p - rhoMin.val)| ≤ margin k := by
  have k0 := h.k0
  have k1 := h.k1
  obtain ⟨hr, hr0, hr1⟩ := h.rhoRes
  have r0 : 0 < rhoRes.val := (two_pow_pos _).trans_le hr0
  obtain ⟨f1, b1, e1⟩ := project_near h
  set D := project n p - rhoMin with hD
  have hq : |D.val / rhoRes.val| ≤ 2 ^ (30 : ℤ) := by
    rw [abs_div, abs_of_pos r0, div_le_iff₀ r0]
    refine b1.trans (le_trans ?_ (mul_le_mul_of_nonneg_left hr0 (two_pow_pos 30).le))
    rw [← two_pow_add]
    exact two_pow_le (by omega)
  have hi := div_is f1 hr r0.ne' (hq.trans (two_pow_le (show (30 : ℤ) ≤ 127 by norm_num)))
  have hb := hi.2.abs_le (show (-149 : ℤ) ≤ 30 by norm_num) hq
  change |(D / rhoRes).val| ≤ _ at hb
  refine ⟨(D / rhoRes).val, ?_, hb, ?_⟩
  · show castInt (D / rhoRes) = _
    unfold castInt
    rw [toInt?_fin hi.1]
    show Cxx.int _ = _
    refine if_pos ?_
    have hb' := _root_.abs_le.1 hb
    norm_num at hb'
    unfold trunc
    split_ifs with hs
    · constructor
      · have := Int.floor_nonneg.2 hs
        omega
      · have h1 : (⌊(D / rhoRes).val⌋ : ℝ) ≤ ((1073741824 : ℤ) : ℝ) := (Int.floor_le _).trans (by push_cast; linarith)
        have h2 : ⌊(D / rhoRes).val⌋ ≤ 1073741824 := by exact_mod_cast h1
        omega
    · constructor
      · have h1 : ((-1073741824 : ℤ) : ℝ) ≤ (⌈(D / rhoRes).val⌉ : ℝ) := le_trans (by push_cast; linarith) (Int.le_ceil _)
        have h2 : -1073741824 ≤ ⌈(D / rhoRes).val⌉ := by exact_mod_cast h1
        omega
      · have : ⌈(D / rhoRes).val⌉ ≤ 0 := Int.ceil_le.2 (by push_cast; linarith)
        omega
  · have e2 : |(D / rhoRes).val * rhoRes.val - D.val| ≤ 16 * 2 ^ (k - 25) := by
      have h1 : |(D / rhoRes).val * rhoRes.val - D.val| = |(D / rhoRes).val - D.val / rhoRes.val| * rhoRes.val := by
        conv_rhs => rw [← abs_of_pos r0]
        rw [← abs_mul, abs_of_pos r0, sub_mul, div_mul_cancel₀ _ r0.ne']
      rw [h1]
      rcases hi.2.rel with h2 | h2
      · change |(D / rhoRes).val - _| ≤ _ at h2
        refine (mul_le_mul_of_nonneg_right h2 r0.le).trans ?_
        rw [abs_div, abs_of_pos r0, div_right_comm, div_mul_cancel₀ _ r0.ne', div_le_iff₀ (two_pow_pos _)]
        refine b1.trans ?_
        rw [show (16 : ℝ) = 2 ^ (4 : ℤ) by norm_num, ← two_pow_add, ← two_pow_add]
        exact two_pow_le (show k + 3 ≤ 4 + (k - 25) + 24 by omega)
      · change |(D / rhoRes).val - _| ≤ _ at h2
        refine (mul_le_mul h2 hr1 r0.le (two_pow_pos _).le).trans ?_
        rw [show (16 : ℝ) = 2 ^ (4 : ℤ) by norm_num, ← two_pow_add, ← two_pow_add]
        exact two_pow_le (show (-149 : ℤ) - 1 + 60 ≤ 4 + (k - 25) by omega)
    unfold margin
    rw [_root_.abs_le] at e1 e2 ⊢
    constructor <;> linarith

end Verif.HoughFp
