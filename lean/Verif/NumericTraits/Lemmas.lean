import Verif.NumericTraits.Model
import Verif.NumericTraits.Spec
import Verif.BitManip.FloatLemmas
import Mathlib.Tactic.Positivity
import Mathlib.Tactic.NormNum

namespace Verif.NumericTraits
open Verif.BitManip

theorem nlz_eq (t : ITy) (x : BitVec t.w) : nlz t x = (t.w : ℤ) - (x.toNat.size : ℤ) := by
  cases t
  · exact nlz8_eq x
  · exact nlz8_eq x
  · exact nlz16_eq x
  · exact nlz16_eq x
  · exact nlz32_eq x
  · exact nlz32_eq x
  · exact nlz64_eq x
  · exact nlz64_eq x

theorem isLog2_of_size (z : ℤ) (n : ℕ) (hn : n ≠ 0) (h : |z| = n) : Spec.IsLog2 z ((n.size : ℤ) - 1) := by
  have hpos : 0 < n.size := Nat.size_pos.2 (by omega)
  have e1 : ((n.size : ℤ) - 1).toNat = n.size - 1 := by omega
  refine ⟨by omega, ?_, ?_⟩
  · rw [e1, h]
    have : 2 ^ (n.size - 1) ≤ n := Nat.lt_size.1 (by omega)
    exact_mod_cast this
  · rw [e1, h]
    have : n < 2 ^ (n.size - 1 + 1) := by rw [← Nat.size_le]; omega
    exact_mod_cast this

theorem isLog2_unique (z r r' : ℤ) (h : Spec.IsLog2 z r) (h' : Spec.IsLog2 z r') : r = r' := by
  have key : ∀ a b : ℤ, Spec.IsLog2 z a → Spec.IsLog2 z b → ¬ a < b := by
    intro a b ⟨ha0, _, ha⟩ ⟨hb0, hb, _⟩ hab
    have h1 : (2 : ℤ) ^ (a.toNat + 1) ≤ 2 ^ b.toNat := pow_le_pow_right₀ (by norm_num) (by omega)
    linarith
  have h1 := key r r' h h'
  have h2 := key r' r h' h
  omega

theorem toInt_pos_toNat {w : ℕ} (x : BitVec w) (h : 0 ≤ x.toInt) : (x.toNat : ℤ) = x.toInt := by
  have h3 := BitVec.toInt_eq_toNat_cond x
  have := x.isLt
  split_ifs at h3 <;> omega

theorem toInt_neg_toNat {w : ℕ} (x : BitVec w) (h : x.toInt < 0) : ((-x).toNat : ℤ) = -x.toInt := by
  have h3 := BitVec.toInt_eq_toNat_cond x
  have hlt := x.isLt
  rw [BitVec.toNat_neg]
  split_ifs at h3 with h4
  · omega
  · rw [Nat.mod_eq_of_lt (by omega)]; omega

theorem toInt_lt {w : ℕ} (x : BitVec w) (hw : 0 < w) : x.toInt < 2 ^ (w - 1) := by
  have := BitVec.toInt_lt (x := x)
  exact_mod_cast this

/-! ### log2Mod -/

theorem log2_signed {w : ℕ} (x : BitVec w) (hx : x.toInt ≠ 0) :
    Spec.IsLog2 x.toInt ((if x.toInt > 0 then (x.toNat.size : ℤ) else ((-x).toNat.size : ℤ)) - 1) := by
  by_cases h : x.toInt > 0
  · rw [if_pos h]
    have := toInt_pos_toNat x (by omega)
    exact isLog2_of_size _ _ (by omega) (by rw [abs_of_pos h, this])
  · rw [if_neg h]
    have := toInt_neg_toNat x (by omega)
    exact isLog2_of_size _ _ (by omega) (by rw [abs_of_neg (by omega), this])

theorem log2_unsigned {w : ℕ} (x : BitVec w) (hx : x ≠ 0#w) : Spec.IsLog2 (x.toNat : ℤ) ((x.toNat.size : ℤ) - 1) := by
  refine isLog2_of_size _ _ ?_ (Nat.abs_cast _)
  intro h0; exact hx (BitVec.eq_of_toNat_eq (by simpa using h0))

/-! ### floorPow2, ceilPow2 -/

theorem isFloor_pos (n p : ℕ) (h : BitManip.Spec.IsFloorPow2 n p) : Spec.IsFloor (n : ℤ) p := by
  obtain ⟨⟨⟨k, rfl⟩, hle⟩, hub⟩ := h
  constructor
  · exact ⟨Or.inr ⟨k, Or.inl (by push_cast; rfl)⟩, by exact_mod_cast hle⟩
  · rintro q ⟨hq | ⟨j, hq | hq⟩, hle'⟩
    · rw [hq]; positivity
    · have : 2 ^ j ≤ 2 ^ k := hub ⟨⟨j, rfl⟩, by rw [hq] at hle'; exact_mod_cast hle'⟩
      rw [hq]; exact_mod_cast this
    · have : (0 : ℤ) < 2 ^ j := by positivity
      have h2 : (0 : ℤ) ≤ ((2 ^ k : ℕ) : ℤ) := by positivity
      omega

theorem isFloor_zero : Spec.IsFloor 0 0 := ⟨⟨Or.inl rfl, le_refl _⟩, fun _ h => h.2⟩

theorem isCeil_zero : Spec.IsCeil 0 0 := ⟨⟨Or.inl rfl, le_refl _⟩, fun _ h => h.2⟩

theorem isCeil_pos (n p : ℕ) (hn : 1 ≤ n) (h : BitManip.Spec.IsCeilPow2 n p) : Spec.IsCeil (n : ℤ) p := by
  obtain ⟨⟨⟨k, rfl⟩, hle⟩, hub⟩ := h
  constructor
  · exact ⟨Or.inr ⟨k, Or.inl (by push_cast; rfl)⟩, by exact_mod_cast hle⟩
  · rintro q ⟨hq | ⟨j, hq | hq⟩, hle'⟩
    · omega
    · have : 2 ^ k ≤ 2 ^ j := hub ⟨⟨j, rfl⟩, by rw [hq] at hle'; exact_mod_cast hle'⟩
      rw [hq]; exact_mod_cast this
    · have : (0 : ℤ) < 2 ^ j := by positivity
      omega

theorem isFloor_neg (z r : ℤ) (h : Spec.IsCeil z r) : Spec.IsFloor (-z) (-r) := by
  have hneg : ∀ q, Spec.PowLike q → Spec.PowLike (-q) := by
    rintro q (h | ⟨k, h | h⟩)
    · exact Or.inl (by omega)
    · exact Or.inr ⟨k, Or.inr (by rw [h])⟩
    · exact Or.inr ⟨k, Or.inl (by rw [h]; simp)⟩
  obtain ⟨⟨h1, h2⟩, h3⟩ := h
  refine ⟨⟨hneg _ h1, by omega⟩, ?_⟩
  rintro q ⟨hq, hle⟩
  have := h3 ⟨hneg q hq, by omega⟩
  omega

theorem isCeil_neg (z r : ℤ) (h : Spec.IsFloor z r) : Spec.IsCeil (-z) (-r) := by
  have hneg : ∀ q, Spec.PowLike q → Spec.PowLike (-q) := by
    rintro q (h | ⟨k, h | h⟩)
    · exact Or.inl (by omega)
    · exact Or.inr ⟨k, Or.inr (by rw [h])⟩
    · exact Or.inr ⟨k, Or.inl (by rw [h]; simp)⟩
  obtain ⟨⟨h1, h2⟩, h3⟩ := h
  refine ⟨⟨hneg _ h1, by omega⟩, ?_⟩
  rintro q ⟨hq, hle⟩
  have := h3 ⟨hneg q hq, by omega⟩
  omega

theorem neg_toInt_of_toNat {w : ℕ} (hw : 0 < w) (y : BitVec w) (h : y.toNat ≤ 2 ^ (w - 1)) :
    (-y).toInt = -(y.toNat : ℤ) := by
  have e : 2 ^ w = 2 ^ (w - 1) * 2 := by rw [← pow_succ]; congr 1; omega
  have h3 := BitVec.toInt_eq_toNat_cond (-y)
  rw [BitVec.toNat_neg] at h3
  have := y.isLt
  rcases Nat.eq_zero_or_pos y.toNat with h0 | h0
  · rw [h0] at h3 ⊢
    simp at h3
    rw [h3]; simp
  · rw [Nat.mod_eq_of_lt (by omega)] at h3
    split_ifs at h3 <;> omega

theorem toInt_of_small {w : ℕ} (hw : 0 < w) (y : BitVec w) (h : y.toNat < 2 ^ (w - 1)) : y.toInt = (y.toNat : ℤ) := by
  have e : 2 ^ w = 2 ^ (w - 1) * 2 := by rw [← pow_succ]; congr 1; omega
  exact BitVec.toInt_eq_toNat_of_lt (by omega)

/-- What is needed of the unsigned helpers. -/
structure Helpers (w : ℕ) (F C : BitVec w → BitVec w) : Prop where
  hw : 1 < w
  f : ∀ x, (F x).toNat = if x.toNat = 0 then 0 else 2 ^ (x.toNat.size - 1)
  c : ∀ x, (C x).toNat = clp2Nat w x.toNat

theorem h8 : Helpers 8 flp2u8 clp2u8 := ⟨by omega, flp2u8_eq, clp2u8_eq⟩
theorem h16 : Helpers 16 flp2u16 clp2u16 := ⟨by omega, flp2u16_eq, clp2u16_eq⟩
theorem h32 : Helpers 32 flp2u32 clp2u32 := ⟨by omega, flp2u32_eq, clp2u32_eq⟩
theorem h64 : Helpers 64 flp2u64 clp2u64 := ⟨by omega, flp2u64_eq, clp2u64_eq⟩

theorem toInt_ge {w : ℕ} (hw : 0 < w) (x : BitVec w) : -2 ^ (w - 1) ≤ x.toInt := by
  have := BitVec.le_toInt (x := x)
  exact_mod_cast this

variable {w : ℕ} {F C : BitVec w → BitVec w}

theorem Helpers.floor_unsigned (H : Helpers w F C) (x : BitVec w) : Spec.IsFloor (x.toNat : ℤ) ((F x).toNat : ℤ) := by
  rw [H.f]
  split_ifs with h
  · rw [h]; exact isFloor_zero
  · exact isFloor_pos _ _ (floorPow2_size _ h)

theorem Helpers.ceil_unsigned (H : Helpers w F C) (x : BitVec w) (hx : x.toNat ≤ 2 ^ (w - 1)) :
    Spec.IsCeil (x.toNat : ℤ) ((C x).toNat : ℤ) := by
  rw [H.c, clp2Nat]
  split_ifs with h
  · have : x.toNat = 0 := by omega
    rw [this]; exact isCeil_zero
  · exact isCeil_pos _ _ (by omega) (ceilPow2_size _ (by omega))

theorem Helpers.F_le (H : Helpers w F C) (x : BitVec w) : (F x).toNat ≤ x.toNat := by
  rw [H.f]
  split_ifs with h
  · omega
  · exact (floorPow2_size _ h).1.2

theorem Helpers.C_le (H : Helpers w F C) (x : BitVec w) (k : ℕ) (hx : x.toNat ≤ 2 ^ k) :
    (C x).toNat ≤ 2 ^ k := by
  rw [H.c, clp2Nat]
  split_ifs with h
  · positivity
  · exact (ceilPow2_size _ (by omega)).2 ⟨⟨k, rfl⟩, hx⟩

theorem Helpers.floor_signed_nonneg (H : Helpers w F C) (x : BitVec w) (hx : x.toInt ≥ 0) :
    Spec.IsFloor x.toInt (F x).toInt := by
  have h1 := toInt_pos_toNat x hx
  have h2 := toInt_lt x (by have := H.hw; omega)
  have h3 : x.toNat < 2 ^ (w - 1) := by
    have : (x.toNat : ℤ) < ((2 ^ (w - 1) : ℕ) : ℤ) := by push_cast; omega
    exact_mod_cast this
  rw [toInt_of_small (by have := H.hw; omega) (F x) (lt_of_le_of_lt (H.F_le x) h3), ← h1]
  exact H.floor_unsigned x

theorem Helpers.floor_signed_neg (H : Helpers w F C) (x : BitVec w) (hx : x.toInt < 0) :
    Spec.IsFloor x.toInt (-(C (-x))).toInt := by
  have hw : 0 < w := by have := H.hw; omega
  have h1 := toInt_neg_toNat x hx
  have h2 := toInt_ge hw x
  have h3 : (-x).toNat ≤ 2 ^ (w - 1) := by
    have : ((-x).toNat : ℤ) ≤ ((2 ^ (w - 1) : ℕ) : ℤ) := by push_cast; omega
    exact_mod_cast this
  rw [neg_toInt_of_toNat hw _ (H.C_le _ _ h3)]
  have := isFloor_neg _ _ (H.ceil_unsigned (-x) h3)
  rw [h1] at this
  simpa using this

theorem Helpers.ceil_signed_neg (H : Helpers w F C) (x : BitVec w) (hx : x.toInt < 0) :
    Spec.IsCeil x.toInt (-(F (-x))).toInt := by
  have hw : 0 < w := by have := H.hw; omega
  have h1 := toInt_neg_toNat x hx
  have h2 := toInt_ge hw x
  have h3 : (-x).toNat ≤ 2 ^ (w - 1) := by
    have : ((-x).toNat : ℤ) ≤ ((2 ^ (w - 1) : ℕ) : ℤ) := by push_cast; omega
    exact_mod_cast this
  rw [neg_toInt_of_toNat hw _ (le_trans (H.F_le _) h3)]
  have := isCeil_neg _ _ (H.floor_unsigned (-x))
  rw [h1] at this
  simpa using this

theorem Helpers.ceil_signed_nonneg (H : Helpers w F C) (x : BitVec w) (hx : x.toInt ≥ 0)
    (hx' : x.toInt ≤ 2 ^ (w - 2)) : Spec.IsCeil x.toInt (C x).toInt := by
  have hw : 0 < w := by have := H.hw; omega
  have h1 := toInt_pos_toNat x hx
  have h3 : x.toNat ≤ 2 ^ (w - 2) := by
    have : (x.toNat : ℤ) ≤ ((2 ^ (w - 2) : ℕ) : ℤ) := by push_cast; omega
    exact_mod_cast this
  have e : 2 ^ (w - 1) = 2 ^ (w - 2) * 2 := by rw [← pow_succ]; congr 1; have := H.hw; omega
  have hp : 0 < 2 ^ (w - 2) := by positivity
  have h4 := H.C_le x _ h3
  rw [toInt_of_small hw (C x) (by omega), ← h1]
  exact H.ceil_unsigned x (by omega)

/-- Above a quarter of the range the signed result wraps to the most negative value. -/
theorem Helpers.ceil_signed_overflow (H : Helpers w F C) (x : BitVec w) (hx' : 2 ^ (w - 2) < x.toInt) :
    (C x).toInt = -2 ^ (w - 1) := by
  have hw : 0 < w := by have := H.hw; omega
  have hp : (0 : ℤ) < 2 ^ (w - 2) := by positivity
  have h1 := toInt_pos_toNat x (by omega)
  have h2 := toInt_lt x hw
  have e : 2 ^ (w - 1) = 2 ^ (w - 2) * 2 := by rw [← pow_succ]; congr 1; have := H.hw; omega
  have e' : 2 ^ w = 2 ^ (w - 1) * 2 := by rw [← pow_succ]; congr 1; omega
  have h3 : 2 ^ (w - 2) < x.toNat := by
    have : ((2 ^ (w - 2) : ℕ) : ℤ) < (x.toNat : ℤ) := by push_cast; omega
    exact_mod_cast this
  have h4 : x.toNat < 2 ^ (w - 1) := by
    have : (x.toNat : ℤ) < ((2 ^ (w - 1) : ℕ) : ℤ) := by push_cast; omega
    exact_mod_cast this
  have h5 : (C x).toNat = 2 ^ (w - 1) := by
    rw [H.c, clp2Nat, if_neg (by omega)]
    congr 1
    apply le_antisymm
    · rw [Nat.size_le]; omega
    · have : w - 2 < (x.toNat - 1).size := by rw [Nat.lt_size]; omega
      omega
  have h6 := BitVec.toInt_eq_toNat_cond (C x)
  rw [h5] at h6
  rw [if_neg (by omega)] at h6
  rw [h6]
  have e2 : ((2 ^ w : ℕ) : ℤ) = ((2 ^ (w - 1) : ℕ) : ℤ) * 2 := by rw [e']; push_cast; ring
  have e3 : ((2 ^ (w - 1) : ℕ) : ℤ) = 2 ^ (w - 1) := by push_cast; ring
  omega

end Verif.NumericTraits
