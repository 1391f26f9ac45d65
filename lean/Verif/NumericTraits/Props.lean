import Verif.NumericTraits.Lemmas

/-! Property theorems C05 and C06 (see properties.jsonl). -/
namespace Verif.NumericTraits
open Verif.BitManip

/-- The types for which `-i` overflows at the most negative value (no promotion to a wider `int`). -/
def MostNegative (t : ITy) (x : BitVec t.w) : Prop := (t = .i32 ∨ t = .i64) ∧ t.val x = -2 ^ (t.w - 1)

/-! ### C05: log2Mod -/

/-- C05 for the type `t`. -/
def C05_at (t : ITy) : Prop :=
  ∀ x : BitVec t.w, t.val x ≠ 0 → ¬ MostNegative t x → ∃ r, log2Mod t x = .ok r ∧ Spec.IsLog2 (t.val x) r

/-- C05, full statement. -/
def C05_statement : Prop := ∀ t, C05_at t

/-- C05 holds for seven of the eight types. Missing: `int64_t`, for which it is false (`C05_log2Mod_violated`). -/
theorem C05_log2Mod_partial (t : ITy) (ht : t ≠ .i64) : C05_at t := by
  intro x hx hm
  cases t with
  | i8 =>
    change x.toInt ≠ 0 at hx
    refine ⟨_, ?_, log2_signed x hx⟩
    simp only [log2Mod, nlz8_eq]
    split_ifs <;> first | omega | (congr 1; omega)
  | u8 =>
    have hx' : x ≠ 0#8 := by rintro rfl; exact hx (by decide)
    refine ⟨_, ?_, log2_unsigned x hx'⟩
    simp only [log2Mod, nlz8_eq, if_pos hx']
    congr 1; omega
  | i16 =>
    change x.toInt ≠ 0 at hx
    refine ⟨_, ?_, log2_signed x hx⟩
    simp only [log2Mod, nlz16_eq]
    split_ifs <;> first | omega | (congr 1; omega)
  | u16 =>
    have hx' : x ≠ 0#16 := by rintro rfl; exact hx (by decide)
    refine ⟨_, ?_, log2_unsigned x hx'⟩
    simp only [log2Mod, nlz16_eq, if_pos hx']
    congr 1; omega
  | i32 =>
    change x.toInt ≠ 0 at hx
    have hm' : x.toInt ≠ -2147483648 := fun h => hm ⟨Or.inl rfl, h⟩
    refine ⟨_, ?_, log2_signed x hx⟩
    simp only [log2Mod, nlz32_eq]
    split_ifs <;> first | omega | (congr 1; omega)
  | u32 =>
    have hx' : x ≠ 0#32 := by rintro rfl; exact hx (by decide)
    refine ⟨_, ?_, log2_unsigned x hx'⟩
    simp only [log2Mod, nlz32_eq, if_pos hx']
    congr 1; omega
  | i64 => exact absurd rfl ht
  | u64 =>
    have hx' : x ≠ 0#64 := by rintro rfl; exact hx (by decide)
    refine ⟨_, ?_, log2_unsigned x hx'⟩
    simp only [log2Mod, nlz64_eq, if_pos hx']
    congr 1; omega

/-- The `int64_t` specialisation is wrong for *every* value whose magnitude is below 2^55
(numeric_traits.h:261, 263 call `nlz8`). -/
theorem C05_log2Mod_int64_violated (x : BitVec 64) (h0 : x.toInt ≠ 0) (hlt : |x.toInt| < 2 ^ 55) :
    ¬ ∃ r, log2Mod .i64 x = .ok r ∧ Spec.IsLog2 (x.toInt) r := by
  rintro ⟨r, hr, -, hle, -⟩
  have hsz : ∀ y : BitVec 8, (55 : ℤ) ≤ 64 - 1 - (8 - (y.toNat.size : ℤ)) := by intro y; omega
  have h55 : 55 ≤ r := by
    simp only [log2Mod, nlz8_eq] at hr
    split_ifs at hr
    · have := Except.ok.inj hr; have := hsz (x.setWidth 8); omega
    · have := Except.ok.inj hr; have := hsz ((-x).setWidth 8); omega
    · omega
  have : (2 : ℤ) ^ 55 ≤ 2 ^ r.toNat := pow_le_pow_right₀ (by norm_num) (by omega)
  linarith

/-- C05 is false for the code: witness `log2Mod((int64_t)1) == 56`. -/
theorem C05_log2Mod_violated : ¬ C05_statement := by
  intro h
  exact C05_log2Mod_int64_violated 1#64 (by decide) (by decide) (h .i64 1#64 (by decide) (by
    rintro ⟨_, h⟩; revert h; decide))

example : log2Mod .i64 1#64 = .ok 56 := by decide
example : log2Mod .i32 (BitVec.ofInt 32 (-1000)) = .ok 9 := by decide
example : log2Mod .i8 0x80#8 = .ok 7 ∧ log2Mod .i32 0x80000000#32 = .error (.ub .overflow) := by decide

/-! ### C06: floorPow2 and ceilPow2 -/

/-- C06, floor part at `x`. -/
def C06_floor_at (t : ITy) (x : BitVec t.w) : Prop :=
  ∃ r, floorPow2 t x = .ok r ∧ Spec.IsFloor (t.val x) (t.val r)

/-- C06, ceiling part at `x`. -/
def C06_ceil_at (t : ITy) (x : BitVec t.w) : Prop :=
  ∃ r, ceilPow2 t x = .ok r ∧ Spec.IsCeil (t.val x) (t.val r)

/-- C06, full statement. -/
def C06_statement : Prop := ∀ t x, C06_floor_at t x ∧ C06_ceil_at t x

/-- The floor part of C06 holds for all the types and values, but the most negative 32/64-bit ones (undefined behaviour). -/
theorem C06_floorPow2_partial (t : ITy) (x : BitVec t.w) (hm : ¬ MostNegative t x) : C06_floor_at t x := by
  unfold C06_floor_at
  cases t with
  | i8 =>
    by_cases h : x.toInt ≥ 0
    · exact ⟨_, by simp only [floorPow2, if_pos h], h8.floor_signed_nonneg x h⟩
    · exact ⟨_, by simp only [floorPow2, if_neg h], h8.floor_signed_neg x (by omega)⟩
  | u8 => exact ⟨_, rfl, h8.floor_unsigned x⟩
  | i16 =>
    by_cases h : x.toInt ≥ 0
    · exact ⟨_, by simp only [floorPow2, if_pos h], h16.floor_signed_nonneg x h⟩
    · exact ⟨_, by simp only [floorPow2, if_neg h], h16.floor_signed_neg x (by omega)⟩
  | u16 => exact ⟨_, rfl, h16.floor_unsigned x⟩
  | i32 =>
    have hm' : x.toInt ≠ -2147483648 := fun h => hm ⟨Or.inl rfl, h⟩
    by_cases h : x.toInt ≥ 0
    · exact ⟨_, by simp only [floorPow2, if_pos h], h32.floor_signed_nonneg x h⟩
    · exact ⟨_, by simp only [floorPow2, if_neg h, if_neg hm'], h32.floor_signed_neg x (by omega)⟩
  | u32 => exact ⟨_, rfl, h32.floor_unsigned x⟩
  | i64 =>
    have hm' : x.toInt ≠ -9223372036854775808 := fun h => hm ⟨Or.inr rfl, h⟩
    by_cases h : x.toInt ≥ 0
    · exact ⟨_, by simp only [floorPow2, if_pos h], h64.floor_signed_nonneg x h⟩
    · exact ⟨_, by simp only [floorPow2, if_neg h, if_neg hm'], h64.floor_signed_neg x (by omega)⟩
  | u64 => exact ⟨_, rfl, h64.floor_unsigned x⟩

/-- Largest value with a representable ceiling power of two: 2^(w-2) for signed, 2^(w-1) for unsigned types. -/
def ceilLimit (t : ITy) : ℤ := if t.signed then 2 ^ (t.w - 2) else 2 ^ (t.w - 1)

/-- The ceiling part of C06 holds for all values up to `ceilLimit`, the most negative 32/64-bit ones excepted. -/
theorem C06_ceilPow2_partial (t : ITy) (x : BitVec t.w) (hm : ¬ MostNegative t x) (hl : t.val x ≤ ceilLimit t) :
    C06_ceil_at t x := by
  unfold C06_ceil_at
  cases t with
  | i8 =>
    by_cases h : x.toInt ≥ 0
    · exact ⟨_, by simp only [ceilPow2, if_pos h], h8.ceil_signed_nonneg x h hl⟩
    · exact ⟨_, by simp only [ceilPow2, if_neg h], h8.ceil_signed_neg x (by omega)⟩
  | u8 => exact ⟨_, rfl, h8.ceil_unsigned x (by have : (x.toNat : ℤ) ≤ 2 ^ 7 := hl; exact_mod_cast this)⟩
  | i16 =>
    by_cases h : x.toInt ≥ 0
    · exact ⟨_, by simp only [ceilPow2, if_pos h], h16.ceil_signed_nonneg x h hl⟩
    · exact ⟨_, by simp only [ceilPow2, if_neg h], h16.ceil_signed_neg x (by omega)⟩
  | u16 => exact ⟨_, rfl, h16.ceil_unsigned x (by have : (x.toNat : ℤ) ≤ 2 ^ 15 := hl; exact_mod_cast this)⟩
  | i32 =>
    have hm' : x.toInt ≠ -2147483648 := fun h => hm ⟨Or.inl rfl, h⟩
    by_cases h : x.toInt ≥ 0
    · exact ⟨_, by simp only [ceilPow2, if_pos h], h32.ceil_signed_nonneg x h hl⟩
    · exact ⟨_, by simp only [ceilPow2, if_neg h, if_neg hm'], h32.ceil_signed_neg x (by omega)⟩
  | u32 => exact ⟨_, rfl, h32.ceil_unsigned x (by have : (x.toNat : ℤ) ≤ 2 ^ 31 := hl; exact_mod_cast this)⟩
  | i64 =>
    have hm' : x.toInt ≠ -9223372036854775808 := fun h => hm ⟨Or.inr rfl, h⟩
    by_cases h : x.toInt ≥ 0
    · exact ⟨_, by simp only [ceilPow2, if_pos h], h64.ceil_signed_nonneg x h hl⟩
    · exact ⟨_, by simp only [ceilPow2, if_neg h, if_neg hm'], h64.ceil_signed_neg x (by omega)⟩
  | u64 => exact ⟨_, rfl, h64.ceil_unsigned x (by have : (x.toNat : ℤ) ≤ 2 ^ 63 := hl; exact_mod_cast this)⟩

/-- Beyond the limit of `C06_ceilPow2_partial` the ceiling is wrong for *every* value: it is negative (signed) or zero (unsigned). -/
theorem C06_ceilPow2_beyond_violated (t : ITy) (x : BitVec t.w) (hl : ceilLimit t < t.val x) : ¬ C06_ceil_at t x := by
  rintro ⟨r, hr, ⟨-, hle⟩, -⟩
  have hpos : 0 < t.val x := by
    refine lt_of_le_of_lt ?_ hl
    unfold ceilLimit; split <;> positivity
  suffices h : t.val r ≤ 0 by omega
  cases t with
  | i8 =>
    have hp : x.toInt ≥ 0 := le_of_lt hpos
    simp only [ceilPow2, if_pos hp] at hr
    rw [← Except.ok.inj hr]
    exact le_of_eq_of_le (h8.ceil_signed_overflow x hl) (by norm_num)
  | i16 =>
    have hp : x.toInt ≥ 0 := le_of_lt hpos
    simp only [ceilPow2, if_pos hp] at hr
    rw [← Except.ok.inj hr]
    exact le_of_eq_of_le (h16.ceil_signed_overflow x hl) (by norm_num)
  | i32 =>
    have hp : x.toInt ≥ 0 := le_of_lt hpos
    simp only [ceilPow2, if_pos hp] at hr
    rw [← Except.ok.inj hr]
    exact le_of_eq_of_le (h32.ceil_signed_overflow x hl) (by norm_num)
  | i64 =>
    have hp : x.toInt ≥ 0 := le_of_lt hpos
    simp only [ceilPow2, if_pos hp] at hr
    rw [← Except.ok.inj hr]
    exact le_of_eq_of_le (h64.ceil_signed_overflow x hl) (by norm_num)
  | u8 =>
    have hl' : 2 ^ 7 < x.toNat := by have : (2 : ℤ) ^ 7 < (x.toNat : ℤ) := hl; exact_mod_cast this
    rw [← Except.ok.inj hr]
    change ((clp2u8 x).toNat : ℤ) ≤ 0
    rw [clp2u8_eq, clp2Nat, if_pos (Or.inr hl')]; rfl
  | u16 =>
    have hl' : 2 ^ 15 < x.toNat := by have : (2 : ℤ) ^ 15 < (x.toNat : ℤ) := hl; exact_mod_cast this
    rw [← Except.ok.inj hr]
    change ((clp2u16 x).toNat : ℤ) ≤ 0
    rw [clp2u16_eq, clp2Nat, if_pos (Or.inr hl')]; rfl
  | u32 =>
    have hl' : 2 ^ 31 < x.toNat := by have : (2 : ℤ) ^ 31 < (x.toNat : ℤ) := hl; exact_mod_cast this
    rw [← Except.ok.inj hr]
    change ((clp2u32 x).toNat : ℤ) ≤ 0
    rw [clp2u32_eq, clp2Nat, if_pos (Or.inr hl')]; rfl
  | u64 =>
    have hl' : 2 ^ 63 < x.toNat := by have : (2 : ℤ) ^ 63 < (x.toNat : ℤ) := hl; exact_mod_cast this
    rw [← Except.ok.inj hr]
    change ((clp2u64 x).toNat : ℤ) ≤ 0
    rw [clp2u64_eq, clp2Nat, if_pos (Or.inr hl')]; rfl

/-- C06 is false for the code: `ceilPow2((int8_t)100)` is -128. -/
theorem C06_violated : ¬ C06_statement := by
  intro h
  exact C06_ceilPow2_beyond_violated .i8 100#8 (by decide) (h .i8 100#8).2

example : floorPow2 .i8 (BitVec.ofInt 8 (-5)) = .ok (BitVec.ofInt 8 (-8)) := by decide
example : ceilPow2 .i8 (BitVec.ofInt 8 (-5)) = .ok (BitVec.ofInt 8 (-4)) ∧ ceilPow2 .i8 6#8 = .ok 8#8 := by decide
example : ceilPow2 .i8 100#8 = .ok 0x80#8 ∧ ITy.val .i8 0x80#8 = -128 := by decide

end Verif.NumericTraits
