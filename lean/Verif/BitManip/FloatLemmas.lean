import Verif.BitManip.Lemmas

namespace Verif.BitManip

/-! Arithmetic reading of the decomposition of `float` and `double` bit patterns. -/

theorem and_mask_nat (n x : ℕ) : (2 ^ n - 1) &&& x = x % 2 ^ n := by
  rw [Nat.and_comm, Nat.and_two_pow_sub_one_eq_mod]

theorem getM_f (f : BitVec 32) : (0x007FFFFF#32 &&& f).toInt = ((f.toNat % 2 ^ 23 : ℕ) : ℤ) := by
  have h : (0x007FFFFF#32 &&& f).toNat = f.toNat % 2 ^ 23 := by
    rw [BitVec.toNat_and]; exact and_mask_nat 23 _
  rw [BitVec.toInt_eq_toNat_of_lt (by rw [h]; omega), h]

theorem getE_f (f : BitVec 32) :
    (((0x7F800000#32 &&& f) >>> 23) - 127#32).toInt = ((f.toNat / 2 ^ 23 % 2 ^ 8 : ℕ) : ℤ) - 127 := by
  have h : ((0x7F800000#32 &&& f) >>> 23).toNat = f.toNat / 2 ^ 23 % 2 ^ 8 := by
    rw [BitVec.toNat_ushiftRight, BitVec.toNat_and, Nat.shiftRight_and_distrib, Nat.shiftRight_eq_div_pow f.toNat]
    exact and_mask_nat 8 _
  rw [BitVec.toInt_sub, BitVec.toInt_eq_toNat_of_lt (x := (0x7F800000#32 &&& f) >>> 23) (by rw [h]; omega), h]
  have h127 : (127#32).toInt = 127 := by decide
  rw [h127, Int.bmod_def]
  omega

theorem getS_f (f : BitVec 32) : (0x80000000#32 &&& f ≠ 0#32) ↔ 2 ^ 31 ≤ f.toNat := by
  have h : (0x80000000#32 &&& f).toNat = 2 ^ 31 * (f.toNat / 2 ^ 31 % 2) := by
    rw [BitVec.toNat_and]
    have h1 : (0x80000000#32).toNat = 2 ^ 31 := by decide
    rw [h1, Nat.two_pow_and]
    congr 1
    rw [Nat.testBit_eq_decide_div_mod_eq]
    rcases Nat.mod_two_eq_zero_or_one (f.toNat / 2 ^ 31) with h | h <;> rw [h] <;> rfl
  rw [BitVec.toNat_ne, h, BitVec.toNat_ofNat]
  have := f.isLt
  omega

theorem getM_d (f : BitVec 64) : (0x000FFFFFFFFFFFFF#64 &&& f).toInt = ((f.toNat % 2 ^ 52 : ℕ) : ℤ) := by
  have h : (0x000FFFFFFFFFFFFF#64 &&& f).toNat = f.toNat % 2 ^ 52 := by
    rw [BitVec.toNat_and]; exact and_mask_nat 52 _
  rw [BitVec.toInt_eq_toNat_of_lt (by rw [h]; omega), h]

theorem getE_d (f : BitVec 64) :
    (((0x7FF0000000000000#64 &&& f) >>> 52) - 1023#64).toInt = ((f.toNat / 2 ^ 52 % 2 ^ 11 : ℕ) : ℤ) - 1023 := by
  have h : ((0x7FF0000000000000#64 &&& f) >>> 52).toNat = f.toNat / 2 ^ 52 % 2 ^ 11 := by
    rw [BitVec.toNat_ushiftRight, BitVec.toNat_and, Nat.shiftRight_and_distrib, Nat.shiftRight_eq_div_pow f.toNat]
    exact and_mask_nat 11 _
  rw [BitVec.toInt_sub,
    BitVec.toInt_eq_toNat_of_lt (x := (0x7FF0000000000000#64 &&& f) >>> 52) (by rw [h]; omega), h]
  have h127 : (1023#64).toInt = 1023 := by decide
  rw [h127, Int.bmod_def]
  omega

theorem getS_d (f : BitVec 64) : (0x8000000000000000#64 &&& f ≠ 0#64) ↔ 2 ^ 63 ≤ f.toNat := by
  have h : (0x8000000000000000#64 &&& f).toNat = 2 ^ 63 * (f.toNat / 2 ^ 63 % 2) := by
    rw [BitVec.toNat_and]
    have h1 : (0x8000000000000000#64).toNat = 2 ^ 63 := by decide
    rw [h1, Nat.two_pow_and]
    congr 1
    rw [Nat.testBit_eq_decide_div_mod_eq]
    rcases Nat.mod_two_eq_zero_or_one (f.toNat / 2 ^ 63) with h | h <;> rw [h] <;> rfl
  rw [BitVec.toNat_ne, h, BitVec.toNat_ofNat]
  have := f.isLt
  omega

/-- Three disjoint bit fields. -/
theorem or_fields (p q M E S : ℕ) (hM : M < 2 ^ p) (hE : E < 2 ^ q) :
    (M ||| E * 2 ^ p) ||| S * 2 ^ (p + q) = M + E * 2 ^ p + S * 2 ^ (p + q) := by
  have h1 : M ||| E * 2 ^ p = M + E * 2 ^ p := by
    rw [Nat.or_comm, mul_comm, ← Nat.two_pow_add_eq_or_of_lt hM]; ring
  have h2 : M + E * 2 ^ p < 2 ^ (p + q) := by
    have : (E + 1) * 2 ^ p ≤ 2 ^ q * 2 ^ p := Nat.mul_le_mul_right _ hE
    rw [pow_add, mul_comm (2 ^ p)]
    calc M + E * 2 ^ p < 2 ^ p + E * 2 ^ p := by omega
      _ = (E + 1) * 2 ^ p := by ring
      _ ≤ _ := this
  rw [h1, Nat.or_comm, mul_comm S, ← Nat.two_pow_add_eq_or_of_lt h2]; ring

theorem setF_toNat (m e : BitVec 32) (s : Bool) (he : 0 ≤ e.toInt + 127) (he' : e.toInt + 127 < 256) :
    ∃ f, setMantissaExpSignF m e s = .ok f ∧
      f.toNat = m.toNat % 2 ^ 23 + (e.toInt + 127).toNat * 2 ^ 23 + (if s then 1 else 0) * 2 ^ 31 := by
  refine ⟨(0x007FFFFF#32 &&& m) ||| ((e + 127#32) <<< 23) ||| ((if s then 1#32 else 0#32) <<< 31), ?_, ?_⟩
  · unfold setMantissaExpSignF
    rw [if_neg (by omega), if_neg (by omega)]
  · rw [BitVec.toNat_or, BitVec.toNat_or, BitVec.toNat_and]
    have hE : ((e + 127#32) <<< 23).toNat = (e.toInt + 127).toNat * 2 ^ 23 := by
      have h127 : (127#32).toInt = 127 := by decide
      have h1 : (e + 127#32).toInt = e.toInt + 127 := by
        rw [BitVec.toInt_add, h127, Int.bmod_def]; omega
      have h2 : (e + 127#32).toNat = (e.toInt + 127).toNat := by
        have h3 := BitVec.toInt_eq_toNat_cond (e + 127#32)
        have := (e + 127#32).isLt
        split_ifs at h3 <;> omega
      rw [BitVec.toNat_shiftLeft, h2, Nat.shiftLeft_eq]
      apply Nat.mod_eq_of_lt
      omega
    have hS : ((if s then 1#32 else 0#32) <<< 31).toNat = (if s then 1 else 0) * 2 ^ (23 + 8) := by
      cases s <;> decide
    have hM : (0x007FFFFF#32).toNat &&& m.toNat = m.toNat % 2 ^ 23 := and_mask_nat 23 _
    rw [hE, hS, hM, or_fields 23 8 _ _ _ (Nat.mod_lt _ (by norm_num)) (by omega)]

theorem setD_toNat (m e : BitVec 64) (s : Bool) (he : 0 ≤ e.toInt + 1023) (he' : e.toInt + 1023 < 2048) :
    ∃ f, setMantissaExpSignD m e s = .ok f ∧
      f.toNat = m.toNat % 2 ^ 52 + (e.toInt + 1023).toNat * 2 ^ 52 + (if s then 1 else 0) * 2 ^ 63 := by
  refine ⟨(0x000FFFFFFFFFFFFF#64 &&& m) ||| ((e + 1023#64) <<< 52) ||| ((if s then 1#64 else 0#64) <<< 63), ?_, ?_⟩
  · unfold setMantissaExpSignD
    rw [if_neg (by omega), if_neg (by omega)]
  · rw [BitVec.toNat_or, BitVec.toNat_or, BitVec.toNat_and]
    have hE : ((e + 1023#64) <<< 52).toNat = (e.toInt + 1023).toNat * 2 ^ 52 := by
      have h127 : (1023#64).toInt = 1023 := by decide
      have h1 : (e + 1023#64).toInt = e.toInt + 1023 := by
        rw [BitVec.toInt_add, h127, Int.bmod_def]; omega
      have h2 : (e + 1023#64).toNat = (e.toInt + 1023).toNat := by
        have h3 := BitVec.toInt_eq_toNat_cond (e + 1023#64)
        have := (e + 1023#64).isLt
        split_ifs at h3 <;> omega
      rw [BitVec.toNat_shiftLeft, h2, Nat.shiftLeft_eq]
      apply Nat.mod_eq_of_lt
      omega
    have hS : ((if s then 1#64 else 0#64) <<< 63).toNat = (if s then 1 else 0) * 2 ^ (52 + 11) := by
      cases s <;> decide
    have hM : (0x000FFFFFFFFFFFFF#64).toNat &&& m.toNat = m.toNat % 2 ^ 52 := and_mask_nat 52 _
    rw [hE, hS, hM, or_fields 52 11 _ _ _ (Nat.mod_lt _ (by norm_num)) (by omega)]

theorem getF_eq (f : BitVec 32) : getMantissaExpSignF f =
    (((f.toNat % 2 ^ 23 : ℕ) : ℤ), ((f.toNat / 2 ^ 23 % 2 ^ 8 : ℕ) : ℤ) - 127, decide (2 ^ 31 ≤ f.toNat)) := by
  unfold getMantissaExpSignF
  simp only [getM_f, getE_f]
  congr 2
  rw [decide_eq_decide, getS_f]

theorem getD_eq (f : BitVec 64) : getMantissaExpSignD f =
    (((f.toNat % 2 ^ 52 : ℕ) : ℤ), ((f.toNat / 2 ^ 52 % 2 ^ 11 : ℕ) : ℤ) - 1023, decide (2 ^ 63 ≤ f.toNat)) := by
  unfold getMantissaExpSignD
  simp only [getM_d, getE_d]
  congr 2
  rw [decide_eq_decide, getS_d]

theorem toInt_ofInt_small {w : ℕ} (hw : 0 < w) (z : ℤ) (h1 : -2 ^ (w - 1) ≤ z) (h2 : z < 2 ^ (w - 1)) :
    (BitVec.ofInt w z).toInt = z := by
  rw [BitVec.toInt_ofInt]
  apply Int.bmod_eq_of_le_mul_two
  · have : (2 : ℤ) ^ w = 2 ^ (w - 1) * 2 := by rw [← pow_succ]; congr 1; omega
    push_cast; omega
  · have : (2 : ℤ) ^ w = 2 ^ (w - 1) * 2 := by rw [← pow_succ]; congr 1; omega
    push_cast; omega

theorem toNat_ofInt_small {w : ℕ} (z : ℤ) (h1 : 0 ≤ z) (h2 : z < 2 ^ w) :
    (BitVec.ofInt w z).toNat = z.toNat := by
  rw [BitVec.toNat_ofInt]
  congr 1
  apply Int.emod_eq_of_lt h1
  push_cast; exact h2

end Verif.BitManip
