import Verif.BitManip.FloatLemmas

/-!
Property theorems C01–C04 (see properties.jsonl).
-/
namespace Verif.BitManip

/-! ### C01: leading-zero count -/

/-- C01. For every argument of the four widths the count is exact. -/
theorem C01_nlz :
    (∀ x : BitVec 8, Spec.IsLeadingZeros 8 x.toNat (nlz8 x)) ∧
    (∀ x : BitVec 16, Spec.IsLeadingZeros 16 x.toNat (nlz16 x)) ∧
    (∀ x : BitVec 32, Spec.IsLeadingZeros 32 x.toNat (nlz32 x)) ∧
    (∀ x : BitVec 64, Spec.IsLeadingZeros 64 x.toNat (nlz64 x)) := by
  refine ⟨fun x => ?_, fun x => ?_, fun x => ?_, fun x => ?_⟩
  · rw [nlz8_eq]; exact isLeadingZeros_of_size 8 _ x.isLt
  · rw [nlz16_eq]; exact isLeadingZeros_of_size 16 _ x.isLt
  · rw [nlz32_eq]; exact isLeadingZeros_of_size 32 _ x.isLt
  · rw [nlz64_eq]; exact isLeadingZeros_of_size 64 _ x.isLt

/-- The count determined by `IsLeadingZeros` is unique, so C01 fixes the returned value. -/
theorem C01_spec_unique (w x : ℕ) (r r' : ℤ) (h : Spec.IsLeadingZeros w x r) (h' : Spec.IsLeadingZeros w x r') :
    r = r' := by
  have key : ∀ a b : ℤ, Spec.IsLeadingZeros w x a → Spec.IsLeadingZeros w x b → ¬ a < b := by
    intro a b ha hb hab
    have := hb.le_width
    obtain ⟨j, hj, hbit⟩ := ha.one (by omega)
    have := hb.zeros j (by omega) (by have := ha.nonneg; omega)
    rw [this] at hbit; exact Bool.noConfusion hbit
  have h1 := key r r' h h'
  have h2 := key r' r h' h
  omega

example : nlz8 0#8 = 8 := by decide
example : nlz32 0x00012345#32 = 15 := by decide
example : nlz64 0#64 = 64 ∧ nlz64 (BitVec.ofNat 64 (2 ^ 63 + 5)) = 0 := by decide

/-! ### C02: floor power of two -/

/-- C02. `flp2` is 0 at 0 and the largest power of two not above the argument otherwise. -/
theorem C02_flp2 :
    (flp2u8 0#8 = 0#8 ∧ ∀ x : BitVec 8, x ≠ 0#8 → Spec.IsFloorPow2 x.toNat (flp2u8 x).toNat) ∧
    (flp2u16 0#16 = 0#16 ∧ ∀ x : BitVec 16, x ≠ 0#16 → Spec.IsFloorPow2 x.toNat (flp2u16 x).toNat) ∧
    (flp2u32 0#32 = 0#32 ∧ ∀ x : BitVec 32, x ≠ 0#32 → Spec.IsFloorPow2 x.toNat (flp2u32 x).toNat) ∧
    (flp2u64 0#64 = 0#64 ∧ ∀ x : BitVec 64, x ≠ 0#64 → Spec.IsFloorPow2 x.toNat (flp2u64 x).toNat) := by
  have hne : ∀ {w : ℕ} (x : BitVec w), x ≠ 0#w → x.toNat ≠ 0 := by
    intro w x hx h0; exact hx (BitVec.eq_of_toNat_eq (by simpa using h0))
  refine ⟨⟨by decide, fun x hx => ?_⟩, ⟨by decide, fun x hx => ?_⟩, ⟨by decide, fun x hx => ?_⟩,
    ⟨by decide, fun x hx => ?_⟩⟩
  · rw [flp2u8_eq, if_neg (hne x hx)]; exact floorPow2_size _ (hne x hx)
  · rw [flp2u16_eq, if_neg (hne x hx)]; exact floorPow2_size _ (hne x hx)
  · rw [flp2u32_eq, if_neg (hne x hx)]; exact floorPow2_size _ (hne x hx)
  · rw [flp2u64_eq, if_neg (hne x hx)]; exact floorPow2_size _ (hne x hx)

example : flp2u32 5#32 = 4#32 ∧ flp2u8 0xFF#8 = 0x80#8 ∧ flp2u16 64#16 = 64#16 := by decide

/-! ### C03: ceiling power of two -/

/-- What C03 asks of a `w`-bit `clp2` at `x` with result `r`. -/
def C03_at (w x r : ℕ) : Prop :=
  (1 ≤ x ∧ x ≤ 2 ^ (w - 1) → Spec.IsCeilPow2 x r) ∧ (x = 0 ∨ 2 ^ (w - 1) < x → r = 0)

theorem C03_at_clp2Nat (w x : ℕ) : C03_at w x (clp2Nat w x) := by
  constructor
  · rintro ⟨h1, h2⟩
    rw [clp2Nat, if_neg (by omega)]
    exact ceilPow2_size x (by omega)
  · intro h
    rw [clp2Nat, if_pos h]

/-- C03. `clp2` is the smallest power of two not below the argument if it is representable, 0 otherwise. -/
theorem C03_clp2 :
    (∀ x : BitVec 8, C03_at 8 x.toNat (clp2u8 x).toNat) ∧
    (∀ x : BitVec 16, C03_at 16 x.toNat (clp2u16 x).toNat) ∧
    (∀ x : BitVec 32, C03_at 32 x.toNat (clp2u32 x).toNat) ∧
    (∀ x : BitVec 64, C03_at 64 x.toNat (clp2u64 x).toNat) := by
  refine ⟨fun x => ?_, fun x => ?_, fun x => ?_, fun x => ?_⟩
  · rw [clp2u8_eq]; exact C03_at_clp2Nat _ _
  · rw [clp2u16_eq]; exact C03_at_clp2Nat _ _
  · rw [clp2u32_eq]; exact C03_at_clp2Nat _ _
  · rw [clp2u64_eq]; exact C03_at_clp2Nat _ _

example : clp2u32 5#32 = 8#32 ∧ clp2u8 128#8 = 128#8 ∧ clp2u8 129#8 = 0#8 ∧ clp2u64 0#64 = 0#64 := by decide

/-! ### C04: decomposition of floating point numbers -/

/-- C04, float, composition after decomposition: identity on all the 2^32 bit patterns. -/
theorem C04_float_set_get (f : BitVec 32) :
    setMantissaExpSignF (BitVec.ofInt 32 (getMantissaExpSignF f).1) (BitVec.ofInt 32 (getMantissaExpSignF f).2.1)
      (getMantissaExpSignF f).2.2 = .ok f := by
  rw [getF_eq]
  have hf := f.isLt
  have he : (BitVec.ofInt 32 (((f.toNat / 2 ^ 23 % 2 ^ 8 : ℕ) : ℤ) - 127)).toInt
      = ((f.toNat / 2 ^ 23 % 2 ^ 8 : ℕ) : ℤ) - 127 :=
    toInt_ofInt_small (by norm_num) _ (by norm_num; omega) (by norm_num; omega)
  obtain ⟨g, hg, hgn⟩ := setF_toNat (BitVec.ofInt 32 ((f.toNat % 2 ^ 23 : ℕ) : ℤ))
    (BitVec.ofInt 32 (((f.toNat / 2 ^ 23 % 2 ^ 8 : ℕ) : ℤ) - 127)) (decide (2 ^ 31 ≤ f.toNat))
    (by rw [he]; omega) (by rw [he]; omega)
  rw [hg]
  congr 1
  apply BitVec.eq_of_toNat_eq
  rw [hgn, he, toNat_ofInt_small _ (by omega) (by omega)]
  by_cases h : 2 ^ 31 ≤ f.toNat
  · simp only [h, decide_true, if_true]; omega
  · simp only [h, decide_false, if_false]; simp; omega

/-- C04, float, decomposition after composition: identity on every in-range triple. -/
theorem C04_float_get_set (m e : ℤ) (s : Bool) (hm : 0 ≤ m) (hm' : m < 2 ^ 23) (he : -127 ≤ e) (he' : e ≤ 128) :
    ∃ f, setMantissaExpSignF (BitVec.ofInt 32 m) (BitVec.ofInt 32 e) s = .ok f ∧
      getMantissaExpSignF f = (m, e, s) := by
  have h1 : (BitVec.ofInt 32 e).toInt = e := toInt_ofInt_small (by norm_num) _ (by norm_num; omega) (by norm_num; omega)
  obtain ⟨g, hg, hgn⟩ := setF_toNat (BitVec.ofInt 32 m) (BitVec.ofInt 32 e) s (by omega) (by omega)
  refine ⟨g, hg, ?_⟩
  rw [getF_eq, hgn, h1, toNat_ofInt_small _ hm (by omega)]
  cases s <;> simp <;> omega

/-- C04, double, composition after decomposition: identity on all the 2^64 bit patterns. -/
theorem C04_double_set_get (f : BitVec 64) :
    setMantissaExpSignD (BitVec.ofInt 64 (getMantissaExpSignD f).1) (BitVec.ofInt 64 (getMantissaExpSignD f).2.1)
      (getMantissaExpSignD f).2.2 = .ok f := by
  rw [getD_eq]
  have hf := f.isLt
  have he : (BitVec.ofInt 64 (((f.toNat / 2 ^ 52 % 2 ^ 11 : ℕ) : ℤ) - 1023)).toInt
      = ((f.toNat / 2 ^ 52 % 2 ^ 11 : ℕ) : ℤ) - 1023 :=
    toInt_ofInt_small (by norm_num) _ (by norm_num; omega) (by norm_num; omega)
  obtain ⟨g, hg, hgn⟩ := setD_toNat (BitVec.ofInt 64 ((f.toNat % 2 ^ 52 : ℕ) : ℤ))
    (BitVec.ofInt 64 (((f.toNat / 2 ^ 52 % 2 ^ 11 : ℕ) : ℤ) - 1023)) (decide (2 ^ 63 ≤ f.toNat))
    (by rw [he]; omega) (by rw [he]; omega)
  rw [hg]
  congr 1
  apply BitVec.eq_of_toNat_eq
  rw [hgn, he, toNat_ofInt_small _ (by omega) (by omega)]
  by_cases h : 2 ^ 63 ≤ f.toNat
  · simp only [h, decide_true, if_true]; omega
  · simp only [h, decide_false, if_false]; simp; omega

/-- C04, double, decomposition after composition: identity on every in-range triple. -/
theorem C04_double_get_set (m e : ℤ) (s : Bool) (hm : 0 ≤ m) (hm' : m < 2 ^ 52) (he : -1023 ≤ e) (he' : e ≤ 1024) :
    ∃ f, setMantissaExpSignD (BitVec.ofInt 64 m) (BitVec.ofInt 64 e) s = .ok f ∧
      getMantissaExpSignD f = (m, e, s) := by
  have h1 : (BitVec.ofInt 64 e).toInt = e := toInt_ofInt_small (by norm_num) _ (by norm_num; omega) (by norm_num; omega)
  obtain ⟨g, hg, hgn⟩ := setD_toNat (BitVec.ofInt 64 m) (BitVec.ofInt 64 e) s (by omega) (by omega)
  refine ⟨g, hg, ?_⟩
  rw [getD_eq, hgn, h1, toNat_ofInt_small _ hm (by omega)]
  cases s <;> simp <;> omega

/-- C04, float, exponents out of range: up to 384 the exponent overflows into the sign, which becomes negative whatever `s`
says; the other ones are undefined behaviour. -/
theorem C04_float_range (m e : BitVec 32) (s : Bool) :
    (128 < e.toInt → e.toInt ≤ 384 → setMantissaExpSignF m e s = setMantissaExpSignF m (e - 256#32) true) ∧
    (e.toInt < -127 ∨ 384 < e.toInt ∧ e.toInt ≤ 2147483520 → setMantissaExpSignF m e s = .error (.ub .shift)) ∧
    (2147483520 < e.toInt → setMantissaExpSignF m e s = .error (.ub .overflow)) := by
  refine ⟨fun h1 h2 => ?_, fun h => ?_, fun h => ?_⟩
  · have hb : (256#32).toInt = 256 := by decide
    have hs : (e - 256#32).toInt = e.toInt - 256 := by rw [BitVec.toInt_sub, hb, Int.bmod_def]; omega
    have hc : (127#32).toInt = 127 := by decide
    have h3 : (e + 127#32).toInt = e.toInt + 127 := by rw [BitVec.toInt_add, hc, Int.bmod_def]; omega
    have h4 : (e - 256#32 + 127#32).toInt = e.toInt - 256 + 127 := by rw [BitVec.toInt_add, hs, hc, Int.bmod_def]; omega
    have h5 : (e + 127#32).toNat = (e - 256#32 + 127#32).toNat + 256 := by
      have g1 := BitVec.toInt_eq_toNat_cond (e + 127#32)
      have g2 := BitVec.toInt_eq_toNat_cond (e - 256#32 + 127#32)
      have := (e + 127#32).isLt
      have := (e - 256#32 + 127#32).isLt
      split_ifs at g1 g2 <;> omega
    have h6 : (e - 256#32 + 127#32).toNat < 256 := by
      have g2 := BitVec.toInt_eq_toNat_cond (e - 256#32 + 127#32)
      have := (e - 256#32 + 127#32).isLt
      split_ifs at g2 <;> omega
    have h7 : (e + 127#32) <<< 23 = ((e - 256#32 + 127#32) <<< 23) ||| (1#32 <<< 31) := by
      apply BitVec.eq_of_toNat_eq
      rw [BitVec.toNat_or, BitVec.toNat_shiftLeft, BitVec.toNat_shiftLeft, h5, Nat.shiftLeft_eq, Nat.shiftLeft_eq,
        show (1#32 <<< 31).toNat = 2 ^ 31 from by decide]
      generalize (e - 256#32 + 127#32).toNat = x at h6
      rw [Nat.mod_eq_of_lt (show x * 2 ^ 23 < 2 ^ 32 by omega), Nat.mod_eq_of_lt (show (x + 256) * 2 ^ 23 < 2 ^ 32 by omega),
        Nat.or_comm]
      have := Nat.two_pow_add_eq_or_of_lt (i := 31) (b := x * 2 ^ 23) (by omega) 1
      rw [mul_one] at this
      rw [← this, Nat.add_mul, Nat.add_comm]
      norm_num
    have h8 : setMantissaExpSignF m e s =
        .ok ((0x007FFFFF#32 &&& m) ||| ((e + 127#32) <<< 23) ||| ((if s then 1#32 else 0#32) <<< 31)) := by
      unfold setMantissaExpSignF
      rw [if_neg (by omega), if_neg (by omega)]
    have h9 : setMantissaExpSignF m (e - 256#32) true =
        .ok ((0x007FFFFF#32 &&& m) ||| ((e - 256#32 + 127#32) <<< 23) ||| (1#32 <<< 31)) := by
      unfold setMantissaExpSignF
      rw [if_neg (by omega), if_neg (by omega), if_pos rfl]
    rw [h8, h9, h7, ← BitVec.or_assoc, BitVec.or_assoc _ (1#32 <<< 31)]
    cases s
    · rw [if_neg (by decide), show (1#32 <<< 31 ||| 0#32 <<< 31) = 1#32 <<< 31 from by decide]
    · rw [if_pos rfl, BitVec.or_self]
  · unfold setMantissaExpSignF
    rw [if_neg (by omega), if_pos (by omega)]
  · unfold setMantissaExpSignF
    rw [if_pos (by omega)]

/-- C04, double, exponents out of range: up to 3072 the exponent overflows into the sign, which becomes negative whatever `s`
says; the other ones are undefined behaviour. -/
theorem C04_double_range (m e : BitVec 64) (s : Bool) :
    (1024 < e.toInt → e.toInt ≤ 3072 → setMantissaExpSignD m e s = setMantissaExpSignD m (e - 2048#64) true) ∧
    (e.toInt < -1023 ∨ 3072 < e.toInt ∧ e.toInt ≤ 9223372036854774784 → setMantissaExpSignD m e s = .error (.ub .shift)) ∧
    (9223372036854774784 < e.toInt → setMantissaExpSignD m e s = .error (.ub .overflow)) := by
  refine ⟨fun h1 h2 => ?_, fun h => ?_, fun h => ?_⟩
  · have hb : (2048#64).toInt = 2048 := by decide
    have hs : (e - 2048#64).toInt = e.toInt - 2048 := by rw [BitVec.toInt_sub, hb, Int.bmod_def]; omega
    have hc : (1023#64).toInt = 1023 := by decide
    have h3 : (e + 1023#64).toInt = e.toInt + 1023 := by rw [BitVec.toInt_add, hc, Int.bmod_def]; omega
    have h4 : (e - 2048#64 + 1023#64).toInt = e.toInt - 2048 + 1023 := by rw [BitVec.toInt_add, hs, hc, Int.bmod_def]; omega
    have h5 : (e + 1023#64).toNat = (e - 2048#64 + 1023#64).toNat + 2048 := by
      have g1 := BitVec.toInt_eq_toNat_cond (e + 1023#64)
      have g2 := BitVec.toInt_eq_toNat_cond (e - 2048#64 + 1023#64)
      have := (e + 1023#64).isLt
      have := (e - 2048#64 + 1023#64).isLt
      split_ifs at g1 g2 <;> omega
    have h6 : (e - 2048#64 + 1023#64).toNat < 2048 := by
      have g2 := BitVec.toInt_eq_toNat_cond (e - 2048#64 + 1023#64)
      have := (e - 2048#64 + 1023#64).isLt
      split_ifs at g2 <;> omega
    have h7 : (e + 1023#64) <<< 52 = ((e - 2048#64 + 1023#64) <<< 52) ||| (1#64 <<< 63) := by
      apply BitVec.eq_of_toNat_eq
      rw [BitVec.toNat_or, BitVec.toNat_shiftLeft, BitVec.toNat_shiftLeft, h5, Nat.shiftLeft_eq, Nat.shiftLeft_eq,
        show (1#64 <<< 63).toNat = 2 ^ 63 from by decide]
      generalize (e - 2048#64 + 1023#64).toNat = x at h6
      rw [Nat.mod_eq_of_lt (show x * 2 ^ 52 < 2 ^ 64 by omega), Nat.mod_eq_of_lt (show (x + 2048) * 2 ^ 52 < 2 ^ 64 by omega),
        Nat.or_comm]
      have := Nat.two_pow_add_eq_or_of_lt (i := 63) (b := x * 2 ^ 52) (by omega) 1
      rw [mul_one] at this
      rw [← this, Nat.add_mul, Nat.add_comm]
      norm_num
    have h8 : setMantissaExpSignD m e s =
        .ok ((0x000FFFFFFFFFFFFF#64 &&& m) ||| ((e + 1023#64) <<< 52) ||| ((if s then 1#64 else 0#64) <<< 63)) := by
      unfold setMantissaExpSignD
      rw [if_neg (by omega), if_neg (by omega)]
    have h9 : setMantissaExpSignD m (e - 2048#64) true =
        .ok ((0x000FFFFFFFFFFFFF#64 &&& m) ||| ((e - 2048#64 + 1023#64) <<< 52) ||| (1#64 <<< 63)) := by
      unfold setMantissaExpSignD
      rw [if_neg (by omega), if_neg (by omega), if_pos rfl]
    rw [h8, h9, h7, ← BitVec.or_assoc, BitVec.or_assoc _ (1#64 <<< 63)]
    cases s
    · rw [if_neg (by decide), show (1#64 <<< 63 ||| 0#64 <<< 63) = 1#64 <<< 63 from by decide]
    · rw [if_pos rfl, BitVec.or_self]
  · unfold setMantissaExpSignD
    rw [if_neg (by omega), if_pos (by omega)]
  · unfold setMantissaExpSignD
    rw [if_pos (by omega)]

/-- The float 6.5 = 1.625 · 2^2. -/
example : getMantissaExpSignF 0x40D00000#32 = (0x500000, 2, false) := by decide
/-- A negative denormal, and a NaN payload. -/
example : getMantissaExpSignF 0x80000001#32 = (1, -127, true) ∧
    setMantissaExpSignF 0x400123#32 128#32 true = .ok 0xFFC00123#32 := by decide
/-- Outside the range of exponents the composition is undefined behaviour or changes the sign: 1.0 · 2^256 becomes -1.0. -/
example : setMantissaExpSignF 0#32 (BitVec.ofInt 32 (-128)) false = .error (.ub .shift) ∧
    setMantissaExpSignF 0#32 256#32 false = .ok 0xBF800000#32 := by decide

end Verif.BitManip
