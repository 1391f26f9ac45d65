import Verif.BitManip.Model
import Verif.BitManip.Spec
import Mathlib.Data.Nat.Size
import Mathlib.Data.Nat.Bitwise
import Mathlib.Tactic.Ring
import Mathlib.Tactic.Linarith
import Mathlib.Tactic.IntervalCases

namespace Verif.BitManip

/-! ### Number of leading zeros -/

theorem size_shiftRight (x k : ℕ) (h : x >>> k ≠ 0) : (x >>> k).size = x.size - k := by
  have hk : 2 ^ k ≤ x := by
    rw [Nat.shiftRight_eq_div_pow] at h
    by_contra hlt
    exact h (Nat.div_eq_of_lt (by omega))
  have h1 : k < x.size := Nat.lt_size.2 hk
  apply le_antisymm
  · rw [Nat.size_le, Nat.shiftRight_eq_div_pow, Nat.div_lt_iff_lt_mul (by positivity), ← pow_add]
    rw [← Nat.size_le]; omega
  · rcases Nat.exists_eq_add_of_lt h1 with ⟨d, hd⟩
    have : d < (x >>> k).size := by
      rw [Nat.lt_size, Nat.shiftRight_eq_div_pow, Nat.le_div_iff_mul_le (by positivity), ← pow_add]
      rw [← Nat.lt_size]; omega
    omega

/-- Invariant of the search: the count minus the bits still to be examined, and a bound for the rest. -/
def NlzInv {w : ℕ} (c : ℤ) (b : ℕ) (s : ℤ × BitVec w) : Prop :=
  s.1 - (s.2.toNat.size : ℤ) = c ∧ s.2.toNat < 2 ^ b

theorem nlzStep_inv {w : ℕ} (c : ℤ) (k : ℕ) (s : ℤ × BitVec w) (h : NlzInv c (2 * k) s) :
    NlzInv c k (nlzStep k s) := by
  obtain ⟨h1, h2⟩ := h
  unfold nlzStep
  simp only [ne_eq]
  split_ifs with hy
  · have hz : s.2.toNat >>> k = 0 := by
      have := congrArg BitVec.toNat hy
      simpa using this
    refine ⟨h1, ?_⟩
    rw [Nat.shiftRight_eq_div_pow] at hz
    rcases Nat.div_eq_zero_iff.1 hz with h0 | h0
    · exact absurd h0 (by positivity)
    · exact h0
  · have hz : s.2.toNat >>> k ≠ 0 := by
      intro h0; apply hy; apply BitVec.eq_of_toNat_eq; simpa using h0
    constructor
    · simp only [BitVec.toNat_ushiftRight]
      rw [size_shiftRight _ _ hz]
      have : k < s.2.toNat.size := by
        by_contra hlt
        apply hz
        rw [Nat.shiftRight_eq_div_pow]
        apply Nat.div_eq_of_lt
        rw [← Nat.size_le]; omega
      omega
    · simp only [BitVec.toNat_ushiftRight]
      rw [Nat.shiftRight_eq_div_pow, Nat.div_lt_iff_lt_mul (by positivity), ← pow_add]
      rwa [two_mul] at h2

theorem nlzTail_inv {w : ℕ} (c : ℤ) (s : ℤ × BitVec w) (h : NlzInv c 2 s) : nlzTail s = c := by
  obtain ⟨h1, h2⟩ := h
  unfold nlzTail
  have hlt : s.2.toNat < 4 := by simpa using h2
  have hsz : s.2.toNat.size = if s.2.toNat < 1 then 0 else if s.2.toNat < 2 then 1 else 2 := by
    generalize s.2.toNat = x at *
    interval_cases x <;> rfl
  have hz : (s.2 >>> 1 ≠ 0#w) ↔ 2 ≤ s.2.toNat := by
    constructor
    · intro h
      by_contra hlt2
      apply h; apply BitVec.eq_of_toNat_eq
      simp [Nat.shiftRight_eq_div_pow]; omega
    · intro h h0
      have := congrArg BitVec.toNat h0
      simp [Nat.shiftRight_eq_div_pow] at this
      omega
  by_cases h3 : 2 ≤ s.2.toNat
  · rw [if_pos (hz.2 h3)]
    rw [hsz] at h1
    rw [if_neg (by omega), if_neg (by omega)] at h1
    push_cast at h1; omega
  · rw [if_neg (by rw [hz]; exact h3)]
    rw [hsz] at h1
    split_ifs at h1 <;> push_cast at h1 <;> omega

theorem nlz8_eq (x : BitVec 8) : nlz8 x = 8 - (x.toNat.size : ℤ) := by
  apply nlzTail_inv
  apply nlzStep_inv _ 2
  apply nlzStep_inv _ 4
  exact ⟨rfl, x.isLt⟩

theorem nlz16_eq (x : BitVec 16) : nlz16 x = 16 - (x.toNat.size : ℤ) := by
  apply nlzTail_inv
  apply nlzStep_inv _ 2
  apply nlzStep_inv _ 4
  apply nlzStep_inv _ 8
  exact ⟨rfl, x.isLt⟩

theorem nlz32_eq (x : BitVec 32) : nlz32 x = 32 - (x.toNat.size : ℤ) := by
  apply nlzTail_inv
  apply nlzStep_inv _ 2
  apply nlzStep_inv _ 4
  apply nlzStep_inv _ 8
  apply nlzStep_inv _ 16
  exact ⟨rfl, x.isLt⟩

theorem nlz64_eq (x : BitVec 64) : nlz64 x = 64 - (x.toNat.size : ℤ) := by
  apply nlzTail_inv
  apply nlzStep_inv _ 2
  apply nlzStep_inv _ 4
  apply nlzStep_inv _ 8
  apply nlzStep_inv _ 16
  apply nlzStep_inv _ 32
  exact ⟨rfl, x.isLt⟩

theorem isLeadingZeros_of_size (w x : ℕ) (hx : x < 2 ^ w) :
    Spec.IsLeadingZeros w x ((w : ℤ) - (x.size : ℤ)) := by
  have hs : x.size ≤ w := Nat.size_le.2 hx
  refine ⟨by omega, by omega, ?_, ?_⟩
  · intro j h1 _
    apply Nat.testBit_lt_two_pow
    rw [← Nat.size_le]; omega
  · intro h
    have hpos : 0 < x.size := by omega
    refine ⟨x.size - 1, by omega, ?_⟩
    have h1 : 2 ^ (x.size - 1) ≤ x := Nat.lt_size.1 (by omega)
    have h2 : x < 2 ^ (x.size - 1 + 1) := by
      rw [← Nat.size_le]; omega
    rw [Nat.testBit_eq_decide_div_mod_eq]
    have h3 : x / 2 ^ (x.size - 1) = 1 := by
      rw [pow_succ] at h2
      apply Nat.div_eq_of_lt_le <;> omega
    simp [h3]

/-! ### Bit smearing -/

/-- All the bits of `y` are the bits of `x` smeared downwards by less than `s`. -/
def Smeared (s x y : ℕ) : Prop := ∀ i, y.testBit i = true ↔ ∃ j < s, x.testBit (i + j) = true

theorem smeared_one (x : ℕ) : Smeared 1 x x := by
  intro i
  constructor
  · intro h; exact ⟨0, by omega, by simpa using h⟩
  · rintro ⟨j, hj, h⟩
    have : j = 0 := by omega
    simpa [this] using h

theorem smeared_step {s x y : ℕ} (h : Smeared s x y) : Smeared (2 * s) x (y ||| (y >>> s)) := by
  intro i
  rw [Nat.testBit_or, Nat.testBit_shiftRight, Bool.or_eq_true, h i, h (s + i)]
  constructor
  · rintro (⟨j, hj, h⟩ | ⟨j, hj, h⟩)
    · exact ⟨j, by omega, h⟩
    · exact ⟨s + j, by omega, by rw [← h]; congr 1; omega⟩
  · rintro ⟨j, hj, h⟩
    by_cases hjs : j < s
    · exact Or.inl ⟨j, hjs, h⟩
    · exact Or.inr ⟨j - s, by omega, by rw [← h]; congr 1; omega⟩

theorem smeared_full {w x y : ℕ} (hx : x < 2 ^ w) (h : Smeared w x y) : y = 2 ^ x.size - 1 := by
  apply Nat.eq_of_testBit_eq
  intro i
  rw [Bool.eq_iff_iff, h i, Nat.testBit_two_pow_sub_one, decide_eq_true_eq]
  constructor
  · rintro ⟨j, _, hj⟩
    have h1 : x.testBit (i + j) = true := hj
    have : 2 ^ (i + j) ≤ x := Nat.ge_two_pow_of_testBit h1
    rw [← Nat.lt_size] at this
    omega
  · intro hi
    have hs : x.size ≤ w := Nat.size_le.2 hx
    refine ⟨x.size - 1 - i, by omega, ?_⟩
    have := (isLeadingZeros_of_size w x hx).one (by omega)
    obtain ⟨j, hj, hb⟩ := this
    have : i + (x.size - 1 - i) = j := by omega
    rw [this]; exact hb

theorem floorPow2_size (x : ℕ) (hx : x ≠ 0) : Spec.IsFloorPow2 x (2 ^ (x.size - 1)) := by
  have hpos : 0 < x.size := Nat.size_pos.2 (by omega)
  constructor
  · exact ⟨⟨_, rfl⟩, Nat.lt_size.1 (by omega)⟩
  · rintro q ⟨⟨k, rfl⟩, hk⟩
    have := Nat.lt_size.2 hk
    exact Nat.pow_le_pow_right (by omega) (by omega)

theorem ceilPow2_size (x : ℕ) (hx : x ≠ 0) : Spec.IsCeilPow2 x (2 ^ ((x - 1).size)) := by
  constructor
  · refine ⟨⟨_, rfl⟩, ?_⟩
    have : x - 1 < 2 ^ (x - 1).size := Nat.lt_size_self _
    omega
  · rintro q ⟨⟨k, rfl⟩, hk⟩
    apply Nat.pow_le_pow_right (by omega)
    rw [Nat.size_le]; omega

/-- `x - (x >> 1)` on a full mask. -/
theorem mask_sub (n : ℕ) (hn : n ≠ 0) : (2 ^ n - 1) - (2 ^ n - 1) >>> 1 = 2 ^ (n - 1) := by
  obtain ⟨m, rfl⟩ := Nat.exists_eq_succ_of_ne_zero hn
  simp only [Nat.succ_eq_add_one, Nat.add_sub_cancel]
  rw [Nat.shiftRight_eq_div_pow]
  have : 0 < 2 ^ m := by positivity
  rw [pow_succ]
  omega

theorem toNat_sub_half {w : ℕ} (y : BitVec w) : (y - y >>> 1).toNat = y.toNat - y.toNat >>> 1 := by
  rw [BitVec.toNat_sub_of_le, BitVec.toNat_ushiftRight]
  rw [BitVec.le_def, BitVec.toNat_ushiftRight, Nat.shiftRight_eq_div_pow]
  exact Nat.div_le_self _ _

theorem flp2_core {w : ℕ} (x y : BitVec w) (h : Smeared w x.toNat y.toNat) :
    (y - y >>> 1).toNat = if x.toNat = 0 then 0 else 2 ^ (x.toNat.size - 1) := by
  rw [toNat_sub_half, smeared_full x.isLt h]
  split_ifs with h0
  · simp [h0]
  · apply mask_sub
    have := Nat.size_pos.2 (Nat.pos_of_ne_zero h0)
    omega

theorem flp2u8_eq (x : BitVec 8) :
    (flp2u8 x).toNat = if x.toNat = 0 then 0 else 2 ^ (x.toNat.size - 1) := by
  apply flp2_core
  simp only [BitVec.toNat_or, BitVec.toNat_ushiftRight]
  exact smeared_step (smeared_step (smeared_step (smeared_one _)))

theorem flp2u16_eq (x : BitVec 16) :
    (flp2u16 x).toNat = if x.toNat = 0 then 0 else 2 ^ (x.toNat.size - 1) := by
  apply flp2_core
  simp only [BitVec.toNat_or, BitVec.toNat_ushiftRight]
  exact smeared_step (smeared_step (smeared_step (smeared_step (smeared_one _))))

theorem flp2u32_eq (x : BitVec 32) :
    (flp2u32 x).toNat = if x.toNat = 0 then 0 else 2 ^ (x.toNat.size - 1) := by
  apply flp2_core
  simp only [BitVec.toNat_or, BitVec.toNat_ushiftRight]
  exact smeared_step (smeared_step (smeared_step (smeared_step (smeared_step (smeared_one _)))))

theorem flp2u64_eq (x : BitVec 64) :
    (flp2u64 x).toNat = if x.toNat = 0 then 0 else 2 ^ (x.toNat.size - 1) := by
  apply flp2_core
  simp only [BitVec.toNat_or, BitVec.toNat_ushiftRight]
  exact smeared_step (smeared_step (smeared_step (smeared_step (smeared_step (smeared_step (smeared_one _))))))

/-- Value computed by `clp2`, as a natural number. -/
def clp2Nat (w x : ℕ) : ℕ := if x = 0 ∨ 2 ^ (w - 1) < x then 0 else 2 ^ ((x - 1).size)

theorem clp2_core {w : ℕ} (hw : 0 < w) (x y : BitVec w) (h : Smeared w (x - 1#w).toNat y.toNat) :
    (y + 1#w).toNat = clp2Nat w x.toNat := by
  have h2w : (2 : ℕ) ≤ 2 ^ w := by
    calc 2 = 2 ^ 1 := rfl
      _ ≤ 2 ^ w := Nat.pow_le_pow_right (by omega) hw
  have hy := smeared_full (x - 1#w).isLt h
  have h1 : (1#w).toNat = 1 := by
    rw [BitVec.toNat_ofNat, Nat.mod_eq_of_lt (by omega)]
  rw [BitVec.toNat_add, hy, h1]
  unfold clp2Nat
  by_cases h0 : x.toNat = 0
  · rw [if_pos (Or.inl h0)]
    have : (x - 1#w).toNat = 2 ^ w - 1 := by
      rw [BitVec.toNat_sub, h1, h0, Nat.add_zero, Nat.mod_eq_of_lt (by omega)]
    rw [this]
    have hs : (2 ^ w - 1).size = w := by
      apply le_antisymm
      · rw [Nat.size_le]; omega
      · have : w - 1 < (2 ^ w - 1).size := by
          rw [Nat.lt_size]
          have : 2 ^ w = 2 ^ (w - 1) * 2 := by rw [← pow_succ]; congr 1; omega
          have : 0 < 2 ^ (w - 1) := by positivity
          omega
        omega
    rw [hs]
    have : 2 ^ w - 1 + 1 = 2 ^ w := by omega
    rw [this, Nat.mod_self]
  · have hx : (x - 1#w).toNat = x.toNat - 1 := by
      rw [BitVec.toNat_sub_of_le, h1]
      rw [BitVec.le_def, h1]; omega
    rw [hx]
    have hpos : 0 < 2 ^ (x.toNat - 1).size := by positivity
    have : 2 ^ (x.toNat - 1).size - 1 + 1 = 2 ^ (x.toNat - 1).size := by omega
    rw [this]
    by_cases hbig : 2 ^ (w - 1) < x.toNat
    · rw [if_pos (Or.inr hbig)]
      have hs : (x.toNat - 1).size = w := by
        apply le_antisymm
        · rw [Nat.size_le]; have := x.isLt; omega
        · have : w - 1 < (x.toNat - 1).size := by rw [Nat.lt_size]; omega
          omega
      rw [hs, Nat.mod_self]
    · rw [if_neg (by rintro (h | h) <;> omega)]
      apply Nat.mod_eq_of_lt
      apply Nat.pow_lt_pow_right (by omega)
      have : (x.toNat - 1).size ≤ w - 1 := by rw [Nat.size_le]; omega
      omega

theorem clp2u8_eq (x : BitVec 8) : (clp2u8 x).toNat = clp2Nat 8 x.toNat := by
  apply clp2_core (by omega)
  simp only [BitVec.toNat_or, BitVec.toNat_ushiftRight]
  exact smeared_step (smeared_step (smeared_step (smeared_one _)))

theorem clp2u16_eq (x : BitVec 16) : (clp2u16 x).toNat = clp2Nat 16 x.toNat := by
  apply clp2_core (by omega)
  simp only [BitVec.toNat_or, BitVec.toNat_ushiftRight]
  exact smeared_step (smeared_step (smeared_step (smeared_step (smeared_one _))))

theorem clp2u32_eq (x : BitVec 32) : (clp2u32 x).toNat = clp2Nat 32 x.toNat := by
  apply clp2_core (by omega)
  simp only [BitVec.toNat_or, BitVec.toNat_ushiftRight]
  exact smeared_step (smeared_step (smeared_step (smeared_step (smeared_step (smeared_one _)))))

theorem clp2u64_eq (x : BitVec 64) : (clp2u64 x).toNat = clp2Nat 64 x.toNat := by
  apply clp2_core (by omega)
  simp only [BitVec.toNat_or, BitVec.toNat_ushiftRight]
  exact smeared_step (smeared_step (smeared_step (smeared_step (smeared_step (smeared_step (smeared_one _))))))

end Verif.BitManip
