import Verif.Ieee.Ops

/-!
Packing and unpacking: a number of the format is recovered from its bits, too large numbers become infinite.
-/
namespace Verif.Ieee
open Float.Model Float.Model.UnpackedFloat

variable {spec : Format}

/-- The exponent of the largest numbers. -/
def maxExponent (spec : Format) : ℤ := 2 ^ (spec.exponentBits - 1) - spec.mantissaBits

/-- The numbers of the format. -/
def Repr (spec : Format) : UnpackedFloat → Prop
  | .finite s m e h => Canon spec (.finite s m e h) ∧ e ≤ maxExponent spec
  | _ => True

theorem unpackSign_packComponents {sign exponent mantissa} : unpackSign (packComponents spec sign exponent mantissa) = sign.toBitVec := by
  ext i hi
  have : i = 0 := by omega
  subst this
  simp [unpackSign, packComponents, BitVec.getElem_append, BitVec.getLsbD_append, BitVec.getLsbD_eq_getElem]

theorem ofBitVec_toBitVec (s : Sign) : Sign.ofBitVec s.toBitVec = s := by cases s <;> rfl

theorem mantissaBits_eq (spec : Format) : spec.mantissaBits = 1 + spec.mantissaBitsWithoutImplicit := rfl

theorem bias_eq (spec : Format) : (spec.exponentBias : ℤ) = 2 ^ (spec.exponentBits - 1) - 1 := by
  unfold Format.exponentBias
  have : 1 ≤ 2 ^ (spec.exponentBits - 1) := Nat.one_le_two_pow
  push_cast [Nat.cast_sub this]
  rfl

theorem two_pow_eb (spec : Format) : (2 : ℤ) ^ spec.exponentBits = 2 * 2 ^ (spec.exponentBits - 1) := by
  obtain ⟨k, hk⟩ : ∃ k, spec.exponentBits = k + 1 := ⟨spec.exponentBits - 1, by have := spec.he; omega⟩
  rw [hk, pow_succ]
  simp [mul_comm]

/-- Unpacking given the three components. -/
def unpackOf (spec : Format) (E : BitVec spec.exponentBits) (M : BitVec spec.mantissaBitsWithoutImplicit) (S : Sign) : UnpackedFloat :=
  if E = -1#_ then
    if M = 0#_ then .infinity S else .notANumber
  else if E = 0#_ then
    if h : M = 0#_ then .zero S
    else .finite S M.toNat (E.toNat - (spec.exponentBias + spec.mantissaBitsWithoutImplicit) + 1)
      (by rw [← BitVec.toNat_inj] at h; simp at h; omega)
  else .finite S (1#1 ++ M).toNat (E.toNat - (spec.exponentBias + spec.mantissaBitsWithoutImplicit))
    (by
      rw [BitVec.toNat_append, BitVec.toNat_ofNat, Nat.shiftLeft_eq, show 1 % 2 ^ 1 = 1 by norm_num, Nat.one_mul]
      exact lt_of_lt_of_le (Nat.two_pow_pos _) Nat.left_le_or)

theorem unpack_eq_unpackOf {b : BitVec spec.numBits} {E M S} (hE : unpackExponent b = E) (hM : unpackMantissa b = M)
    (hS : Sign.ofBitVec (unpackSign b) = S) : UnpackedFloat.unpack spec b = unpackOf spec E M S := by
  subst hE hM hS
  rfl

theorem unpack_packComponents (s : Sign) (E : BitVec spec.exponentBits) (M : BitVec spec.mantissaBitsWithoutImplicit) :
    UnpackedFloat.unpack spec (packComponents spec s E M) = unpackOf spec E M s :=
  unpack_eq_unpackOf unpackExponent_packComponents unpackMantissa_packComponents (by rw [unpackSign_packComponents, ofBitVec_toBitVec])

/-- The bits of a number of the format give it back. -/
theorem unpack_pack (heb : 2 ≤ spec.exponentBits) {x : UnpackedFloat} (h : Repr spec x) : unpack spec (pack spec x) = x := by
  have hne : (-1#spec.exponentBits) ≠ 0#spec.exponentBits := by
    rw [ne_eq, BitVec.neg_one_eq_allOnes, ← BitVec.toNat_inj]
    simp only [BitVec.toNat_allOnes, BitVec.toNat_ofNat, Nat.zero_mod]
    have : 2 ^ 2 ≤ 2 ^ spec.exponentBits := Nat.pow_le_pow_right (by norm_num) heb
    omega
  cases x with
  | infinity s =>
    unfold UnpackedFloat.pack packedInfinity
    rw [unpack_packComponents, unpackOf, if_pos rfl]
    exact if_pos rfl
  | notANumber =>
    unfold UnpackedFloat.pack packedNaN
    rw [unpack_packComponents, unpackOf, if_pos rfl, if_neg]
    rw [← BitVec.toNat_inj]
    have hm := spec.hm
    simp only [BitVec.toNat_shiftLeft, BitVec.toNat_ofNat, Nat.zero_mod, Nat.shiftLeft_eq]
    have h1 : 1 % 2 ^ spec.mantissaBitsWithoutImplicit = 1 := Nat.mod_eq_of_lt (Nat.one_lt_two_pow hm.ne')
    rw [h1, one_mul, Nat.mod_eq_of_lt (Nat.pow_lt_pow_right (by norm_num) (by omega))]
    positivity
  | zero s =>
    unfold UnpackedFloat.pack packedZero
    rw [unpack_packComponents, unpackOf, if_neg (fun h => hne h.symm)]
    exact (if_pos rfl).trans (dif_pos rfl)
  | finite s m e hm =>
    obtain ⟨⟨h1, h2, h3⟩, h4⟩ := h
    have hb := bias_eq spec
    have hp := mantissaBits_eq spec
    have heb2 := two_pow_eb spec
    have hk : (1 : ℤ) ≤ 2 ^ (spec.exponentBits - 1) := by exact_mod_cast Nat.one_le_two_pow
    unfold Format.minExponent at h2 h3
    unfold maxExponent at h4
    generalize hK : (2 : ℤ) ^ (spec.exponentBits - 1) = K at *
    have hpN : (spec.mantissaBits : ℤ) = 1 + spec.mantissaBitsWithoutImplicit := by rw [hp]; push_cast; ring
    obtain ⟨B, hB⟩ : ∃ B : ℕ, B = (e + spec.exponentBias + spec.mantissaBitsWithoutImplicit).toNat := ⟨_, rfl⟩
    have hBe : (B : ℤ) = e + spec.exponentBias + spec.mantissaBitsWithoutImplicit := by omega
    have hB1 : 1 ≤ B := by omega
    have hB2 : B + 1 < 2 ^ spec.exponentBits := by
      have : ((B + 1 : ℕ) : ℤ) < ((2 ^ spec.exponentBits : ℕ) : ℤ) := by push_cast; omega
      exact_mod_cast this
    unfold UnpackedFloat.pack
    dsimp only
    rw [← hB, if_neg (by omega)]
    split_ifs with hn
    · -- normal
      have hlow : 2 ^ spec.mantissaBitsWithoutImplicit ≤ m := by
        have := (log2_bounds hm).1
        have h5 : m.log2 = spec.mantissaBitsWithoutImplicit := by omega
        rwa [h5] at this
      rw [unpack_packComponents, unpackOf, if_neg, if_neg]
      · have hA : (1#1 ++ BitVec.ofNat spec.mantissaBitsWithoutImplicit m).toNat = m := by
          rw [BitVec.toNat_append, BitVec.toNat_ofNat, BitVec.toNat_ofNat]
          have h7 : m % 2 ^ spec.mantissaBitsWithoutImplicit = m - 2 ^ spec.mantissaBitsWithoutImplicit := by
            rw [Nat.mod_eq_sub_mod hlow, Nat.mod_eq_of_lt]
            rw [hp, pow_add] at h1
            omega
          rw [h7]
          have h8 : m - 2 ^ spec.mantissaBitsWithoutImplicit < 2 ^ spec.mantissaBitsWithoutImplicit := by
            rw [hp, pow_add] at h1
            omega
          rw [Nat.shiftLeft_eq, show 1 % 2 ^ 1 = 1 by norm_num, Nat.one_mul]
          have h9 := Nat.two_pow_add_eq_or_of_lt h8 1
          rw [mul_one] at h9
          rw [← h9]
          omega
        have hE : (((BitVec.ofNat spec.exponentBits B).toNat : ℕ) : ℤ) - (spec.exponentBias + spec.mantissaBitsWithoutImplicit) = e := by
          rw [BitVec.toNat_ofNat, Nat.mod_eq_of_lt (by omega)]
          omega
        simp only [hA, hE]
      · rw [← BitVec.toNat_inj, BitVec.toNat_ofNat, BitVec.toNat_ofNat, Nat.mod_eq_of_lt (by omega), Nat.zero_mod]
        omega
      · rw [BitVec.neg_one_eq_allOnes, ← BitVec.toNat_inj, BitVec.toNat_ofNat, BitVec.toNat_allOnes, Nat.mod_eq_of_lt (by omega)]
        omega
    · -- subnormal
      have hlog : m.log2 < spec.mantissaBits := (Nat.log2_lt hm.ne').2 h1
      have hup : m < 2 ^ spec.mantissaBitsWithoutImplicit := by
        have := (log2_bounds hm).2
        exact lt_of_lt_of_le this (Nat.pow_le_pow_right (by norm_num) (by omega))
      have hE : e = 3 - K - spec.mantissaBits := by
        rcases h3 with h3 | h3
        · exfalso
          rw [hp] at h3
          simp at h3
          omega
        · exact h3
      have hm0 : BitVec.ofNat spec.mantissaBitsWithoutImplicit m ≠ 0#_ := by
        rw [ne_eq, ← BitVec.toNat_inj, BitVec.toNat_ofNat, BitVec.toNat_ofNat, Nat.mod_eq_of_lt hup, Nat.zero_mod]
        omega
      rw [unpack_packComponents, unpackOf, if_neg (fun h => hne h.symm), if_pos rfl]
      rw [dif_neg hm0]
      have hM : (BitVec.ofNat spec.mantissaBitsWithoutImplicit m).toNat = m := by
        rw [BitVec.toNat_ofNat, Nat.mod_eq_of_lt hup]
      have hE' : (((0#spec.exponentBits).toNat : ℕ) : ℤ) - (spec.exponentBias + spec.mantissaBitsWithoutImplicit) + 1 = e := by
        rw [BitVec.toNat_ofNat, Nat.zero_mod]
        push_cast
        omega
      simp only [hM, hE']

/-- What unpacking yields is a number of the format. -/
theorem repr_unpack (heb : 2 ≤ spec.exponentBits) (b : BitVec spec.numBits) : Repr spec (unpack spec b) := by
  have hb := bias_eq spec
  have hp := mantissaBits_eq spec
  have heb2 := two_pow_eb spec
  have hk : (2 : ℤ) ≤ 2 ^ (spec.exponentBits - 1) := by
    have := Nat.pow_le_pow_right (n := 2) (by norm_num) (show 1 ≤ spec.exponentBits - 1 by omega)
    rw [pow_one] at this
    exact_mod_cast this
  have hpN : (spec.mantissaBits : ℤ) = 1 + spec.mantissaBitsWithoutImplicit := by rw [hp]; push_cast; ring
  rw [unpack_eq_unpackOf (b := b) rfl rfl rfl]
  generalize unpackExponent b = E
  generalize unpackMantissa b = M
  unfold unpackOf
  have hM := M.isLt
  have hE := E.isLt
  have hE' : (E.toNat : ℤ) < 2 ^ spec.exponentBits := by exact_mod_cast hE
  split_ifs with h1 h2 h3 h4
  · trivial
  · trivial
  · trivial
  · refine ⟨⟨?_, ?_, ?_⟩, ?_⟩
    · rw [hp, pow_add]
      omega
    · rw [h3]
      unfold Format.minExponent
      simp only [BitVec.toNat_ofNat, Nat.zero_mod]
      push_cast
      omega
    · right
      rw [h3]
      unfold Format.minExponent
      simp only [BitVec.toNat_ofNat, Nat.zero_mod]
      push_cast
      omega
    · rw [h3]
      unfold maxExponent
      simp only [BitVec.toNat_ofNat, Nat.zero_mod]
      push_cast
      omega
  · have hA : (1#1 ++ M).toNat = 2 ^ spec.mantissaBitsWithoutImplicit + M.toNat := by
      rw [BitVec.toNat_append, BitVec.toNat_ofNat, Nat.shiftLeft_eq, show 1 % 2 ^ 1 = 1 by norm_num, Nat.one_mul]
      have h9 := Nat.two_pow_add_eq_or_of_lt hM 1
      rw [mul_one] at h9
      exact h9.symm
    have hE0 : 1 ≤ E.toNat := by
      rcases Nat.eq_zero_or_pos E.toNat with h | h
      · exfalso
        apply h3
        rw [← BitVec.toNat_inj, h]
        simp
      · exact h
    have hE1 : E.toNat + 1 < 2 ^ spec.exponentBits := by
      by_contra hc
      apply h1
      rw [BitVec.neg_one_eq_allOnes, ← BitVec.toNat_inj, BitVec.toNat_allOnes]
      omega
    have hE1' : (E.toNat : ℤ) + 1 < 2 ^ spec.exponentBits := by exact_mod_cast hE1
    refine ⟨⟨?_, ?_, ?_⟩, ?_⟩
    · rw [hA, hp, pow_add]
      omega
    · unfold Format.minExponent
      omega
    · left
      rw [hA, hp]
      simp
    · unfold maxExponent
      omega

end Verif.Ieee
