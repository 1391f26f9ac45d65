import Verif.MortonFloat.Lemmas
import Verif.Morton.Interval

/-! Lemmas on `intervalPow2Float` and `mortonSplitFloat` for `float`. -/
namespace Verif.MortonFloat
open Verif.NumericTraits Verif.BitManip Verif.MortonFloat.Spec Verif.Morton

/-- The mantissa `m` (with implicit bit) at exponent field `E` as a pattern without sign; a zero mantissa is the number zero. -/
def pat (E m : ℕ) : ℕ := if m = 0 then 0 else E * 2 ^ 23 + (m - 2 ^ 23)

theorem bound_eq (E : ℕ) (hE : E ≤ 254) (x : BitVec 32) (s : Bool) (hx : x.toNat = 0 ∨ (2 ^ 23 ≤ x.toNat ∧ x.toNat < 2 ^ 24)) :
    ∃ f : BitVec 32, bound .f32 x ((E : ℤ) - 127) s = .ok f ∧ f.toNat = pat E x.toNat + (if s then 1 else 0) * 2 ^ 31 := by
  unfold bound pat
  by_cases h0 : x = 0#32
  · subst h0
    rw [if_neg (by simp)]
    obtain ⟨f, hf, hv⟩ := setF_toNat (BitVec.ofInt 32 (0#32).toInt) (BitVec.ofInt 32 (-127)) s (by decide) (by decide)
    refine ⟨f, hf, ?_⟩
    rw [hv]
    have e1 : (BitVec.ofInt 32 (0#32).toInt).toNat % 2 ^ 23 = 0 := by decide
    have e2 : ((BitVec.ofInt 32 (-127)).toInt + 127).toNat * 2 ^ 23 = 0 := by decide
    rw [e1, e2]; rfl
  · have hne : x.toNat ≠ 0 := fun h => h0 (BitVec.eq_of_toNat_eq h)
    have hx' : 2 ^ 23 ≤ x.toNat ∧ x.toNat < 2 ^ 24 := by
      rcases hx with h | h
      · exact absurd h hne
      · exact h
    rw [if_pos h0, if_neg hne]
    have hi : (BitVec.ofInt 32 (FTy.mantissaImplicitBit .f32)).toNat = 2 ^ 23 := by decide
    have hxor : (x ^^^ BitVec.ofInt 32 (FTy.mantissaImplicitBit .f32)).toNat = x.toNat - 2 ^ 23 := by
      rw [BitVec.toNat_xor, hi]
      exact xor_two_pow_of_ge hx'.1 (by omega)
    have hti : (x ^^^ BitVec.ofInt 32 (FTy.mantissaImplicitBit .f32)).toInt = ((x.toNat - 2 ^ 23 : ℕ) : ℤ) := by
      rw [toInt_of_small (by norm_num) _ (by rw [hxor]; omega), hxor]
    have he : (BitVec.ofInt 32 ((E : ℤ) - 127)).toInt = (E : ℤ) - 127 :=
      toInt_ofInt_small (by norm_num) _ (by norm_num; omega) (by norm_num; omega)
    have hm : (BitVec.ofInt 32 ((x.toNat - 2 ^ 23 : ℕ) : ℤ)).toNat = x.toNat - 2 ^ 23 := by
      rw [toNat_ofInt_small _ (by omega) (by omega), Int.toNat_natCast]
    obtain ⟨f, hf, hv⟩ := setF_toNat (BitVec.ofInt 32 ((x.toNat - 2 ^ 23 : ℕ) : ℤ)) (BitVec.ofInt 32 ((E : ℤ) - 127)) s (by omega) (by omega)
    refine ⟨f, ?_, ?_⟩
    · erw [hti]; exact hf
    · rw [he, hm] at hv
      have e1 : ((E : ℤ) - 127 + 127).toNat = E := by omega
      have e2 : (x.toNat - 2 ^ 23) % 2 ^ 23 = x.toNat - 2 ^ 23 := Nat.mod_eq_of_lt (by omega)
      rw [e1, e2] at hv
      refine hv.trans ?_
      rw [Nat.add_comm (x.toNat - 2 ^ 23) (E * 2 ^ 23)]

theorem and_not_mask (x : BitVec 32) {k : ℕ} (hk : k < 32) : (x &&& ~~~(BitVec.ofInt 32 (2 ^ k - 1))).toNat = x.toNat / 2 ^ k * 2 ^ k := by
  have := low_bias .u32 x hk
  rw [bias_unsigned rfl, bias_unsigned rfl] at this
  exact this

theorem or_low (x m : BitVec 32) {k : ℕ} (hk : k < 32) (hm : m.toNat < 2 ^ k) {b : ℕ} (hx : x.toNat = b * 2 ^ k) :
    (x ||| m).toNat = b * 2 ^ k + m.toNat := by
  have := or_low_bias .u32 x m hk hm (b := b) (by rw [bias_unsigned rfl]; exact hx)
  rw [bias_unsigned rfl] at this
  exact this

/-- Length of the aligned difference. -/
def gap (E1 m1 E2 m2 : ℕ) : ℕ := if E1 < E2 then 24 else (m1 ^^^ m2).size

theorem gap_pos {E1 m1 E2 m2 : ℕ} (h : E1 ≤ E2) (h' : E1 = E2 → m1 < m2) : 0 < gap E1 m1 E2 m2 := by
  unfold gap
  split
  · norm_num
  · apply Nat.pos_of_ne_zero
    rw [Ne, Nat.size_eq_zero, Nat.xor_eq_zero_iff]
    have := h' (by omega)
    omega

theorem gap_le {E1 m1 E2 m2 : ℕ} (h1 : m1 < 2 ^ 23) (h2 : m2 < 2 ^ 23) : gap E1 m1 E2 m2 ≤ 24 ∧ (E1 < E2 ∨ gap E1 m1 E2 m2 ≤ 23) := by
  unfold gap
  split
  · rename_i h; exact ⟨le_refl _, Or.inl h⟩
  · have := Nat.size_le.2 (Nat.xor_lt_two_pow h1 h2); exact ⟨by omega, Or.inr this⟩

/-- The patterns of the interval bounds. -/
structure GoodBounds (E k F : ℕ) (s : Bool) (r : Pow2Interval 32) : Prop where
  level : r.level = (E : ℤ) - 150 + k
  near : (if s then r.upp else r.low).toNat = pat E (F / 2 ^ k * 2 ^ k) + (if s then 1 else 0) * 2 ^ 31
  mid : r.mid.toNat = pat E (F / 2 ^ k * 2 ^ k + 2 ^ (k - 1)) + (if s then 1 else 0) * 2 ^ 31
  far : (if s then r.low else r.upp).toNat = pat E (F / 2 ^ k * 2 ^ k + (2 ^ k - 1)) + (if s then 1 else 0) * 2 ^ 31

theorem level_step {E1 m1 E2 m2 : ℕ} (h1 : m1 < 2 ^ 23) (h2 : m2 < 2 ^ 23) (hE : E1 ≤ E2) :
    levelF .f32 (BitVec.ofInt 32 (m1 : ℤ) ||| BitVec.ofInt 32 (FTy.mantissaImplicitBit .f32))
      (BitVec.ofInt 32 (m2 : ℤ) ||| BitVec.ofInt 32 (FTy.mantissaImplicitBit .f32)) (((E2 : ℤ) - 127) - ((E1 : ℤ) - 127)) =
      .ok (gap E1 m1 E2 m2 : ℤ) := by
  have i1 := implicit_toNat h1
  have i2 := implicit_toNat h2
  have hb : ((FTy.mantissaBits .f32 : ℕ) : ℤ) = 23 := rfl
  have hn : ∀ x : BitVec 32, ((FTy.f32.w : ℕ) : ℤ) - nlzF .f32 x = x.toNat.size := by
    intro x
    have : nlzF .f32 x = nlz32 x := rfl
    rw [this, nlz32_eq]
    show (32 : ℤ) - _ = _
    omega
  unfold levelF
  rw [hb, hn]
  by_cases hc : ((E2 : ℤ) - 127) - ((E1 : ℤ) - 127) ≤ 23
  · rw [if_pos hc]
    unfold shr
    rw [if_neg (by show ¬ (_ ∨ (32 : ℤ) ≤ _); omega), bind_ok, hn]
    have e : ((E2 : ℤ) - 127 - ((E1 : ℤ) - 127)).toNat = E2 - E1 := by omega
    have hsh : ((BitVec.ofInt 32 (m1 : ℤ) ||| BitVec.ofInt 32 (FTy.mantissaImplicitBit .f32)).sshiftRight ((E2 : ℤ) - 127 - ((E1 : ℤ) - 127)).toNat).toNat =
        (2 ^ 23 + m1) / 2 ^ (E2 - E1) := by
      rw [e, BitVec.sshiftRight_eq_of_msb_false, BitVec.toNat_ushiftRight, i1, Nat.shiftRight_eq_div_pow]
      rw [BitVec.msb_eq_false_iff_two_mul_lt, i1]
      omega
    rw [BitVec.toNat_xor, i2, hsh]
    show Except.ok _ = _
    congr 2
    unfold gap
    split
    · rename_i hlt
      have : (2 ^ 23 + m1) / 2 ^ (E2 - E1) ≤ (2 ^ 23 + m1) / 2 ^ 1 :=
        Nat.div_le_div_left (Nat.pow_le_pow_right (by norm_num) (by omega)) (by norm_num)
      rw [size_xor_bit (by omega) (by omega) (by omega)]
    · rw [show E2 - E1 = 0 by omega, pow_zero, Nat.div_one]
      have := xor_cancel (n := 23) (c := 1) h2 h1
      rw [Nat.mul_one] at this
      rw [this, Nat.xor_comm]
  · rw [if_neg hc, i2]
    unfold gap
    rw [if_pos (by omega)]
    have := size_xor_bit (x := 2 ^ 23 + m2) (y := 0) (by omega) (by omega) (by norm_num)
    rw [Nat.xor_zero] at this
    rw [this]

theorem ordered_good (shlNeg : Outcome Int) {E1 m1 E2 m2 : ℕ} (h1 : m1 < 2 ^ 23) (h2 : m2 < 2 ^ 23) (hE : E1 ≤ E2)
    (hne : E1 = E2 → m1 < m2) (h254 : E2 ≤ 254) (s : Bool) :
    ∃ r : Pow2Interval 32, intervalOrdered shlNeg .f32 m1 ((E1 : ℤ) - 127) m2 ((E2 : ℤ) - 127) s = .ok r ∧
      GoodBounds E2 (gap E1 m1 E2 m2) (2 ^ 23 + m2) s r := by
  have hlev := level_step h1 h2 hE
  have k0 := gap_pos (m1 := m1) (m2 := m2) hE hne
  obtain ⟨k24, k23⟩ := gap_le (E1 := E1) (E2 := E2) h1 h2
  have i2 := implicit_toNat h2
  unfold intervalOrdered
  dsimp only
  erw [hlev]
  rw [bind_ok]
  generalize hF : (BitVec.ofInt 32 (m2 : ℤ) ||| BitVec.ofInt 32 (FTy.mantissaImplicitBit .f32)) = fm at *
  clear hlev
  generalize gap E1 m1 E2 m2 = k at *
  rw [shl1_small (by omega), bind_ok, int_mask (by omega), bind_ok]
  have hhalf : half shlNeg (k : ℤ) = .ok (2 ^ (k - 1)) := by
    unfold half
    rw [if_neg (by omega), show (k : ℤ) - 1 = ((k - 1 : ℕ) : ℤ) by omega, shl1_small (by omega)]
  rw [hhalf, bind_ok]
  have hlow := and_not_mask fm (k := k) (by omega)
  have hmask := ofInt_mask_toNat (w := 32) (k := k) (by omega)
  have hpow := ofInt_pow_toNat (w := 32) (k := k - 1) (by omega)
  have hp : 0 < 2 ^ k := by positivity
  have hp1 : 0 < 2 ^ (k - 1) := by positivity
  have hp2 : 2 ^ k = 2 * 2 ^ (k - 1) := by rw [← pow_succ']; congr 1; omega
  have hupp := or_low (fm &&& ~~~(BitVec.ofInt 32 (2 ^ k - 1))) (BitVec.ofInt 32 (2 ^ k - 1)) (by omega) (by rw [hmask]; omega) hlow
  have hmid := or_low (fm &&& ~~~(BitVec.ofInt 32 (2 ^ k - 1))) (BitVec.ofInt 32 (2 ^ (k - 1))) (k := k) (by omega) (by rw [hpow]; omega) hlow
  rw [hmask, i2] at hupp
  rw [hpow, i2] at hmid
  rw [i2] at hlow
  have hL : ((2 ^ 23 + m2) / 2 ^ k * 2 ^ k = 0 ∧ k = 24) ∨ (2 ^ 23 ≤ (2 ^ 23 + m2) / 2 ^ k * 2 ^ k ∧ k ≤ 23) := by
    rcases Nat.lt_or_ge k 24 with h | h
    · right
      refine ⟨?_, by omega⟩
      have e : 2 ^ 23 = 2 ^ (23 - k) * 2 ^ k := by rw [← pow_add]; congr 1; omega
      calc 2 ^ 23 = 2 ^ (23 - k) * 2 ^ k := e
        _ ≤ (2 ^ 23 + m2) / 2 ^ k * 2 ^ k := Nat.mul_le_mul_right _ ((Nat.le_div_iff_mul_le hp).2 (by omega))
    · left
      have : k = 24 := by omega
      subst this
      refine ⟨?_, rfl⟩
      rw [Nat.div_eq_of_lt (by omega), Nat.zero_mul]
  have hU : (2 ^ 23 + m2) / 2 ^ k * 2 ^ k + 2 ^ k ≤ 2 ^ 24 := by
    have e : 2 ^ 24 = 2 ^ (24 - k) * 2 ^ k := by rw [← pow_add]; congr 1; omega
    have : (2 ^ 23 + m2) / 2 ^ k < 2 ^ (24 - k) := by rw [Nat.div_lt_iff_lt_mul hp]; omega
    calc (2 ^ 23 + m2) / 2 ^ k * 2 ^ k + 2 ^ k = ((2 ^ 23 + m2) / 2 ^ k + 1) * 2 ^ k := by ring
      _ ≤ 2 ^ (24 - k) * 2 ^ k := Nat.mul_le_mul_right _ this
      _ = 2 ^ 24 := e.symm
  have h2k : 2 ^ (k - 1) = 2 ^ 23 ∨ k ≤ 23 := by
    rcases Nat.lt_or_ge k 24 with h | h
    · right; omega
    · left; congr 1; omega
  obtain ⟨f1, hf1, v1⟩ := bound_eq E2 h254 (fm &&& ~~~(BitVec.ofInt 32 (2 ^ k - 1))) s (by rw [hlow]; omega)
  obtain ⟨f2, hf2, v2⟩ := bound_eq E2 h254 ((fm &&& ~~~(BitVec.ofInt 32 (2 ^ k - 1))) ||| BitVec.ofInt 32 (2 ^ (k - 1))) s (by rw [hmid]; omega)
  obtain ⟨f3, hf3, v3⟩ := bound_eq E2 h254 ((fm &&& ~~~(BitVec.ofInt 32 (2 ^ k - 1))) ||| BitVec.ofInt 32 (2 ^ k - 1)) s (by rw [hupp]; omega)
  erw [hf1, hf2, hf3]
  rw [hlow] at v1
  rw [hmid] at v2
  rw [hupp] at v3
  have hb : ((FTy.mantissaBits .f32 : ℕ) : ℤ) = 23 := rfl
  cases s
  · exact ⟨_, rfl, ⟨by show _ - _ + (k : ℤ) - _ = _; rw [hb]; omega, v1, v2, v3⟩⟩
  · exact ⟨_, rfl, ⟨by show _ - _ + (k : ℤ) - _ = _; rw [hb]; omega, v1, v2, v3⟩⟩

/-! ### Values of the bounds -/

/-- Value, in units of 2^-150, of the mantissa `m` (with implicit bit) at exponent field `E`. -/
def val (E m : ℕ) : ℕ := if E = 0 then 2 * (m - 2 ^ 23) else m * 2 ^ E

theorem absScaled_eq (a : BitVec 32) : absScaled a = val (expo a) (2 ^ 23 + frac a) := by
  unfold absScaled val
  split
  · omega
  · rfl

theorem pat_fields {f : BitVec 32} {E m : ℕ} {s : Bool} (hE : E ≤ 254) (hm : m = 0 ∨ (2 ^ 23 ≤ m ∧ m < 2 ^ 24))
    (h : f.toNat = pat E m + (if s then 1 else 0) * 2 ^ 31) : neg f = s ∧ absScaled f = val E m ∧ expo f ≤ 254 := by
  obtain ⟨S, hS, h⟩ : ∃ S : ℕ, ((s = false ∧ S = 0) ∨ (s = true ∧ S = 2147483648)) ∧ f.toNat = pat E m + S := by
    cases s
    · exact ⟨0, Or.inl ⟨rfl, rfl⟩, by rw [h, if_neg (by simp), Nat.zero_mul]⟩
    · exact ⟨2147483648, Or.inr ⟨rfl, rfl⟩, by rw [h, if_pos rfl, Nat.one_mul]; norm_num⟩
  have hpat : pat E m < 2 ^ 31 := by unfold pat; split <;> omega
  have hn : neg f = s := by
    unfold neg
    rcases hS with ⟨rfl, h'⟩ | ⟨rfl, h'⟩
    · rw [decide_eq_false_iff_not]; omega
    · rw [decide_eq_true_eq]; omega
  have he : expo f = pat E m / 2 ^ 23 := by unfold expo; omega
  have hf : frac f = pat E m % 2 ^ 23 := by unfold frac; omega
  rcases hm with rfl | ⟨h1, h2⟩
  · have hp : pat E 0 = 0 := if_pos rfl
    rw [hp, Nat.zero_div] at he
    rw [hp, Nat.zero_mod] at hf
    refine ⟨hn, ?_, by omega⟩
    unfold absScaled val
    rw [he, hf, if_pos rfl]
    split
    · rfl
    · exact (Nat.zero_mul _).symm
  · have hp : pat E m = E * 2 ^ 23 + (m - 2 ^ 23) := if_neg (by omega)
    rw [hp] at he hf
    have he' : expo f = E := by omega
    have hf' : frac f = m - 2 ^ 23 := by omega
    refine ⟨hn, ?_, by omega⟩
    rw [absScaled_eq, he', hf', Nat.add_sub_cancel' h1]

/-- The size of the xor of the magnitudes. -/
theorem absSize {a b : BitVec 32} (hle : expo a ≤ expo b) (hne : expo a = expo b → frac a < frac b) :
    (absScaled a ^^^ absScaled b).size = gap (expo a) (frac a) (expo b) (frac b) + max 1 (expo b) := by
  have fa := frac_lt a
  have fb := frac_lt b
  unfold gap
  rcases Nat.lt_or_ge (expo a) (expo b) with h | h
  · rw [if_pos h, show 24 + max 1 (expo b) = (23 + expo b) + 1 by omega]
    have hb : absScaled b = (2 ^ 23 + frac b) * 2 ^ expo b := by unfold absScaled; rw [if_neg (by omega)]
    have hP : 0 < 2 ^ expo b := by positivity
    have h1 : 2 ^ 23 * 2 ^ expo b ≤ absScaled b := by rw [hb]; exact Nat.mul_le_mul_right _ (by omega)
    have h2 : absScaled b < 2 ^ 24 * 2 ^ expo b := by rw [hb]; exact Nat.mul_lt_mul_of_pos_right (by omega) hP
    have h3 : absScaled a < 2 ^ 23 * 2 ^ expo b := by
      unfold absScaled
      split
      · calc 2 * frac a < 2 ^ 23 * 2 := by omega
          _ ≤ 2 ^ 23 * 2 ^ expo b := Nat.mul_le_mul_left _ (by
            calc 2 = 2 ^ 1 := rfl
              _ ≤ 2 ^ expo b := Nat.pow_le_pow_right (by norm_num) (by omega))
      · calc (2 ^ 23 + frac a) * 2 ^ expo a < 2 ^ 24 * 2 ^ expo a := Nat.mul_lt_mul_of_pos_right (by omega) (by positivity)
          _ = 2 ^ 23 * 2 ^ (expo a + 1) := by rw [pow_succ 2 (expo a)]; ring
          _ ≤ 2 ^ 23 * 2 ^ expo b := Nat.mul_le_mul_left _ (Nat.pow_le_pow_right (by norm_num) (by omega))
    have e1 : 2 ^ (23 + expo b) = 2 ^ 23 * 2 ^ expo b := pow_add _ _ _
    have e2 : 2 ^ (23 + expo b + 1) = 2 ^ 24 * 2 ^ expo b := by rw [show 23 + expo b + 1 = 24 + expo b by omega, pow_add]
    apply size_of_cells <;> unfold Morton.Spec.SameCell
    · rw [e2, Nat.div_eq_of_lt h2, Nat.div_eq_of_lt (by omega)]
    · rw [e1, Nat.div_eq_of_lt h3]
      have : 1 ≤ absScaled b / (2 ^ 23 * 2 ^ expo b) := by rw [Nat.one_le_div_iff (by positivity)]; exact h1
      omega
  · have he : expo a = expo b := by omega
    have hlt := hne he
    rw [if_neg (by omega)]
    have key : ∀ x y n : ℕ, x ≠ y → (x * 2 ^ n ^^^ y * 2 ^ n).size = (x ^^^ y).size + n := by
      intro x y n hxy
      rw [← Nat.shiftLeft_eq, ← Nat.shiftLeft_eq, ← Nat.shiftLeft_xor_distrib, Nat.size_shiftLeft]
      intro h
      exact hxy (Nat.xor_eq_zero_iff.1 h)
    unfold absScaled
    rw [he]
    split
    · rename_i h0
      rw [h0]
      have := key (frac a) (frac b) 1 (by omega)
      rw [pow_one, Nat.mul_comm, Nat.mul_comm (frac b)] at this
      rw [this]; rfl
    · rw [key _ _ _ (by omega)]
      have := xor_cancel (n := 23) (c := 1) fa fb
      rw [Nat.mul_one] at this
      rw [this]
      omega

theorem val_cell {E k m : ℕ} (hm : m < 2 ^ 23) (hk : E = 0 → k ≤ 23) :
    val E ((2 ^ 23 + m) / 2 ^ k * 2 ^ k) = val E (2 ^ 23 + m) / 2 ^ (k + max 1 E) * 2 ^ (k + max 1 E) := by
  unfold val
  split
  · rename_i h0
    subst h0
    have hk := hk rfl
    have e : 2 ^ 23 = 2 ^ (23 - k) * 2 ^ k := by rw [← pow_add]; congr 1; omega
    have hp : 0 < 2 ^ k := by positivity
    have e1 : (2 ^ 23 + m) / 2 ^ k = 2 ^ (23 - k) + m / 2 ^ k := by
      conv_lhs => rw [e, Nat.mul_comm, Nat.mul_add_div hp]
    have e2 : (2 ^ 23 + m) / 2 ^ k * 2 ^ k - 2 ^ 23 = m / 2 ^ k * 2 ^ k := by
      rw [e1, Nat.add_mul, ← e]; omega
    have e3 : 2 * (2 ^ 23 + m - 2 ^ 23) / 2 ^ (k + max 1 0) = m / 2 ^ k := by
      rw [show k + max 1 0 = k + 1 from rfl, Nat.add_sub_cancel_left, pow_succ' 2 k, Nat.mul_div_mul_left _ _ (by norm_num)]
    rw [e2, e3, show k + max 1 0 = k + 1 from rfl, pow_succ 2 k]
    ring
  · rename_i h0
    rw [show max 1 E = E by omega, pow_add, Nat.mul_div_mul_right _ _ (by positivity)]
    ring

/-- What `intervalPow2Float` returns for two numbers of the same sign, in terms of their magnitudes in the unit 2^-150: `K` is the size of
the smallest common dyadic cell, `near` and `far` are the bounds closer to and farther from zero. -/
structure GoodPair (a b : BitVec 32) (r : Pow2Interval 32) : Prop where
  level : r.level = ((absScaled a ^^^ absScaled b).size : ℤ) - (if expo a = 0 ∧ expo b = 0 then 151 else 150)
  signs : neg r.low = neg a ∧ neg r.mid = neg a ∧ neg r.upp = neg a
  finite : expo r.low ≤ 254 ∧ expo r.mid ≤ 254 ∧ expo r.upp ≤ 254
  near : absScaled (if neg a then r.upp else r.low) =
    absScaled a / 2 ^ (absScaled a ^^^ absScaled b).size * 2 ^ (absScaled a ^^^ absScaled b).size
  mid : absScaled r.mid = absScaled a / 2 ^ (absScaled a ^^^ absScaled b).size * 2 ^ (absScaled a ^^^ absScaled b).size +
    2 ^ ((absScaled a ^^^ absScaled b).size - 1)
  far : absScaled (if neg a then r.low else r.upp) + 2 ^ max 1 (max (expo a) (expo b)) =
    absScaled a / 2 ^ (absScaled a ^^^ absScaled b).size * 2 ^ (absScaled a ^^^ absScaled b).size + 2 ^ (absScaled a ^^^ absScaled b).size

theorem goodPair_ordered {a b : BitVec 32} (hs : neg a = neg b) (hb : expo b ≤ 254) (hle : expo a ≤ expo b)
    (hne : expo a = expo b → frac a < frac b) {r : Pow2Interval 32}
    (g : GoodBounds (expo b) (gap (expo a) (frac a) (expo b) (frac b)) (2 ^ 23 + frac b) (neg b) r) : GoodPair a b r := by
  have fa := frac_lt a
  have fb := frac_lt b
  have hsz := absSize hle hne
  have k0 := gap_pos (m1 := frac a) (m2 := frac b) hle hne
  obtain ⟨k24, k23⟩ := gap_le (E1 := expo a) (E2 := expo b) fa fb
  have hcell : absScaled a / 2 ^ (absScaled a ^^^ absScaled b).size = absScaled b / 2 ^ (absScaled a ^^^ absScaled b).size :=
    size_xor_le.1 (le_refl _)
  obtain ⟨glev, gnear, gmid, gfar⟩ := g
  generalize hk : gap (expo a) (frac a) (expo b) (frac b) = k at *
  have hkE : expo b = 0 → k ≤ 23 := fun h => by rcases k23 with h' | h' <;> omega
  have hvc := val_cell (E := expo b) (k := k) fb hkE
  rw [← absScaled_eq, ← hsz, ← hcell] at hvc
  have hp : 0 < 2 ^ k := by positivity
  have hp2 : 2 ^ k = 2 * 2 ^ (k - 1) := by rw [← pow_succ']; congr 1; omega
  have hp1 : 0 < 2 ^ (k - 1) := by positivity
  have hL : ((2 ^ 23 + frac b) / 2 ^ k * 2 ^ k = 0 ∧ k = 24) ∨ (2 ^ 23 ≤ (2 ^ 23 + frac b) / 2 ^ k * 2 ^ k ∧ k ≤ 23) := by
    rcases Nat.lt_or_ge k 24 with h | h
    · right
      refine ⟨?_, by omega⟩
      have e : 2 ^ 23 = 2 ^ (23 - k) * 2 ^ k := by rw [← pow_add]; congr 1; omega
      calc 2 ^ 23 = 2 ^ (23 - k) * 2 ^ k := e
        _ ≤ (2 ^ 23 + frac b) / 2 ^ k * 2 ^ k := Nat.mul_le_mul_right _ ((Nat.le_div_iff_mul_le hp).2 (by omega))
    · left
      have : k = 24 := by omega
      refine ⟨?_, this⟩
      rw [Nat.div_eq_of_lt (by rw [this]; omega), Nat.zero_mul]
  have hU : (2 ^ 23 + frac b) / 2 ^ k * 2 ^ k + 2 ^ k ≤ 2 ^ 24 := by
    have e : 2 ^ 24 = 2 ^ (24 - k) * 2 ^ k := by rw [← pow_add]; congr 1; omega
    have : (2 ^ 23 + frac b) / 2 ^ k < 2 ^ (24 - k) := by rw [Nat.div_lt_iff_lt_mul hp]; omega
    calc (2 ^ 23 + frac b) / 2 ^ k * 2 ^ k + 2 ^ k = ((2 ^ 23 + frac b) / 2 ^ k + 1) * 2 ^ k := by ring
      _ ≤ 2 ^ (24 - k) * 2 ^ k := Nat.mul_le_mul_right _ this
      _ = 2 ^ 24 := e.symm
  have h2k : 2 ^ (k - 1) = 2 ^ 23 ∨ k ≤ 23 := by
    rcases Nat.lt_or_ge k 24 with h | h
    · right; omega
    · left; congr 1; omega
  generalize (2 ^ 23 + frac b) / 2 ^ k * 2 ^ k = L at *
  obtain ⟨n1, a1, x1⟩ := pat_fields hb (by omega) gnear
  obtain ⟨n2, a2, x2⟩ := pat_fields hb (by omega) gmid
  obtain ⟨n3, a3, x3⟩ := pat_fields hb (by omega) gfar
  have hL0 : expo b = 0 → 2 ^ 23 ≤ L := by
    intro h
    have := hkE h
    omega
  have hv : ∀ d, val (expo b) (L + d) = val (expo b) L + d * 2 ^ max 1 (expo b) := by
    intro d
    unfold val
    split
    · rename_i h0
      have := hL0 h0
      rw [h0]
      show _ = _ + d * 2
      omega
    · rw [show max 1 (expo b) = expo b by omega, Nat.add_mul]
  have e1 : 2 ^ (k - 1) * 2 ^ max 1 (expo b) = 2 ^ ((absScaled a ^^^ absScaled b).size - 1) := by
    rw [hsz, ← pow_add]; congr 1; omega
  have e2 : (2 ^ k - 1) * 2 ^ max 1 (expo b) + 2 ^ max 1 (expo b) = 2 ^ (absScaled a ^^^ absScaled b).size := by
    rw [hsz, pow_add, Nat.sub_mul, Nat.one_mul]
    have : 2 ^ max 1 (expo b) ≤ 2 ^ k * 2 ^ max 1 (expo b) := Nat.le_mul_of_pos_left _ hp
    omega
  refine ⟨?_, ?_, ?_, ?_, ?_, ?_⟩
  · rw [glev, hsz]
    split <;> omega
  · rw [hs]
    cases hn : neg b <;> rw [hn] at n1 n3 <;> simp only [Bool.false_eq_true, if_false, if_true] at n1 n3
    · exact ⟨n1, by rw [n2, hn], n3⟩
    · exact ⟨n3, by rw [n2, hn], n1⟩
  · cases hn : neg b <;> rw [hn] at x1 x3 <;> simp only [Bool.false_eq_true, if_false, if_true] at x1 x3
    · exact ⟨x1, x2, x3⟩
    · exact ⟨x3, x2, x1⟩
  · rw [hs, a1, hvc]
  · rw [a2, hv, e1, hvc]
  · rw [hs, a3, hv, hvc, show max (expo a) (expo b) = expo b by omega, Nat.add_assoc, e2]

theorem goodPair_symm {a b : BitVec 32} {r : Pow2Interval 32} (hs : neg a = neg b) (h : GoodPair b a r) : GoodPair a b r := by
  have hc : absScaled b ^^^ absScaled a = absScaled a ^^^ absScaled b := Nat.xor_comm _ _
  have hcell : absScaled b / 2 ^ (absScaled a ^^^ absScaled b).size = absScaled a / 2 ^ (absScaled a ^^^ absScaled b).size :=
    (size_xor_le.1 (le_refl _)).symm
  obtain ⟨h1, h2, h3, h4, h5, h6⟩ := h
  rw [hc] at h1 h4 h5 h6
  rw [hcell] at h4 h5 h6
  rw [← hs] at h2 h4 h6
  rw [max_comm (expo b)] at h6
  refine ⟨?_, h2, h3, h4, h5, h6⟩
  rw [h1]
  congr 1
  exact if_congr And.comm rfl rfl

/-- Two different floats of the same sign. -/
theorem interval_same (shlNeg : Outcome Int) {a b : BitVec 32} (ha : expo a ≤ 254) (hb : expo b ≤ 254) (hs : neg a = neg b) (hne : a ≠ b) :
    ∃ r : Pow2Interval 32, intervalPow2Float shlNeg .f32 a b = .ok r ∧ GoodPair a b r := by
  have fa := frac_lt a
  have fb := frac_lt b
  have hne' : expo a = expo b → frac a ≠ frac b := fun h h' => hne (eq_of_fields hs h h')
  unfold intervalPow2Float
  rw [decompose_eq, decompose_eq]
  dsimp only
  rw [if_neg (by rw [hs]; simp)]
  by_cases hc : (expo a : ℤ) - 127 > (expo b : ℤ) - 127 ∨ ((expo a : ℤ) - 127 = (expo b : ℤ) - 127 ∧ (frac a : ℤ) > (frac b : ℤ))
  · rw [if_pos hc]
    obtain ⟨r, hr, g⟩ := ordered_good shlNeg (E1 := expo b) (E2 := expo a) fb fa (by omega) (by have := hne'; omega) ha (neg b)
    rw [← hs] at g hr
    rw [← hs]
    exact ⟨r, hr, goodPair_symm hs (goodPair_ordered hs.symm ha (by omega) (by have := hne'; omega) g)⟩
  · rw [if_neg hc]
    obtain ⟨r, hr, g⟩ := ordered_good shlNeg (E1 := expo a) (E2 := expo b) fa fb (by omega) (by have := hne'; omega) hb (neg b)
    exact ⟨r, hr, goodPair_ordered hs hb (by omega) (by have := hne'; omega) g⟩

/-- Different signs. -/
theorem interval_signs (shlNeg : Outcome Int) {a b : BitVec 32} (hs : neg a ≠ neg b) :
    intervalPow2Float shlNeg .f32 a b = .ok ⟨129, 0xFF7FFFFF#32, 0#32, 0x7F7FFFFF#32⟩ := by
  have h : (neg a ^^ neg b) = true := by
    cases hna : neg a <;> cases hnb : neg b <;> simp [hna, hnb] at hs ⊢
  unfold intervalPow2Float
  rw [decompose_eq, decompose_eq]
  dsimp only
  rw [if_pos h]
  rfl

end Verif.MortonFloat
