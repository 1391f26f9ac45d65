import Verif.MortonFloat.Props

/-! The level that `xorFloat` computes, with negative powers of two among the operands: the lemmas of Lemmas.lean under a weaker hypothesis. -/
namespace Verif.MortonFloat
open Verif.NumericTraits Verif.MortonFloat.Spec Verif.Morton

/-- +0 and the finite floats of magnitude at least 2^-103. -/
def Regular (a : BitVec 32) : Prop := a = 0#32 ∨ (24 ≤ expo a ∧ expo a ≤ 254)

/-- Beside a negative power of two `a`, a negative float `b` nearer to zero is a multiple of the last binary digit of `a`: the alignment of `xorFloat` loses nothing. -/
def Aligned (a b : BitVec 32) : Prop := neg a = true → neg b = true → frac a = 0 → expo b < expo a → 2 ^ expo a ∣ absScaled b

theorem regular_expo {a : BitVec 32} (h : Regular a) : expo a ≤ 254 := by
  rcases h with rfl | h
  · rw [tame_zero.2.1]; omega
  · exact h.2

theorem regular_neg {a : BitVec 32} (h : Regular a) (hn : neg a = true) : 24 ≤ expo a := by
  rcases h with rfl | h
  · rw [tame_zero.1] at hn; exact absurd hn (by simp)
  · exact h.1

theorem Tame.regular {a : BitVec 32} (h : Tame a) : Regular a := h.imp id fun h => ⟨h.1, h.2.1⟩

theorem Tame.aligned {a : BitVec 32} (h : Tame a) (b : BitVec 32) : Aligned a b := fun hn _ hf => absurd hf (tame_neg h hn).2

/-- A negative power of two and a negative float nearer to zero that is a multiple of its last digit. -/
theorem size_pow {a b : BitVec 32} {y : ℕ} (hna : neg a = true) (hnb : neg b = true) (hf : frac a = 0) (h24 : 24 ≤ expo a) (h254 : expo a ≤ 254)
    (hy : absScaled b = y * 2 ^ expo a) (h0 : 0 < y) (h1 : y < 2 ^ 23) : lev a b = expo a + ((2 ^ 24 - 2 ^ 23) ^^^ (2 ^ 24 - y)).size := by
  have ea : absScaled a = 2 ^ 23 * 2 ^ expo a := by unfold absScaled; rw [if_neg (by omega), hf, Nat.add_zero]
  have hK : 2 ^ 278 = 2 ^ 24 * 2 ^ (254 - expo a) * 2 ^ expo a := by
    have e : 24 + (254 - expo a) + expo a = 278 := by omega
    rw [← pow_add, ← pow_add, e]
  have hQ : 0 < 2 ^ (254 - expo a) := by positivity
  generalize 2 ^ (254 - expo a) = Q at hK hQ
  obtain ⟨Q', rfl⟩ : ∃ Q', Q = Q' + 1 := ⟨Q - 1, by omega⟩
  unfold lev
  rw [biased_neg hna, biased_neg hnb, ea, hy, hK, ← Nat.sub_mul, ← Nat.sub_mul,
    show 2 ^ 24 * (Q' + 1) - 2 ^ 23 = 2 ^ 24 * Q' + (2 ^ 24 - 2 ^ 23) by omega, show 2 ^ 24 * (Q' + 1) - y = 2 ^ 24 * Q' + (2 ^ 24 - y) by omega,
    ← Nat.shiftLeft_eq, ← Nat.shiftLeft_eq, ← Nat.shiftLeft_xor_distrib, xor_cancel (by omega) (by omega), Nat.size_shiftLeft, add_comm]
  intro h
  have := Nat.xor_eq_zero_iff.1 h
  omega

theorem good_ordered' (lax : Bool) {a b : BitVec 32} (ha : Regular a) (hb : Regular b) (hs : lax = true ∨ Safe a b) (hal : Aligned a b) (hm : mag b ≤ mag a) :
    Good (if lev a b = 0 then -127 else (lev a b : ℤ) - 151) (xorOrdered lax .f32 a b) := by
  have fa := frac_lt a
  have fb := frac_lt b
  have xa := regular_expo ha
  have xb := regular_expo hb
  rw [mag_eq, mag_eq] at hm
  have himp := implicit_toNat fa
  by_cases hsg : (neg a ^^ neg b) = true
  · have hl : lev a b = 279 := by
      unfold lev
      cases hna : neg a <;> cases hnb : neg b <;> rw [hna, hnb] at hsg
      · simp at hsg
      · exact size_signs hna hnb xa xb (absScaled_ne_zero (regular_neg hb hnb))
      · rw [Nat.xor_comm]; exact size_signs hnb hna xb xa (absScaled_ne_zero (regular_neg ha hna))
      · simp at hsg
    rw [hl]
    exact good_signs lax hsg
  · have hsg' : (neg a ^^ neg b) = false := by simpa using hsg
    have hn : neg a = neg b := by
      cases hna : neg a <;> cases hnb : neg b <;> rw [hna, hnb] at hsg' <;> first | rfl | simp at hsg'
    have hle : expo b ≤ expo a := by omega
    obtain ⟨x, hx, hxn⟩ := align_eq fb hle
    rcases Nat.lt_or_ge (expo b) (expo a) with hE | hE
    · have h24 : 24 ≤ expo a := by
        rcases ha with rfl | ha
        · rw [tame_zero.2.1] at hE; omega
        · exact ha.1
      have hlev : (neg a = true → frac a ≠ 0) → lev a b = expo a + 24 := fun hf => size_diff hn hE xa fun h => ⟨hf h, absScaled_ne_zero (regular_neg hb (hn ▸ h))⟩
      have hx23 : x.toNat < 2 ^ 23 := by
        rw [hxn]
        calc (2 ^ 23 + frac b) / 2 ^ (expo a - expo b) ≤ (2 ^ 23 + frac b) / 2 ^ 1 :=
              Nat.div_le_div_left (Nat.pow_le_pow_right (by norm_num) (by omega)) (by norm_num)
          _ < 2 ^ 23 := by omega
      cases hna : neg a
      · rw [hlev (fun h => by rw [hna] at h; exact absurd h (by simp)), if_neg (by omega)]
        have hd : ((BitVec.ofInt 32 (frac a : ℤ) ||| BitVec.ofInt 32 (FTy.mantissaImplicitBit .f32)) ^^^ x).toNat.size = 24 := by
          rw [BitVec.toNat_xor, himp]
          exact size_xor_bit (by omega) (by omega) hx23
        have := good_small lax hsg' h24 xa hx (if_neg (by rw [hna]; simp)) (fun h => by rw [h] at hd; simp at hd) (Nat.size_le.1 (le_of_eq hd))
        rw [hd] at this
        convert this using 1
        push_cast; omega
      · have hnb : neg b = true := hn ▸ hna
        by_cases hf : frac a = 0
        · obtain ⟨y, hy⟩ := hal hna hnb hf hE
          have hb24 := regular_neg hb hnb
          have hval : absScaled b = (2 ^ 23 + frac b) * 2 ^ expo b := by unfold absScaled; rw [if_neg (by omega)]
          have hpw : 2 ^ expo a = 2 ^ (expo a - expo b) * 2 ^ expo b := by rw [← pow_add]; congr 1; omega
          have hy' : 2 ^ 23 + frac b = y * 2 ^ (expo a - expo b) := by
            rw [hval, hpw, mul_comm _ y, ← mul_assoc] at hy
            exact Nat.eq_of_mul_eq_mul_right (by positivity) hy
          have hxy : x.toNat = y := by rw [hxn, hy', Nat.mul_div_cancel _ (by positivity)]
          have hy0 : 0 < y := by
            rcases Nat.eq_zero_or_pos y with h | h
            · rw [h] at hy'; omega
            · exact h
          have hlev' := size_pow hna hnb hf h24 xa (by rw [hy, mul_comm]) hy0 (by omega)
          have hd : ((-(BitVec.ofInt 32 (frac a : ℤ) ||| BitVec.ofInt 32 (FTy.mantissaImplicitBit .f32))) ^^^ (-x)).toNat =
              (2 ^ 24 - 2 ^ 23) ^^^ (2 ^ 24 - y) := by
            rw [xor_toNat_neg himp hxy (by omega) hy0 (by omega) (by omega), hf, Nat.add_zero]
          have hlt : (2 ^ 24 - 2 ^ 23) ^^^ (2 ^ 24 - y) < 2 ^ 24 := Nat.xor_lt_two_pow (by omega) (by omega)
          have := good_small lax hsg' h24 xa hx (if_pos hna)
            (fun h => by rw [h] at hd; exact absurd (Nat.xor_eq_zero_iff.1 hd.symm) (by omega)) (by rw [hd]; exact hlt)
          rw [hd] at this
          rw [hlev', if_neg (by omega)]
          convert this using 1
          push_cast; rfl
        rw [hlev (fun _ => hf), if_neg (by omega)]
        rcases Nat.eq_zero_or_pos x.toNat with hx0 | hx0
        · have hgap : expo b + 23 < expo a := by
            by_contra hc
            rw [hxn, Nat.div_eq_zero_iff] at hx0
            have : 2 ^ (expo a - expo b) ≤ 2 ^ 23 := Nat.pow_le_pow_right (by norm_num) (by omega)
            rcases hx0 with h | h
            · have : 0 < 2 ^ (expo a - expo b) := by positivity
              omega
            · omega
          have hlax : lax = true := by
            rcases hs with h | h | h | h
            · exact h
            · rw [hna] at h; exact absurd h (by simp)
            · rw [← hn, hna] at h; exact absurd h (by simp)
            · omega
          have hxz : x = 0#32 := BitVec.eq_of_toNat_eq hx0
          have hd : (-(BitVec.ofInt 32 (frac a : ℤ) ||| BitVec.ofInt 32 (FTy.mantissaImplicitBit .f32))) ^^^ (-x) =
              -(BitVec.ofInt 32 (frac a : ℤ) ||| BitVec.ofInt 32 (FTy.mantissaImplicitBit .f32)) := by
            rw [hxz, BitVec.neg_zero, BitVec.xor_zero]
          have hdn := neg_toNat himp (by omega)
          have hl := log2_neg (by omega) (by omega) hdn
          have hsz : (2 ^ 23 + frac a).size = 24 := by
            rw [← size_xor_bit (x := 2 ^ 23 + frac a) (y := 0) (by omega) (by omega) (by norm_num), Nat.xor_zero]
          rw [hsz] at hl
          have hsh : ∀ z : BitVec 32, shl true z (23 - (((24 : ℕ) : ℤ) - 1)) = .ok (z <<< 0) := by
            intro z; unfold shl; rw [if_neg (by norm_num), if_neg (by simp)]; rfl
          subst hlax
          have := good_tail true hsg' hx ((if_pos hna).trans hd) (fun h => by rw [h] at hdn; simp at hdn; omega) hl (hsh _) (by omega) (by omega)
          convert this using 1
          push_cast; omega
        · have hd : ((-(BitVec.ofInt 32 (frac a : ℤ) ||| BitVec.ofInt 32 (FTy.mantissaImplicitBit .f32))) ^^^ (-x)).toNat.size = 24 := by
            rw [xor_toNat_neg himp rfl (by omega) hx0 (by omega) (by omega), Nat.xor_comm]
            exact size_xor_bit (by omega) (by omega) (by omega)
          have := good_small lax hsg' h24 xa hx (if_pos hna) (fun h => by rw [h] at hd; simp at hd) (Nat.size_le.1 (le_of_eq hd))
          rw [hd] at this
          convert this using 1
          push_cast; omega
    · have hE : expo a = expo b := by omega
      have hxn' : x.toNat = 2 ^ 23 + frac b := by
        rw [hxn, hE, Nat.sub_self, pow_zero, Nat.div_one]
      by_cases hf : frac a = frac b
      · have hab : a = b := eq_of_fields hn hE hf
        have hl : lev a b = 0 := by rw [hab]; unfold lev; rw [Nat.xor_self]; rfl
        rw [if_pos hl]
        have he : BitVec.ofInt 32 (frac a : ℤ) ||| BitVec.ofInt 32 (FTy.mantissaImplicitBit .f32) = x :=
          BitVec.eq_of_toNat_eq (by rw [himp, hxn', hf])
        refine good_zero lax hsg' hx ?_
        rw [he]
        split <;> exact BitVec.xor_self
      · have h24 : 24 ≤ expo a := by
          rcases ha with rfl | ha
          · rcases hb with rfl | hb
            · exact absurd rfl hf
            · rw [hE]; exact hb.1
          · exact ha.1
        have hlev := size_same hn hE h24 xa hf
        have hlev' : lev a b = _ := hlev
        cases hna : neg a
        · rw [hna, if_neg (by simp)] at hlev'
          have hd : ((BitVec.ofInt 32 (frac a : ℤ) ||| BitVec.ofInt 32 (FTy.mantissaImplicitBit .f32)) ^^^ x).toNat =
              (2 ^ 23 + frac a) ^^^ (2 ^ 23 + frac b) := by
            rw [BitVec.toNat_xor, himp, hxn']
          have hlt : (2 ^ 23 + frac a) ^^^ (2 ^ 23 + frac b) < 2 ^ 24 := Nat.xor_lt_two_pow (by omega) (by omega)
          have := good_small lax hsg' h24 xa hx (if_neg (by rw [hna]; simp))
            (fun h => by rw [h] at hd; exact absurd (Nat.xor_eq_zero_iff.1 hd.symm) (by omega)) (by rw [hd]; exact hlt)
          rw [hd] at this
          rw [if_neg (by omega)]
          convert this using 1
          rw [hlev']; push_cast; rfl
        · rw [hna, if_pos rfl] at hlev'
          have hd : ((-(BitVec.ofInt 32 (frac a : ℤ) ||| BitVec.ofInt 32 (FTy.mantissaImplicitBit .f32))) ^^^ (-x)).toNat =
              (2 ^ 24 - (2 ^ 23 + frac a)) ^^^ (2 ^ 24 - (2 ^ 23 + frac b)) :=
            xor_toNat_neg himp hxn' (by omega) (by omega) (by omega) (by omega)
          have hlt : (2 ^ 24 - (2 ^ 23 + frac a)) ^^^ (2 ^ 24 - (2 ^ 23 + frac b)) < 2 ^ 24 := Nat.xor_lt_two_pow (by omega) (by omega)
          have := good_small lax hsg' h24 xa hx (if_pos hna)
            (fun h => by rw [h] at hd; exact absurd (Nat.xor_eq_zero_iff.1 hd.symm) (by omega)) (by rw [hd]; exact hlt)
          rw [hd] at this
          rw [if_neg (by omega)]
          convert this using 1
          rw [hlev']; push_cast; rfl

theorem good_xor' (lax : Bool) {a b : BitVec 32} (ha : Regular a) (hb : Regular b) (hs : lax = true ∨ Safe a b) (hab : Aligned a b) (hba : Aligned b a) :
    Good (if lev a b = 0 then -127 else (lev a b : ℤ) - 151) (xorFloat lax .f32 a b) := by
  unfold xorFloat gtAbs
  rw [isNaN_eq (regular_expo ha), isNaN_eq (regular_expo hb)]
  simp only [Bool.not_false, Bool.true_and, decide_eq_true_eq]
  by_cases h : mag b < mag a
  · rw [if_pos h]; exact good_ordered' lax ha hb hs hab (le_of_lt h)
  · rw [if_neg h, lev_comm]
    refine good_ordered' lax hb ha ?_ hba (by omega)
    rcases hs with h | h | h | h
    · exact Or.inl h
    · exact Or.inr (Or.inr (Or.inl h))
    · exact Or.inr (Or.inl h)
    · exact Or.inr (Or.inr (Or.inr ⟨h.2, h.1⟩))

theorem regular_dvd {a : BitVec 32} (h : Regular a) : 2 ^ 24 ∣ biased a := by
  have h1 : 2 ^ 24 ∣ absScaled a := by
    rcases h with rfl | h
    · rw [show absScaled 0#32 = 0 by decide]; exact dvd_zero _
    · unfold absScaled
      rw [if_neg (by omega)]
      exact Dvd.dvd.mul_left (pow_dvd_pow _ h.1) _
  have h2 : 2 ^ 24 ∣ 2 ^ 278 := pow_dvd_pow _ (by norm_num)
  cases hn : neg a
  · rw [biased_pos hn]; exact dvd_add h2 h1
  · rw [biased_neg hn]; exact Nat.dvd_sub h2 h1

theorem lev_regular {a b : BitVec 32} (ha : Regular a) (hb : Regular b) : lev a b = 0 ∨ 25 ≤ lev a b := by
  by_contra hc
  have h : lev a b ≤ 24 := by omega
  unfold lev at h hc
  rw [size_xor_le] at h
  obtain ⟨p, hp⟩ := regular_dvd ha
  obtain ⟨q, hq⟩ := regular_dvd hb
  unfold Morton.Spec.SameCell at h
  rw [hp, hq, Nat.mul_div_cancel_left _ (by norm_num), Nat.mul_div_cancel_left _ (by norm_num)] at h
  rw [hp, hq, h, Nat.xor_self] at hc
  simp at hc

theorem levExp_lt' {a b c d : BitVec 32} (ha : Regular a) (hb : Regular b) (hc : Regular c) (hd : Regular d) :
    levExp a b < levExp c d ↔ lev a b < lev c d := by
  have h1 := lev_regular ha hb
  have h2 := lev_regular hc hd
  unfold levExp
  split <;> split <;> omega

theorem cmpLoop_inv' (lax : Bool) (v1 v2 : ℕ → BitVec 32) (n : ℕ) (h1 : ∀ d ≤ n, Regular (v1 d)) (h2 : ∀ d ≤ n, Regular (v2 d))
    (hs : ∀ d ≤ n, lax = true ∨ Safe (v1 d) (v2 d)) (ha : ∀ d ≤ n, Aligned (v1 d) (v2 d) ∧ Aligned (v2 d) (v1 d)) :
    ∃ s : ℕ × XorF 32, cmpLoop lax .f32 v1 v2 n = .ok s ∧ IsFirstMax (fun d => biased (v1 d) ^^^ biased (v2 d)) n s.1 ∧
      Good (levExp (v1 s.1) (v2 s.1)) (.ok s.2) := by
  induction n with
  | zero =>
    obtain ⟨r, hr, hg⟩ := good_xor' lax (h1 0 (le_refl _)) (h2 0 (le_refl _)) (hs 0 (le_refl _)) (ha 0 (le_refl _)).1 (ha 0 (le_refl _)).2
    refine ⟨(0, r), ?_, ⟨le_refl _, ?_, ?_⟩, r, rfl, hg⟩
    · unfold cmpLoop; rw [hr]; rfl
    · intro d hd
      rw [Nat.le_zero.1 hd]
    · intro d hd; exact absurd hd (Nat.not_lt_zero d)
  | succ n ih =>
    obtain ⟨s, hs1, hf, r, hr, he, hv⟩ := ih (fun d hd => h1 d (by omega)) (fun d hd => h2 d (by omega)) (fun d hd => hs d (by omega)) (fun d hd => ha d (by omega))
    obtain rfl : s.2 = r := by simpa using hr
    obtain ⟨c, hc, hce, hcv⟩ := good_xor' lax (h1 (n + 1) (le_refl _)) (h2 (n + 1) (le_refl _)) (hs (n + 1) (le_refl _)) (ha (n + 1) (le_refl _)).1 (ha (n + 1) (le_refl _)).2
    have hle := hf.le
    have key := levExp_lt' (h1 s.1 (by omega)) (h2 s.1 (by omega)) (h1 (n + 1) (le_refl _)) (h2 (n + 1) (le_refl _))
    have hstep : cmpLoop lax .f32 v1 v2 (n + 1) = .ok (if lt .f32 s.2.value c.value && decide (s.2.exponentDiff < c.exponentDiff) then (n + 1, c) else s) := by
      rw [cmpLoop, hs1, bind_ok, hc, bind_ok]; rfl
    rw [hstep]
    by_cases hlt : lev (v1 s.1) (v2 s.1) < lev (v1 (n + 1)) (v2 (n + 1))
    · have hE := key.2 hlt
      have b1 : -127 ≤ levExp (v1 s.1) (v2 s.1) := by
        have := lev_regular (h1 s.1 (by omega)) (h2 s.1 (by omega))
        unfold levExp; split <;> omega
      have b2 : levExp (v1 (n + 1)) (v2 (n + 1)) ≤ 128 := by
        have := lev_le (regular_expo (h1 (n + 1) (le_refl _))) (regular_expo (h2 (n + 1) (le_refl _)))
        unfold levExp; split <;> omega
      have hcond : (lt .f32 s.2.value c.value && decide (s.2.exponentDiff < c.exponentDiff)) = true := by
        rw [value_lt b1 b2 hv hcv hE, he, hce, Bool.true_and, decide_eq_true_eq]
        exact hE
      rw [if_pos hcond]
      refine ⟨_, rfl, ⟨le_refl _, ?_, ?_⟩, c, rfl, hce, hcv⟩
      · intro d hd
        rcases Nat.lt_or_ge d (n + 1) with h' | h'
        · exact le_of_lt (lt_of_le_of_lt (hf.ge_all d (by omega)) hlt)
        · rw [show d = n + 1 by omega]
      · intro d hd
        exact lt_of_le_of_lt (hf.ge_all d (by dsimp only at hd; omega)) hlt
    · have hcond : ¬ (lt .f32 s.2.value c.value && decide (s.2.exponentDiff < c.exponentDiff)) = true := by
        rw [Bool.and_eq_true, decide_eq_true_eq, he, hce]
        rintro ⟨-, h⟩
        exact hlt (key.1 h)
      rw [if_neg hcond]
      refine ⟨_, rfl, ⟨by omega, ?_, hf.first⟩, s.2, rfl, he, hv⟩
      intro d hd
      rcases Nat.lt_or_ge d (n + 1) with h' | h'
      · exact hf.ge_all d (by omega)
      · rw [show d = n + 1 by omega]
        exact Nat.le_of_not_lt hlt

/-- Sharper than `C17_zorder_partial`: negative powers of two are allowed, as long as the negative floats nearer to zero they are compared with are multiples of their last
digit. Missing for C17: the other floats, where the order is wrong. -/
theorem C17_aligned_partial (lax : Bool) (dim : ℕ) (v w : ℕ → BitVec 32) (hdim : 0 < dim) (hv : ∀ d < dim, Regular (v d))
    (hw : ∀ d < dim, Regular (w d)) (hs : ∀ d < dim, lax = true ∨ Safe (v d) (w d))
    (ha : ∀ d < dim, Aligned (v d) (w d) ∧ Aligned (w d) (v d)) :
    mortonCmpFloat lax .f32 dim v w =
      .ok (decide (Morton.Spec.code 279 dim (fun d => biased (v d)) < Morton.Spec.code 279 dim fun d => biased (w d))) := by
  obtain ⟨s, h1, h2, -⟩ := cmpLoop_inv' lax v w (dim - 1) (fun d hd => hv d (by omega)) (fun d hd => hw d (by omega)) (fun d hd => hs d (by omega)) (fun d hd => ha d (by omega))
  have hsd : s.1 < dim := by have := h2.le; omega
  have hc := code_lt_iff hdim (fun d hd => biased_lt (regular_expo (hv d hd))) (fun d hd => biased_lt (regular_expo (hw d hd))) h2
  have hl := lt_iff (regular_expo (hv s.1 hsd)) (regular_expo (hw s.1 hsd))
  unfold mortonCmpFloat
  rw [h1, bind_ok]
  show Except.ok _ = _
  congr 1
  rw [Bool.eq_iff_iff, hl, decide_eq_true_iff, hc]

end Verif.MortonFloat
