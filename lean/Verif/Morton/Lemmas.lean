import Verif.Morton.Model
import Verif.Morton.Spec
import Verif.NumericTraits.Lemmas
import Batteries.Data.Nat.Lemmas

namespace Verif.Morton
open Verif.NumericTraits Verif.BitManip

/-! ### Bit lengths of xors -/

theorem size_xor_le {x y k : ℕ} : (x ^^^ y).size ≤ k ↔ Spec.SameCell k x y := by
  unfold Spec.SameCell
  rw [Nat.size_le, ← Nat.shiftRight_eq_div_pow, ← Nat.shiftRight_eq_div_pow]
  have : (x ^^^ y) < 2 ^ k ↔ (x ^^^ y) >>> k = 0 := by
    rw [Nat.shiftRight_eq_div_pow, Nat.div_eq_zero_iff]
    constructor
    · intro h; exact Or.inr h
    · rintro (h | h)
      · exact absurd h (by positivity)
      · exact h
  rw [this, Nat.shiftRight_xor_distrib, Nat.xor_eq_zero_iff]

theorem size_eq_of_bit {n k : ℕ} (h1 : n.testBit k = true) (h2 : ∀ j > k, n.testBit j = false) : n.size = k + 1 := by
  apply le_antisymm
  · rw [Nat.size_le]
    apply Nat.lt_pow_two_of_testBit
    intro j hj
    exact h2 j (by omega)
  · have : k < n.size := Nat.lt_size.2 (Nat.ge_two_pow_of_testBit h1)
    omega

theorem testBit_top {n : ℕ} (h : n.size ≠ 0) : n.testBit (n.size - 1) = true := by
  have := (isLeadingZeros_of_size n.size n (Nat.lt_size_self n)).one (by omega)
  obtain ⟨j, hj, hb⟩ := this
  have : j = n.size - 1 := by omega
  rwa [this] at hb

theorem testBit_above {n j : ℕ} (h : n.size ≤ j) : n.testBit j = false := by
  apply Nat.testBit_lt_two_pow
  rwa [← Nat.size_le]

/-- Order of two numbers from their highest differing bit. -/
theorem lt_iff_top_bit {x y : ℕ} (h : (x ^^^ y).size ≠ 0) :
    x < y ↔ y.testBit ((x ^^^ y).size - 1) = true := by
  set k := (x ^^^ y).size - 1 with hk
  have hb : (x ^^^ y).testBit k = true := testBit_top h
  have hab : ∀ j > k, x.testBit j = y.testBit j := by
    intro j hj
    have : (x ^^^ y).testBit j = false := testBit_above (by omega)
    rw [Nat.testBit_xor] at this
    revert this
    cases x.testBit j <;> cases y.testBit j <;> simp
  rw [Nat.testBit_xor] at hb
  constructor
  · intro hlt
    by_contra hy
    have hy' : y.testBit k = false := by simpa using hy
    have hx : x.testBit k = true := by rw [hy'] at hb; simpa using hb
    have := Nat.lt_of_testBit k hy' hx (fun j hj => (hab j hj).symm)
    omega
  · intro hy
    have hx : x.testBit k = false := by rw [hy] at hb; simpa using hb
    exact Nat.lt_of_testBit k hx hy hab

/-- Chan's trick. -/
theorem msb_iff {w : ℕ} (a b : BitVec w) : msb a b = true ↔ a.toNat.size < b.toNat.size := by
  unfold msb
  rw [Bool.and_eq_true, decide_eq_true_eq, decide_eq_true_eq, BitVec.toNat_xor]
  generalize a.toNat = x
  generalize b.toNat = y
  constructor
  · rintro ⟨h1, h2⟩
    by_contra hge
    push Not at hge
    -- sizes are equal, so the xor is shorter than x
    have hxy : y.size = x.size := le_antisymm hge (Nat.size_le_size (le_of_lt h1))
    have hx0 : x.size ≠ 0 := by
      intro h0
      rw [h0] at hxy
      have hy0 : y = 0 := Nat.size_eq_zero.1 hxy
      omega
    have tb : (x ^^^ y).testBit (x.size - 1) = false := by
      rw [Nat.testBit_xor, testBit_top hx0]
      rw [← hxy] at hx0 ⊢
      rw [testBit_top hx0]; rfl
    have hsz : (x ^^^ y).size ≤ x.size - 1 := by
      rw [Nat.size_le]
      apply Nat.lt_pow_two_of_testBit
      intro j hj
      rcases Nat.lt_or_ge j x.size with hlt | hge'
      · have : j = x.size - 1 := by omega
        rw [this]; exact tb
      · rw [Nat.testBit_xor, testBit_above hge', testBit_above (by omega)]; rfl
    have : 2 ^ (x.size - 1) ≤ x := Nat.lt_size.1 (by omega)
    rw [Nat.size_le] at hsz
    omega
  · intro h
    have hlt : x < y := by
      by_contra hge
      have := Nat.size_le_size (Nat.le_of_not_lt hge)
      omega
    refine ⟨hlt, ?_⟩
    have tb : (x ^^^ y).testBit (y.size - 1) = true := by
      rw [Nat.testBit_xor, testBit_above (n := x) (by omega), testBit_top (n := y) (by omega)]; rfl
    have h1 : 2 ^ (y.size - 1) ≤ x ^^^ y := Nat.ge_two_pow_of_testBit tb
    have h2 : x < 2 ^ (y.size - 1) := by rw [← Nat.size_le]; omega
    omega

/-! ### Biased coordinates -/

theorem xor_two_pow_of_lt {x k : ℕ} (h : x < 2 ^ k) : x ^^^ 2 ^ k = 2 ^ k + x := by
  apply Nat.eq_of_testBit_eq
  intro i
  rw [Nat.testBit_xor, Nat.testBit_two_pow]
  rcases Nat.lt_trichotomy i k with hi | hi | hi
  · rw [Nat.testBit_two_pow_add_gt hi]
    simp [Nat.ne_of_gt hi]
  · rw [hi, Nat.testBit_two_pow_add_eq, Nat.testBit_lt_two_pow h]; simp
  · have h1 : x.testBit i = false :=
      Nat.testBit_lt_two_pow (lt_trans h (Nat.pow_lt_pow_right (by omega) hi))
    have h2 : (2 ^ k + x).testBit i = false := by
      apply Nat.testBit_lt_two_pow
      calc 2 ^ k + x < 2 ^ k + 2 ^ k := by omega
        _ = 2 ^ (k + 1) := by ring
        _ ≤ 2 ^ i := Nat.pow_le_pow_right (by omega) hi
    rw [h1, h2]; simp [Nat.ne_of_lt hi]

theorem xor_two_pow_of_ge {x k : ℕ} (h : 2 ^ k ≤ x) (h' : x < 2 ^ (k + 1)) : x ^^^ 2 ^ k = x - 2 ^ k := by
  have e : x = (x - 2 ^ k) ^^^ 2 ^ k := by
    rw [xor_two_pow_of_lt (by rw [pow_succ] at h'; omega)]; omega
  conv_lhs => rw [e]
  rw [Nat.xor_assoc, Nat.xor_self, Nat.xor_zero]

theorem w_pos (t : ITy) : 0 < t.w := by cases t <;> decide

theorem pow_w (t : ITy) : 2 ^ t.w = 2 ^ (t.w - 1) * 2 := by
  rw [← pow_succ]; congr 1; have := w_pos t; omega

theorem bias_unsigned {t : ITy} (h : t.signed = false) (x : BitVec t.w) : Spec.bias t x = x.toNat := by
  simp [Spec.bias, ITy.val, h]

theorem bias_signed {t : ITy} (h : t.signed = true) (x : BitVec t.w) : Spec.bias t x = x.toNat ^^^ 2 ^ (t.w - 1) := by
  have hlt := x.isLt
  have e := pow_w t
  have hpos := w_pos t
  have h3 := BitVec.toInt_eq_toNat_cond x
  simp only [Spec.bias, ITy.val, h, if_true]
  have ep : (2 : ℤ) ^ (t.w - 1) = ((2 ^ (t.w - 1) : ℕ) : ℤ) := by push_cast; rfl
  have ep2 : ((2 ^ t.w : ℕ) : ℤ) = ((2 ^ (t.w - 1) : ℕ) : ℤ) * 2 := by rw [e]; push_cast; ring
  by_cases hx : x.toNat < 2 ^ (t.w - 1)
  · rw [xor_two_pow_of_lt hx]
    rw [if_pos (by omega)] at h3
    rw [h3, ep]; omega
  · rw [xor_two_pow_of_ge (by omega) (by rw [show t.w - 1 + 1 = t.w by omega]; exact hlt)]
    rw [if_neg (by omega)] at h3
    rw [h3, ep, ep2]; omega

theorem bias_lt (t : ITy) (x : BitVec t.w) : Spec.bias t x < 2 ^ t.w := by
  have e := pow_w t
  have hlt := x.isLt
  cases h : t.signed
  · rw [bias_unsigned h]; exact hlt
  · rw [bias_signed h]
    exact Nat.xor_lt_two_pow hlt (by have : 0 < 2 ^ (t.w - 1) := by positivity
                                     omega)

theorem xorSign_eq (t : ITy) (a b : BitVec t.w) : (xorSign t a b).toNat = Spec.bias t a ^^^ Spec.bias t b := by
  unfold xorSign removeSign
  cases h : t.signed
  · simp only [Bool.false_eq_true, if_false]
    rw [bias_unsigned h, bias_unsigned h, BitVec.toNat_xor]
  · simp only [if_true]
    rw [bias_signed h, bias_signed h]
    have : a ^^^ 1#t.w ^^^ (b ^^^ 1#t.w) = a ^^^ b := by
      rw [BitVec.xor_comm b, BitVec.xor_assoc, ← BitVec.xor_assoc (1#t.w), BitVec.xor_self, BitVec.zero_xor]
    rw [this, BitVec.toNat_xor]
    generalize a.toNat = x
    generalize b.toNat = y
    generalize 2 ^ (t.w - 1) = p
    rw [Nat.xor_comm y p, Nat.xor_assoc, ← Nat.xor_assoc p, Nat.xor_self, Nat.zero_xor]

theorem bias_cast (t : ITy) (x : BitVec t.w) :
    (Spec.bias t x : ℤ) = t.val x + (if t.signed then 2 ^ (t.w - 1) else 0) := by
  unfold Spec.bias
  rw [Int.toNat_of_nonneg]
  unfold ITy.val
  cases h : t.signed
  · simp
  · simp only [if_true]
    have := toInt_ge (w_pos t) x
    omega

theorem val_lt_iff (t : ITy) (a b : BitVec t.w) : t.val a < t.val b ↔ Spec.bias t a < Spec.bias t b := by
  have h1 := bias_cast t a
  have h2 := bias_cast t b
  omega

theorem val_le_iff (t : ITy) (a b : BitVec t.w) : t.val a ≤ t.val b ↔ Spec.bias t a ≤ Spec.bias t b := by
  have h1 := bias_cast t a
  have h2 := bias_cast t b
  omega

theorem val_inj (t : ITy) (a b : BitVec t.w) : t.val a = t.val b ↔ a = b := by
  constructor
  · unfold ITy.val
    cases h : t.signed
    · simp only [Bool.false_eq_true, if_false]
      intro h; exact BitVec.eq_of_toNat_eq (by omega)
    · simp only [if_true]
      intro h; exact BitVec.eq_of_toInt_eq h
  · rintro rfl; rfl

theorem bias_inj (t : ITy) (a b : BitVec t.w) : Spec.bias t a = Spec.bias t b ↔ a = b := by
  rw [← val_inj]
  have h1 := bias_cast t a
  have h2 := bias_cast t b
  omega

/-! ### Morton code -/

theorem testBit_code {w dim : ℕ} {u : ℕ → ℕ} {b d : ℕ} (hb : b < w) (hd : d < dim) :
    (Spec.code w dim u).testBit (b * dim + (dim - 1 - d)) = (u d).testBit b := by
  unfold Spec.code
  have hlt : b * dim + (dim - 1 - d) < w * dim := by
    calc b * dim + (dim - 1 - d) < b * dim + dim := by omega
      _ = (b + 1) * dim := by ring
      _ ≤ w * dim := Nat.mul_le_mul_right _ hb
  rw [Nat.testBit_ofBits_lt _ _ hlt]
  have hmod : (b * dim + (dim - 1 - d)) % dim = dim - 1 - d := by
    rw [Nat.mul_comm, Nat.mul_add_mod, Nat.mod_eq_of_lt (by omega)]
  have hdiv : (b * dim + (dim - 1 - d)) / dim = b := by
    rw [Nat.mul_comm, Nat.mul_add_div (by omega), Nat.div_eq_of_lt (by omega), Nat.add_zero]
  simp only [hmod, hdiv]
  congr 1
  congr 1
  omega

theorem testBit_code_ge {w dim : ℕ} {u : ℕ → ℕ} {i : ℕ} (h : w * dim ≤ i) :
    (Spec.code w dim u).testBit i = false := by
  unfold Spec.code
  exact Nat.testBit_ofBits_ge _ _ h

/-- Every bit position of the code belongs to a coordinate. -/
theorem code_pos {w dim i : ℕ} (h : i < w * dim) :
    ∃ b d, b < w ∧ d < dim ∧ i = b * dim + (dim - 1 - d) := by
  have hdim : 0 < dim := by
    rcases Nat.eq_zero_or_pos dim with h0 | h0
    · rw [h0] at h; omega
    · exact h0
  refine ⟨i / dim, dim - 1 - i % dim, ?_, ?_, ?_⟩
  · rw [Nat.div_lt_iff_lt_mul hdim]; exact h
  · omega
  · have h1 := Nat.div_add_mod i dim
    have h2 := Nat.mod_lt i hdim
    rw [Nat.mul_comm] at h1
    omega

theorem code_inj {w dim : ℕ} {u v : ℕ → ℕ} (hu : ∀ d < dim, u d < 2 ^ w) (hv : ∀ d < dim, v d < 2 ^ w)
    (h : Spec.code w dim u = Spec.code w dim v) : ∀ d < dim, u d = v d := by
  intro d hd
  apply Nat.eq_of_testBit_eq
  intro b
  rcases Nat.lt_or_ge b w with hb | hb
  · rw [← testBit_code hb hd, h, testBit_code hb hd]
  · rw [Nat.testBit_lt_two_pow (lt_of_lt_of_le (hu d hd) (Nat.pow_le_pow_right (by omega) hb)),
      Nat.testBit_lt_two_pow (lt_of_lt_of_le (hv d hd) (Nat.pow_le_pow_right (by omega) hb))]

theorem code_congr {w dim : ℕ} {u v : ℕ → ℕ} (h : ∀ d < dim, u d = v d) : Spec.code w dim u = Spec.code w dim v := by
  unfold Spec.code
  congr 1
  funext i
  have : 0 < dim := by
    rcases Nat.eq_zero_or_pos dim with h0 | h0
    · have := i.isLt; simp [h0] at this
    · exact h0
  rw [h _ (by omega)]

/-- `s` is the first coordinate, among those up to `n`, with the longest xor. -/
structure IsFirstMax (x : ℕ → ℕ) (n s : ℕ) : Prop where
  le : s ≤ n
  ge_all : ∀ d ≤ n, (x d).size ≤ (x s).size
  first : ∀ d < s, (x d).size < (x s).size

/-- The comparison of two vectors on the first coordinate with the longest xor is the comparison of the codes. -/
theorem code_lt_iff {w dim : ℕ} {u v : ℕ → ℕ} (hdim : 0 < dim) (hu : ∀ d < dim, u d < 2 ^ w)
    (hv : ∀ d < dim, v d < 2 ^ w) {s : ℕ} (hs : IsFirstMax (fun d => u d ^^^ v d) (dim - 1) s) :
    Spec.code w dim u < Spec.code w dim v ↔ u s < v s := by
  have hsd : s < dim := by have := hs.le; omega
  by_cases h0 : (u s ^^^ v s).size = 0
  · have heq : ∀ d < dim, u d = v d := by
      intro d hd
      have := hs.ge_all d (by omega)
      have h1 : (u d ^^^ v d).size = 0 := by omega
      rw [Nat.size_eq_zero] at h1
      exact Nat.xor_eq_zero_iff.1 h1
    rw [code_congr heq, heq s hsd]; simp
  · set b := (u s ^^^ v s).size - 1 with hb
    have hbw : b < w := by
      have : (u s ^^^ v s).size ≤ w := by
        rw [Nat.size_le]; exact Nat.xor_lt_two_pow (hu s hsd) (hv s hsd)
      omega
    set i := b * dim + (dim - 1 - s) with hi
    have hilt : i < w * dim := by
      calc i < b * dim + dim := by omega
        _ = (b + 1) * dim := by ring
        _ ≤ w * dim := Nat.mul_le_mul_right _ hbw
    have hxor : (Spec.code w dim u ^^^ Spec.code w dim v).size = i + 1 := by
      apply size_eq_of_bit
      · rw [Nat.testBit_xor, hi, testBit_code hbw hsd, testBit_code hbw hsd, ← Nat.testBit_xor]
        exact testBit_top h0
      · intro j hj
        rcases Nat.lt_or_ge j (w * dim) with hjl | hjl
        · obtain ⟨c, d, hc, hd, rfl⟩ := code_pos hjl
          rw [Nat.testBit_xor, testBit_code hc hd, testBit_code hc hd, ← Nat.testBit_xor]
          apply testBit_above
          have hge := hs.ge_all d (by omega)
          rcases Nat.lt_trichotomy c b with hcb | hcb | hcb
          · have : c * dim + (dim - 1 - d) < b * dim := by
              calc c * dim + (dim - 1 - d) < c * dim + dim := by omega
                _ = (c + 1) * dim := by ring
                _ ≤ b * dim := Nat.mul_le_mul_right _ hcb
            omega
          · rw [hcb] at hj ⊢
            have hds : d < s := by omega
            have := hs.first d hds
            omega
          · omega
        · rw [Nat.testBit_xor, testBit_code_ge hjl, testBit_code_ge hjl]; rfl
    rw [lt_iff_top_bit (by omega), hxor, lt_iff_top_bit h0, Nat.add_sub_cancel, hi, testBit_code hbw hsd]

/-! ### The comparison loop -/

theorem cmpLoop_inv (t : ITy) (v1 v2 : ℕ → BitVec t.w) (n : ℕ) (hn : n < 2 ^ t.w) :
    (cmpLoop t v1 v2 n).2 = xorSign t (v1 (cmpLoop t v1 v2 n).1) (v2 (cmpLoop t v1 v2 n).1) ∧
    IsFirstMax (fun d => Spec.bias t (v1 d) ^^^ Spec.bias t (v2 d)) n (cmpLoop t v1 v2 n).1 := by
  induction n with
  | zero =>
    refine ⟨rfl, ⟨le_refl _, ?_, ?_⟩⟩
    · intro d hd
      have : d = 0 := by omega
      subst this; exact le_refl _
    · intro d hd; simp [cmpLoop] at hd
  | succ n ih =>
    obtain ⟨ih1, ih2⟩ := ih (by omega)
    simp only [cmpLoop]
    by_cases hm : msb (cmpLoop t v1 v2 n).2 (xorSign t (v1 (n + 1)) (v2 (n + 1))) = true
    · rw [if_pos hm]
      rw [msb_iff, ih1, xorSign_eq, xorSign_eq] at hm
      rw [Nat.mod_eq_of_lt hn]
      refine ⟨rfl, ⟨le_refl _, ?_, ?_⟩⟩
      · intro d hd
        rcases Nat.lt_or_ge d (n + 1) with h | h
        · have := ih2.ge_all d (by omega)
          simp only at this ⊢; omega
        · have : d = n + 1 := by omega
          subst this; exact le_refl _
      · intro d hd
        have := ih2.ge_all d (by simp only at hd; omega)
        simp only at this ⊢; omega
    · rw [if_neg hm]
      rw [msb_iff, ih1, xorSign_eq, xorSign_eq] at hm
      refine ⟨ih1, ⟨by have := ih2.le; omega, ?_, ih2.first⟩⟩
      intro d hd
      rcases Nat.lt_or_ge d (n + 1) with h | h
      · exact ih2.ge_all d (by omega)
      · have : d = n + 1 := by omega
        subst this
        omega

theorem mortonCmpInt_iff (t : ITy) (dim : ℕ) (v1 v2 : ℕ → BitVec t.w) (h0 : 0 < dim) (h1 : dim ≤ 2 ^ t.w) :
    mortonCmpInt t dim v1 v2 = true ↔ Spec.mcode t dim v1 < Spec.mcode t dim v2 := by
  obtain ⟨-, hmax⟩ := cmpLoop_inv t v1 v2 (dim - 1) (by omega)
  unfold mortonCmpInt Spec.mcode
  simp only [ITy.lt, decide_eq_true_eq]
  rw [code_lt_iff h0 (fun d _ => bias_lt t _) (fun d _ => bias_lt t _) hmax, val_lt_iff]

/-! ### Distance -/

theorem distLoop_le (t : ITy) (v1 v2 : ℕ → BitVec t.w) (n : ℕ) (k : ℤ) :
    distLoop t v1 v2 n ≤ k ↔
      0 ≤ k ∧ ∀ d < n, Spec.SameCell k.toNat (Spec.bias t (v1 d)) (Spec.bias t (v2 d)) := by
  induction n with
  | zero => simp [distLoop]
  | succ n ih =>
    have hl : (t.w : ℤ) - nlz t (xorSign t (v1 n) (v2 n)) = ((Spec.bias t (v1 n) ^^^ Spec.bias t (v2 n)).size : ℤ) := by
      rw [nlz_eq, xorSign_eq]; omega
    have key : distLoop t v1 v2 (n + 1) ≤ k ↔
        distLoop t v1 v2 n ≤ k ∧ ((Spec.bias t (v1 n) ^^^ Spec.bias t (v2 n)).size : ℤ) ≤ k := by
      simp only [distLoop, hl]
      split_ifs <;> omega
    rw [key, ih]
    have h2 : 0 ≤ k → (((Spec.bias t (v1 n) ^^^ Spec.bias t (v2 n)).size : ℤ) ≤ k ↔
        Spec.SameCell k.toNat (Spec.bias t (v1 n)) (Spec.bias t (v2 n))) := by
      intro hk
      rw [← size_xor_le]; omega
    constructor
    · rintro ⟨⟨hk, ha⟩, hb⟩
      refine ⟨hk, fun d hd => ?_⟩
      rcases Nat.lt_or_ge d n with h | h
      · exact ha d h
      · have : d = n := by omega
        subst this; exact (h2 hk).1 hb
    · rintro ⟨hk, ha⟩
      exact ⟨⟨hk, fun d hd => ha d (by omega)⟩, (h2 hk).2 (ha n (by omega))⟩

theorem distLoop_nonneg (t : ITy) (v1 v2 : ℕ → BitVec t.w) (n : ℕ) : 0 ≤ distLoop t v1 v2 n :=
  ((distLoop_le t v1 v2 n _).1 (le_refl _)).1

end Verif.Morton
