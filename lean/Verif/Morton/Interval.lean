import Verif.Morton.Lemmas

/-! Lemmas on `intervalPow2Int` and `mortonSplitInt`. -/
namespace Verif.Morton
open Verif.NumericTraits Verif.BitManip

/-- Number of bits of the xor of two biased coordinates. -/
abbrev lev (t : ITy) (x y : BitVec t.w) : ℕ := (Spec.bias t x ^^^ Spec.bias t y).size

theorem lev_le (t : ITy) (x y : BitVec t.w) : lev t x y ≤ t.w := by
  rw [Nat.size_le]; exact Nat.xor_lt_two_pow (bias_lt t x) (bias_lt t y)

theorem lev_eq_zero (t : ITy) (x y : BitVec t.w) : lev t x y = 0 ↔ x = y := by
  rw [Nat.size_eq_zero, Nat.xor_eq_zero_iff, bias_inj]

/-- Bits of the biased value. -/
theorem testBit_bias (t : ITy) (x : BitVec t.w) (j : ℕ) :
    (Spec.bias t x).testBit j = (x.toNat.testBit j ^^ (t.signed && decide (t.w - 1 = j))) := by
  cases h : t.signed
  · rw [bias_unsigned h]; simp
  · rw [bias_signed h, Nat.testBit_xor, Nat.testBit_two_pow]; simp

theorem testBit_mul_div (b k j : ℕ) : (b / 2 ^ k * 2 ^ k).testBit j = (decide (k ≤ j) && b.testBit j) := by
  rw [← Nat.shiftRight_eq_div_pow, ← Nat.shiftLeft_eq, Nat.testBit_shiftLeft, Nat.testBit_shiftRight]
  by_cases h : k ≤ j
  · simp [h]
  · simp [h]

theorem ofInt_mask_toNat {w k : ℕ} (hk : k < w) : (BitVec.ofInt w (2 ^ k - 1)).toNat = 2 ^ k - 1 := by
  have h1 : (2 : ℕ) ^ k < 2 ^ w := Nat.pow_lt_pow_right (by omega) hk
  have h2 : 0 < (2 : ℕ) ^ k := by positivity
  have : ((2 : ℤ) ^ k - 1) = ((2 ^ k - 1 : ℕ) : ℤ) := by push_cast [Nat.cast_sub h2]; ring
  rw [this, BitVec.ofInt_natCast, BitVec.toNat_ofNat, Nat.mod_eq_of_lt (by omega)]

theorem ofInt_pow_toNat {w k : ℕ} (hk : k < w) : (BitVec.ofInt w (2 ^ k)).toNat = 2 ^ k := by
  have h1 : (2 : ℕ) ^ k < 2 ^ w := Nat.pow_lt_pow_right (by omega) hk
  have : ((2 : ℤ) ^ k) = ((2 ^ k : ℕ) : ℤ) := by push_cast; ring
  rw [this, BitVec.ofInt_natCast, BitVec.toNat_ofNat, Nat.mod_eq_of_lt h1]

theorem low_bias (t : ITy) (x : BitVec t.w) {k : ℕ} (hk : k < t.w) :
    Spec.bias t (x &&& ~~~(BitVec.ofInt t.w (2 ^ k - 1))) = Spec.bias t x / 2 ^ k * 2 ^ k := by
  apply Nat.eq_of_testBit_eq
  intro j
  rw [testBit_mul_div, testBit_bias, testBit_bias, BitVec.toNat_and, Nat.testBit_and]
  rcases Nat.lt_or_ge j t.w with hj | hj
  · have h1 : (~~~(BitVec.ofInt t.w (2 ^ k - 1))).toNat.testBit j = !decide (j < k) := by
      rw [BitVec.testBit_toNat, BitVec.getLsbD_not, ← BitVec.testBit_toNat, ofInt_mask_toNat hk,
        Nat.testBit_two_pow_sub_one]
      simp [hj]
    rw [h1]
    by_cases hjk : k ≤ j
    · simp [hjk, Nat.not_lt.2 hjk]
    · have : j < k := by omega
      have hne : ¬ (t.w - 1 = j) := by omega
      simp [hjk, this, hne]
  · have h1 : x.toNat.testBit j = false :=
      Nat.testBit_lt_two_pow (lt_of_lt_of_le x.isLt (Nat.pow_le_pow_right (by omega) hj))
    have hne : ¬ (t.w - 1 = j) := by have := w_pos t; omega
    simp [h1, hne]

theorem or_low_bias (t : ITy) (x m : BitVec t.w) {k : ℕ} (hk : k < t.w) (hm : m.toNat < 2 ^ k) {b : ℕ}
    (hx : Spec.bias t x = b * 2 ^ k) : Spec.bias t (x ||| m) = b * 2 ^ k + m.toNat := by
  have e : b * 2 ^ k + m.toNat = b * 2 ^ k ||| m.toNat := by
    rw [← Nat.shiftLeft_eq, Nat.shiftLeft_add_eq_or_of_lt hm]
  rw [e, ← hx]
  apply Nat.eq_of_testBit_eq
  intro j
  rw [Nat.testBit_or, testBit_bias, testBit_bias, BitVec.toNat_or, Nat.testBit_or]
  rcases Nat.lt_or_ge j k with hj | hj
  · have hne : ¬ (t.w - 1 = j) := by omega
    simp [hne]
  · have : m.toNat.testBit j = false :=
      Nat.testBit_lt_two_pow (lt_of_lt_of_le hm (Nat.pow_le_pow_right (by omega) hj))
    simp [this]

/-- Result of `intervalPow2Int` on biased values. -/
structure GoodInterval (t : ITy) (x y : BitVec t.w) (r : Pow2Interval t.w) : Prop where
  level : r.level = (lev t x y : ℤ)
  low : Spec.bias t r.low = Spec.bias t x / 2 ^ (lev t x y) * 2 ^ (lev t x y)
  upp : Spec.bias t r.upp = Spec.bias t x / 2 ^ (lev t x y) * 2 ^ (lev t x y) + (2 ^ (lev t x y) - 1)
  mid : x ≠ y → Spec.bias t r.mid = Spec.bias t x / 2 ^ (lev t x y) * 2 ^ (lev t x y) + 2 ^ (lev t x y - 1)

theorem level_eq (t : ITy) (x y : BitVec t.w) : (t.w : ℤ) - nlz t (xorSign t x y) = (lev t x y : ℤ) := by
  rw [nlz_eq, xorSign_eq]; simp only [lev]; omega

theorem shl1_small {k : ℕ} (hk : k ≤ 30) : shl1 (k : ℤ) = .ok (2 ^ k) := by
  unfold shl1
  rw [if_neg (by omega), if_neg (by omega)]
  simp

theorem int_mask {k : ℕ} (hk : k ≤ 30) : Cxx.int ((2 : ℤ) ^ k - 1) = .ok ((2 : ℤ) ^ k - 1) := by
  have h1 : (2 : ℤ) ^ k ≤ 2 ^ 30 := pow_le_pow_right₀ (by norm_num) hk
  have h2 : (0 : ℤ) < 2 ^ k := by positivity
  unfold Cxx.int
  rw [if_pos]
  norm_num at h1 ⊢
  omega

/-- Ordinary case: the arguments differ and share their high bits. -/
theorem interval_small (shlNeg : Outcome Int) (t : ITy) (x y : BitVec t.w) (h30 : lev t x y ≤ 30) (hw : lev t x y < t.w)
    (h : x ≠ y ∨ ∃ m, shlNeg = .ok m) : ∃ r, intervalPow2Int shlNeg t x y = .ok r ∧ GoodInterval t x y r := by
  unfold intervalPow2Int
  simp only [level_eq]
  rw [if_pos (by omega), shl1_small h30]
  simp only [bind, Except.bind, int_mask h30, pure, Except.pure]
  have hlow := low_bias t x hw
  have hmask := ofInt_mask_toNat hw
  have hp : 0 < 2 ^ lev t x y := by positivity
  have hupp := or_low_bias t (x &&& ~~~(BitVec.ofInt t.w (2 ^ lev t x y - 1))) (BitVec.ofInt t.w (2 ^ lev t x y - 1)) hw
    (by rw [hmask]; omega) hlow
  by_cases hxy : x = y
  · rcases h with h | ⟨m, hm⟩
    · exact absurd hxy h
    · have h0 := (lev_eq_zero t x y).2 hxy
      rw [if_pos (by rw [h0]; rfl), hm]
      refine ⟨_, rfl, ⟨rfl, hlow, ?_, fun h => absurd hxy h⟩⟩
      rw [hupp, hmask]
  · have h0 : lev t x y ≠ 0 := fun h => hxy ((lev_eq_zero t x y).1 h)
    rw [if_neg (by omega), show ((lev t x y : ℤ) - 1) = ((lev t x y - 1 : ℕ) : ℤ) by omega, shl1_small (by omega)]
    have hhalf := ofInt_pow_toNat (w := t.w) (k := lev t x y - 1) (by omega)
    have hmid := or_low_bias t (x &&& ~~~(BitVec.ofInt t.w (2 ^ lev t x y - 1))) (BitVec.ofInt t.w (2 ^ (lev t x y - 1))) hw
      (by rw [hhalf]; exact Nat.pow_lt_pow_right (by omega) (by omega)) hlow
    refine ⟨_, rfl, ⟨rfl, hlow, ?_, fun _ => ?_⟩⟩
    · rw [hupp, hmask]
    · rw [hmid, hhalf]

theorem const_bias (t : ITy) :
    Spec.bias t (BitVec.ofInt t.w (minVal t)) = 0 ∧ Spec.bias t (BitVec.ofInt t.w (maxVal t)) = 2 ^ t.w - 1 ∧
    (t.signed = true → Spec.bias t (BitVec.ofInt t.w ((maxVal t + minVal t).tdiv 2)) = 2 ^ (t.w - 1)) := by
  cases t <;> decide +kernel

/-- Opposite signs: the interval is the whole range. -/
theorem interval_full (shlNeg : Outcome Int) (t : ITy) (x y : BitVec t.w) (hs : t.signed = true) (hw : lev t x y = t.w) :
    ∃ r, intervalPow2Int shlNeg t x y = .ok r ∧ GoodInterval t x y r := by
  unfold intervalPow2Int
  simp only [level_eq]
  rw [if_neg (by omega)]
  obtain ⟨h1, h2, h3⟩ := const_bias t
  have hb : Spec.bias t x / 2 ^ t.w = 0 := Nat.div_eq_of_lt (bias_lt t x)
  refine ⟨_, rfl, ⟨rfl, ?_, ?_, fun _ => ?_⟩⟩
  · rw [hw, hb, h1]; simp
  · rw [hw, hb, h2]; simp
  · rw [hw, hb, h3 hs]; simp

theorem lev_of_signs (t : ITy) (x y : BitVec t.w) (hs : t.signed = true) (h : ¬ (t.val x < 0 ↔ t.val y < 0)) :
    lev t x y = t.w := by
  apply le_antisymm (lev_le t x y)
  by_contra hlt
  have h1 : Spec.SameCell (t.w - 1) (Spec.bias t x) (Spec.bias t y) := by
    rw [← size_xor_le]; simp only [lev] at hlt; omega
  apply h
  have hx := bias_cast t x
  have hy := bias_cast t y
  rw [hs, if_pos rfl] at hx hy
  have ep : (2 : ℤ) ^ (t.w - 1) = ((2 ^ (t.w - 1) : ℕ) : ℤ) := by push_cast; rfl
  rw [ep] at hx hy
  have hp : 0 < 2 ^ (t.w - 1) := by positivity
  unfold Spec.SameCell at h1
  have e1 : Spec.bias t x < 2 ^ (t.w - 1) ↔ Spec.bias t y < 2 ^ (t.w - 1) := by
    rw [← Nat.div_eq_zero_iff_lt hp, ← Nat.div_eq_zero_iff_lt hp, h1]
  omega

theorem interval_nice (shlNeg : Outcome Int) (t : ITy) (x y : BitVec t.w) (hn : Spec.Nice t x y)
    (h : x ≠ y ∨ ∃ m, shlNeg = .ok m) : ∃ r, intervalPow2Int shlNeg t x y = .ok r ∧ GoodInterval t x y r := by
  rcases hn with hn | ⟨hs, hn⟩
  · rw [← size_xor_le] at hn
    have := w_pos t
    exact interval_small shlNeg t x y (by simp only [lev]; omega) (by simp only [lev]; omega) h
  · exact interval_full shlNeg t x y hs (lev_of_signs t x y hs hn)

/-! ### Consequences for the numbers -/

/-- Both numbers lie in the common cell. -/
theorem cell_mem {a b k : ℕ} (h : Spec.SameCell k a b) :
    a / 2 ^ k * 2 ^ k ≤ b ∧ b < a / 2 ^ k * 2 ^ k + 2 ^ k := by
  unfold Spec.SameCell at h
  have hp : 0 < 2 ^ k := by positivity
  rw [h]
  have h1 := Nat.div_add_mod' b (2 ^ k)
  have h2 := Nat.mod_lt b hp
  omega

theorem sameCell_mono {a b k l : ℕ} (hkl : k ≤ l) (h : Spec.SameCell k a b) : Spec.SameCell l a b := by
  rw [← size_xor_le] at *; omega

/-- The smaller number is in the lower half and the larger in the upper half of the smallest common cell. -/
theorem cell_split {a b : ℕ} (hlt : a < b) :
    a < a / 2 ^ (a ^^^ b).size * 2 ^ (a ^^^ b).size + 2 ^ ((a ^^^ b).size - 1) ∧
    a / 2 ^ (a ^^^ b).size * 2 ^ (a ^^^ b).size + 2 ^ ((a ^^^ b).size - 1) ≤ b := by
  set k := (a ^^^ b).size with hk
  have hk0 : k ≠ 0 := by
    intro h0
    rw [hk, Nat.size_eq_zero, Nat.xor_eq_zero_iff] at h0; omega
  have hc : Spec.SameCell k a b := size_xor_le.1 (le_refl _)
  have hnc : ¬ Spec.SameCell (k - 1) a b := by rw [← size_xor_le]; omega
  have ha := cell_mem (show Spec.SameCell k a a from rfl)
  have hb := cell_mem hc
  set L := a / 2 ^ k * 2 ^ k with hL
  have hp2 : 2 ^ k = 2 * 2 ^ (k - 1) := by rw [← pow_succ']; congr 1; omega
  have hp : 0 < 2 ^ (k - 1) := by positivity
  -- quotients by the half size
  have hLd : L = (2 * (a / 2 ^ k)) * 2 ^ (k - 1) := by rw [hL, hp2]; ring
  have q : ∀ c, L ≤ c → c < L + 2 ^ (k - 1) → c / 2 ^ (k - 1) = 2 * (a / 2 ^ k) := by
    intro c h1 h2
    rw [hLd] at h1 h2
    exact Nat.div_eq_of_lt_le h1 (by rw [Nat.add_mul, Nat.one_mul]; exact h2)
  have q' : ∀ c, L + 2 ^ (k - 1) ≤ c → c < L + 2 ^ k → c / 2 ^ (k - 1) = 2 * (a / 2 ^ k) + 1 := by
    intro c h1 h2
    rw [hp2] at h2
    rw [hLd] at h1 h2
    apply Nat.div_eq_of_lt_le
    · rw [Nat.add_mul, Nat.one_mul]; exact h1
    · rw [Nat.add_mul, Nat.add_mul, Nat.one_mul]; omega
  unfold Spec.SameCell at hnc
  constructor
  · by_contra h
    exact hnc (by rw [q' a (by omega) (by omega), q' b (by omega) (by omega)])
  · by_contra h
    exact hnc (by rw [q a (by omega) (by omega), q b (by omega) (by omega)])

/-! ### Split -/

theorem exists_firstMax (x : ℕ → ℕ) (n : ℕ) : ∃ s, IsFirstMax x n s := by
  induction n with
  | zero => exact ⟨0, le_refl _, fun d hd => by rw [Nat.le_zero.1 hd], fun d hd => by omega⟩
  | succ n ih =>
    obtain ⟨s, hs⟩ := ih
    by_cases h : (x s).size < (x (n + 1)).size
    · refine ⟨n + 1, le_refl _, fun d hd => ?_, fun d hd => ?_⟩
      · rcases Nat.lt_or_ge d (n + 1) with h' | h'
        · have := hs.ge_all d (by omega); omega
        · rw [show d = n + 1 by omega]
      · have := hs.ge_all d (by omega); omega
    · refine ⟨s, by have := hs.le; omega, fun d hd => ?_, hs.first⟩
      rcases Nat.lt_or_ge d (n + 1) with h' | h'
      · exact hs.ge_all d (by omega)
      · rw [show d = n + 1 by omega]; omega

/-- The Morton code is monotone in every coordinate. -/
theorem code_mono {w dim : ℕ} {u v : ℕ → ℕ} (hdim : 0 < dim) (hu : ∀ d < dim, u d < 2 ^ w)
    (hv : ∀ d < dim, v d < 2 ^ w) (h : ∀ d < dim, u d ≤ v d) : Spec.code w dim u ≤ Spec.code w dim v := by
  obtain ⟨s, hs⟩ := exists_firstMax (fun d => v d ^^^ u d) (dim - 1)
  by_contra hlt
  rw [not_le, code_lt_iff hdim hv hu hs] at hlt
  have := h s (by have := hs.le; omega)
  omega

/-- Cells of the codes are the products of the cells of the coordinates. -/
theorem code_sameCell {w dim : ℕ} {u v : ℕ → ℕ} (hu : ∀ d < dim, u d < 2 ^ w)
    (hv : ∀ d < dim, v d < 2 ^ w) (k : ℕ) :
    Spec.SameCell (k * dim) (Spec.code w dim u) (Spec.code w dim v) ↔ ∀ d < dim, Spec.SameCell k (u d) (v d) := by
  unfold Spec.SameCell
  simp only [← Nat.shiftRight_eq_div_pow]
  constructor
  · intro h d hd
    apply Nat.eq_of_testBit_eq
    intro j
    rw [Nat.testBit_shiftRight, Nat.testBit_shiftRight]
    rcases Nat.lt_or_ge (k + j) w with hj | hj
    · have h1 := congrArg (fun z => Nat.testBit z (j * dim + (dim - 1 - d))) h
      simp only [Nat.testBit_shiftRight] at h1
      rwa [← Nat.add_assoc, ← Nat.add_mul, testBit_code hj hd, testBit_code hj hd] at h1
    · rw [Nat.testBit_lt_two_pow (lt_of_lt_of_le (hu d hd) (Nat.pow_le_pow_right (by omega) hj)),
        Nat.testBit_lt_two_pow (lt_of_lt_of_le (hv d hd) (Nat.pow_le_pow_right (by omega) hj))]
  · intro h
    apply Nat.eq_of_testBit_eq
    intro i
    rw [Nat.testBit_shiftRight, Nat.testBit_shiftRight]
    rcases Nat.lt_or_ge (k * dim + i) (w * dim) with hi | hi
    · obtain ⟨b, d, hb, hd, he⟩ := code_pos hi
      rw [he, testBit_code hb hd, testBit_code hb hd]
      have hkb : k ≤ b := by
        by_contra hlt
        have : (b + 1) * dim ≤ k * dim := Nat.mul_le_mul_right _ (by omega)
        rw [Nat.add_mul, Nat.one_mul] at this
        omega
      have h1 := congrArg (fun z => Nat.testBit z (b - k)) (h d hd)
      simp only [Nat.testBit_shiftRight] at h1
      rwa [show k + (b - k) = b by omega] at h1
    · rw [testBit_code_ge hi, testBit_code_ge hi]

/-- What is known of the loop of `mortonSplitInt` after the iterations `d ≤ n`. -/
structure GoodSplit (t : ITy) (v1 v2 : ℕ → BitVec t.w) (n : ℕ) (s : Split t.w) : Prop where
  first : IsFirstMax (fun d => Spec.bias t (v1 d) ^^^ Spec.bias t (v2 d)) n s.dimSplit
  level : s.levelSplit = (lev t (v1 s.dimSplit) (v2 s.dimSplit) : ℤ)
  low : ∀ d ≤ n, Spec.bias t (s.low d) = Spec.bias t (v1 d) / 2 ^ (lev t (v1 d) (v2 d)) * 2 ^ (lev t (v1 d) (v2 d))
  upp : ∀ d ≤ n, Spec.bias t (s.upp d) = Spec.bias t (v1 d) / 2 ^ (lev t (v1 d) (v2 d)) * 2 ^ (lev t (v1 d) (v2 d)) +
    (2 ^ (lev t (v1 d) (v2 d)) - 1)
  mid : ∀ d ≤ n, d ≠ s.dimSplit → s.mid d = s.low d
  midSplit : v1 s.dimSplit ≠ v2 s.dimSplit → Spec.bias t (s.mid s.dimSplit) =
    Spec.bias t (v1 s.dimSplit) / 2 ^ (lev t (v1 s.dimSplit) (v2 s.dimSplit)) * 2 ^ (lev t (v1 s.dimSplit) (v2 s.dimSplit)) +
      2 ^ (lev t (v1 s.dimSplit) (v2 s.dimSplit) - 1)

theorem splitLoop_good (shlNeg : Outcome Int) (t : ITy) (v1 v2 : ℕ → BitVec t.w) (n : ℕ)
    (h : ∀ d ≤ n, Spec.Nice t (v1 d) (v2 d) ∧ (v1 d ≠ v2 d ∨ ∃ m, shlNeg = .ok m)) :
    ∃ s, splitLoop shlNeg t v1 v2 n = .ok s ∧ GoodSplit t v1 v2 n s := by
  induction n with
  | zero =>
    obtain ⟨r, hr, g⟩ := interval_nice shlNeg t (v1 0) (v2 0) (h 0 (le_refl _)).1 (h 0 (le_refl _)).2
    simp only [splitLoop, hr, bind, Except.bind, pure, Except.pure]
    refine ⟨_, rfl, ⟨⟨le_refl _, fun d hd => ?_, fun d hd => absurd hd (Nat.not_lt_zero d)⟩, g.level, fun d hd => ?_,
      fun d hd => ?_, fun d hd hne => absurd (Nat.le_zero.1 hd) hne, fun hne => ?_⟩⟩
    · rw [Nat.le_zero.1 hd]
    · rw [Nat.le_zero.1 hd]; simpa [upd] using g.low
    · rw [Nat.le_zero.1 hd]; simpa [upd] using g.upp
    · simpa [upd] using g.mid hne
  | succ n ih =>
    obtain ⟨s, hs, gs⟩ := ih (fun d hd => h d (by omega))
    obtain ⟨r, hr, g⟩ := interval_nice shlNeg t (v1 (n + 1)) (v2 (n + 1)) (h _ (le_refl _)).1 (h _ (le_refl _)).2
    simp only [splitLoop, hs, hr, bind, Except.bind, pure, Except.pure]
    have hsn := gs.first.le
    have hlow : ∀ d ≤ n + 1, Spec.bias t (upd s.low (n + 1) r.low d) =
        Spec.bias t (v1 d) / 2 ^ (lev t (v1 d) (v2 d)) * 2 ^ (lev t (v1 d) (v2 d)) := by
      intro d hd
      by_cases hd' : d = n + 1
      · subst hd'; simpa [upd] using g.low
      · simpa [upd, hd'] using gs.low d (by omega)
    have hupp : ∀ d ≤ n + 1, Spec.bias t (upd s.upp (n + 1) r.upp d) =
        Spec.bias t (v1 d) / 2 ^ (lev t (v1 d) (v2 d)) * 2 ^ (lev t (v1 d) (v2 d)) + (2 ^ (lev t (v1 d) (v2 d)) - 1) := by
      intro d hd
      by_cases hd' : d = n + 1
      · subst hd'; simpa [upd] using g.upp
      · simpa [upd, hd'] using gs.upp d (by omega)
    by_cases hl : r.level > s.levelSplit
    · rw [if_pos hl]
      rw [g.level, gs.level] at hl
      simp only [lev] at hl
      refine ⟨_, rfl, ⟨⟨le_refl _, fun d hd => ?_, fun d hd => ?_⟩, g.level, hlow, hupp, fun d hd hne => ?_, fun hne => ?_⟩⟩
      · rcases Nat.lt_or_ge d (n + 1) with h' | h'
        · have := gs.first.ge_all d (by omega)
          simp only at this ⊢; omega
        · rw [show d = n + 1 by omega]
      · have := gs.first.ge_all d (by simp only at hd; omega)
        simp only at this ⊢; omega
      · simp only at hne ⊢
        by_cases hds : d = s.dimSplit
        · simp [upd, hds]
        · simp only [upd, hds, hne, if_false]
          exact gs.mid d (by omega) hds
      · simp only
        have h1 : n + 1 ≠ s.dimSplit := by omega
        simpa [upd, h1] using g.mid hne
    · rw [if_neg hl]
      rw [g.level, gs.level] at hl
      simp only [lev] at hl
      refine ⟨_, rfl, ⟨⟨by simp only; omega, fun d hd => ?_, gs.first.first⟩, gs.level, hlow, hupp, fun d hd hne => ?_, fun hne => ?_⟩⟩
      · rcases Nat.lt_or_ge d (n + 1) with h' | h'
        · exact gs.first.ge_all d (by omega)
        · rw [show d = n + 1 by omega]; simp only; omega
      · simp only at hne ⊢
        by_cases hds : d = n + 1
        · simp [upd, hds]
        · simp only [upd, hds, if_false]
          exact gs.mid d (by omega) hne
      · simp only at hne ⊢
        have h1 : s.dimSplit ≠ n + 1 := by omega
        simpa [upd, h1] using gs.midSplit hne

end Verif.Morton
