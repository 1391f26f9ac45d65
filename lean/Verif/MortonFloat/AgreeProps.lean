import Verif.MortonFloat.Regular
import Verif.Morton.ExactProps

/-! Property theorem C154 (see properties.jsonl): the Morton order of integers and the Morton order of the same numbers as floats. -/
namespace Verif.MortonFloat
open Verif.NumericTraits Verif.MortonFloat.Spec Verif.Morton

/-- The float `a` is exactly the integer `x` times 2^(p - 150) (`scaled` is the value in units of 2^-150). With p = 150 it is the integer itself; this is what
`res * pInt[d]` of test_morton_order.cpp:61-62 yields when `res` is the power of two 2^(p - 150) and the integer has at most 24 significant bits. -/
def Same (t : ITy) (p : ℕ) (x : BitVec t.w) (a : BitVec 32) : Prop := Finite a ∧ a ≠ 0x80000000#32 ∧ scaled a = t.val x * 2 ^ p

theorem size_mul_pow {n p : ℕ} (h : n ≠ 0) : (n * 2 ^ p).size = n.size + p := by
  rw [← Nat.shiftLeft_eq, Nat.size_shiftLeft h]

/-- Length of the xor of two floats in terms of the length of the xor of the integers. -/
def lift (t : ITy) (p k : ℕ) : ℕ := if k = 0 then 0 else if t.signed = true ∧ k = t.w then 279 else k + p

theorem lift_lt {t : ITy} {p k l : ℕ} (hp : p + t.w ≤ 278) (hk : k ≤ t.w) (hl : l ≤ t.w) : lift t p k < lift t p l ↔ k < l := by
  unfold lift
  cases t.signed
  · simp only [Bool.false_eq_true, false_and, if_false]
    split_ifs <;> omega
  · simp only [true_and]
    split_ifs <;> omega

theorem same_biased {t : ITy} {p : ℕ} {x : BitVec t.w} {a : BitVec 32} (h : Same t p x a) (hp : p + t.w ≤ 278) :
    biased a = (Morton.Spec.bias t x + (2 ^ (278 - p) - (if t.signed = true then 2 ^ (t.w - 1) else 0))) * 2 ^ p := by
  have hc := biased_cast h.1
  have hb := bias_cast t x
  rw [h.2.2] at hc
  have e : (2 : ℤ) ^ 278 = 2 ^ (278 - p) * 2 ^ p := by rw [← pow_add]; congr 1; omega
  have hle : (if t.signed = true then 2 ^ (t.w - 1) else 0) ≤ 2 ^ (278 - p) := by
    split
    · exact Nat.pow_le_pow_right (by norm_num) (by omega)
    · exact Nat.zero_le _
  zify [hle]
  rw [hc, hb, e, ← add_mul]
  congr 1
  ring

theorem sameCell_add {x y k c : ℕ} (h : 2 ^ k ∣ c) : Morton.Spec.SameCell k (x + c) (y + c) ↔ Morton.Spec.SameCell k x y := by
  obtain ⟨q, rfl⟩ := h
  unfold Morton.Spec.SameCell
  rw [Nat.add_mul_div_left _ _ (by positivity), Nat.add_mul_div_left _ _ (by positivity)]
  omega

theorem size_lift {t : ITy} {p : ℕ} {x y : BitVec t.w} {a b : BitVec 32} (ha : Same t p x a) (hb : Same t p y b) (hp : p + t.w ≤ 278) :
    (biased a ^^^ biased b).size = lift t p (Morton.Spec.bias t x ^^^ Morton.Spec.bias t y).size := by
  rw [same_biased ha hp, same_biased hb hp]
  have hx := bias_lt t x
  have hy := bias_lt t y
  have hw := w_pos t
  have hpw := pow_w t
  generalize Morton.Spec.bias t x = X at *
  generalize Morton.Spec.bias t y = Y at *
  set C := 2 ^ (278 - p) - (if t.signed = true then 2 ^ (t.w - 1) else 0) with hC
  have hle : (if t.signed = true then 2 ^ (t.w - 1) else 0) ≤ 2 ^ (278 - p) := by
    split
    · exact Nat.pow_le_pow_right (by norm_num) (by omega)
    · exact Nat.zero_le _
  have hdvd : ∀ k ≤ t.w - 1, 2 ^ k ∣ C := fun k hk => by
    refine Nat.dvd_sub (Nat.pow_dvd_pow 2 (by omega)) ?_
    split
    · exact Nat.pow_dvd_pow 2 hk
    · exact dvd_zero _
  have hsz : (X ^^^ Y).size ≤ t.w := by
    rw [size_xor_le]
    unfold Morton.Spec.SameCell
    rw [Nat.div_eq_of_lt hx, Nat.div_eq_of_lt hy]
  have hxm : ((X + C) * 2 ^ p) ^^^ ((Y + C) * 2 ^ p) = ((X + C) ^^^ (Y + C)) * 2 ^ p := by
    rw [← Nat.shiftLeft_eq, ← Nat.shiftLeft_eq, ← Nat.shiftLeft_eq, Nat.shiftLeft_xor_distrib]
  rw [hxm]
  unfold lift
  split_ifs with h0 h1
  · rw [Nat.size_eq_zero, Nat.xor_eq_zero_iff] at h0
    rw [h0]; simp
  · -- the signs differ
    obtain ⟨hs, hk⟩ := h1
    rw [if_pos hs] at hC hle
    have hnc : ¬ Morton.Spec.SameCell (t.w - 1) X Y := by
      rw [← size_xor_le]; omega
    have key : ∀ u v : ℕ, u < 2 ^ (t.w - 1) → 2 ^ (t.w - 1) ≤ v → v < 2 ^ t.w → ((u + C) ^^^ (v + C)).size = 278 - p + 1 := by
      intro u v hu hv hv'
      apply size_of_cells
      · have hpq : 2 ^ (278 - p + 1) = 2 ^ (278 - p) * 2 := pow_succ _ _
        unfold Morton.Spec.SameCell
        rw [Nat.div_eq_of_lt (by omega), Nat.div_eq_of_lt (by omega)]
      · unfold Morton.Spec.SameCell
        rw [Nat.div_eq_of_lt (by omega)]
        have : 0 < (v + C) / 2 ^ (278 - p) := Nat.div_pos (by omega) (by positivity)
        omega
    have hres : ((X + C) ^^^ (Y + C)).size = 278 - p + 1 := by
      by_cases hX : X < 2 ^ (t.w - 1) <;> by_cases hY : Y < 2 ^ (t.w - 1)
      · exact absurd (by unfold Morton.Spec.SameCell; rw [Nat.div_eq_of_lt hX, Nat.div_eq_of_lt hY]) hnc
      · exact key X Y hX (by omega) hy
      · rw [Nat.xor_comm]; exact key Y X hY (by omega) hx
      · refine absurd ?_ hnc
        have e1 : X / 2 ^ (t.w - 1) = 1 := Nat.div_eq_of_lt_le (by omega) (by omega)
        have e2 : Y / 2 ^ (t.w - 1) = 1 := Nat.div_eq_of_lt_le (by omega) (by omega)
        unfold Morton.Spec.SameCell
        rw [e1, e2]
    rw [size_mul_pow (by intro h; rw [h] at hres; simp at hres), hres]
    omega
  · have hne : ((X + C) ^^^ (Y + C)) ≠ 0 := by
      intro h
      apply h0
      rw [Nat.xor_eq_zero_iff] at h
      rw [Nat.size_eq_zero, Nat.xor_eq_zero_iff]
      omega
    rw [size_mul_pow hne]
    congr 1
    obtain ⟨k, hk⟩ := Nat.exists_eq_succ_of_ne_zero h0
    rw [hk]
    have hd : 2 ^ (k + 1) ∣ C := by
      by_cases hs : t.signed = true
      · exact hdvd _ (by rw [Nat.succ_eq_add_one] at hk; have : ¬ (X ^^^ Y).size = t.w := fun h => h1 ⟨hs, h⟩; omega)
      · rw [hC, if_neg hs, Nat.sub_zero]
        exact Nat.pow_dvd_pow 2 (by omega)
    apply size_of_cells
    · rw [sameCell_add hd, ← size_xor_le]; omega
    · rw [sameCell_add (dvd_trans (Nat.pow_dvd_pow 2 (by omega)) hd), ← size_xor_le]; omega

theorem same_abs {t : ITy} {p : ℕ} {x : BitVec t.w} {a : BitVec 32} (h : Same t p x a) : absScaled a = (t.val x).natAbs * 2 ^ p := by
  have hs := congrArg Int.natAbs h.2.2
  rw [Int.natAbs_mul, Int.natAbs_pow] at hs
  have e : (scaled a).natAbs = absScaled a := by
    unfold scaled
    split <;> simp
  rw [← e, hs]
  rfl

theorem same_regular {t : ITy} {p : ℕ} {x : BitVec t.w} {a : BitVec 32} (h : Same t p x a) (hp : 47 ≤ p) : Regular a := by
  have hab := same_abs h
  obtain ⟨hf, hz, hs⟩ := h
  have hfr := frac_lt a
  by_cases h0 : (t.val x).natAbs = 0
  · left
    rw [h0, Nat.zero_mul] at hab
    have h1 : expo a = 0 ∧ frac a = 0 := by
      unfold absScaled at hab
      split at hab
      · omega
      · have : 0 < (2 ^ 23 + frac a) * 2 ^ expo a := by positivity
        omega
    have := fields a
    rw [h1.1, h1.2] at this
    cases hneg : neg a <;> rw [hneg] at this
    · exact BitVec.eq_of_toNat_eq this
    · exact absurd (BitVec.eq_of_toNat_eq this) hz
  · right
    have h47 : 2 ^ 47 ≤ absScaled a := by
      rw [hab]
      calc 2 ^ 47 ≤ 2 ^ p := Nat.pow_le_pow_right (by norm_num) hp
        _ ≤ _ := Nat.le_mul_of_pos_left _ (by omega)
    refine ⟨?_, hf⟩
    by_contra hc
    unfold absScaled at h47
    split at h47
    · omega
    · have : (2 ^ 23 + frac a) * 2 ^ expo a < 2 ^ 24 * 2 ^ 23 := Nat.mul_lt_mul_of_lt_of_le (by omega) (Nat.pow_le_pow_right (by norm_num) (by omega)) (by norm_num)
      omega

/-- Exponents of the integers of at most 24 bits. -/
theorem same_expo {t : ITy} {p : ℕ} {x : BitVec t.w} {a : BitVec 32} (h : Same t p x a) (hp : 47 ≤ p) (hx : |t.val x| < 2 ^ 24) (hn : neg a = true) :
    p ≤ expo a + 23 ∧ expo a ≤ p := by
  have h24 := regular_neg (same_regular h hp) hn
  have hab := same_abs h
  have hfr := frac_lt a
  rw [absScaled, if_neg (by omega)] at hab
  have hlt : (t.val x).natAbs < 2 ^ 24 := by rw [Int.abs_eq_natAbs] at hx; exact_mod_cast hx
  constructor
  · by_contra hc
    have h1 : 0 < (t.val x).natAbs := by
      by_contra hz
      have : 0 < (2 ^ 23 + frac a) * 2 ^ expo a := by positivity
      rw [hab, Nat.eq_zero_of_not_pos hz] at this
      omega
    have h2 : (2 ^ 23 + frac a) * 2 ^ expo a < 2 ^ 24 * 2 ^ expo a := Nat.mul_lt_mul_of_pos_right (by omega) (by positivity)
    rw [hab, ← pow_add] at h2
    have h3 : 2 ^ (24 + expo a) ≤ 2 ^ p := Nat.pow_le_pow_right (by norm_num) (by omega)
    have h4 := Nat.le_mul_of_pos_left (2 ^ p) h1
    omega
  · by_contra hc
    have h2 : 2 ^ 23 * 2 ^ expo a ≤ (2 ^ 23 + frac a) * 2 ^ expo a := Nat.mul_le_mul_right _ (by omega)
    rw [hab, ← pow_add] at h2
    have h3 : 2 ^ (24 + p) ≤ 2 ^ (23 + expo a) := Nat.pow_le_pow_right (by norm_num) (by omega)
    have h4 : (t.val x).natAbs * 2 ^ p < 2 ^ 24 * 2 ^ p := Nat.mul_lt_mul_of_pos_right hlt (by positivity)
    rw [← pow_add] at h4
    omega

theorem same_aligned {t : ITy} {p : ℕ} {x y : BitVec t.w} {a b : BitVec 32} (ha : Same t p x a) (hb : Same t p y b) (hp : 47 ≤ p) (hx : |t.val x| < 2 ^ 24) :
    Aligned a b := fun hna _ _ _ => by
  rw [same_abs hb]
  exact Dvd.dvd.mul_left (Nat.pow_dvd_pow 2 (same_expo ha hp hx hna).2) _

/-- Integers of any length: the comparisons agree as long as the floats are aligned and, for the reading in which the shift of a negative number is undefined, the exponents
of negative floats of the same coordinate close. -/
theorem C154_long (lax : Bool) (t : ITy) (p dim : ℕ) (v w : ℕ → BitVec t.w) (fv fw : ℕ → BitVec 32) (h0 : 0 < dim) (h1 : dim ≤ 2 ^ t.w) (hp : 47 ≤ p)
    (hp' : p + t.w ≤ 278) (hv : ∀ d < dim, Same t p (v d) (fv d)) (hw : ∀ d < dim, Same t p (w d) (fw d))
    (ha : ∀ d < dim, Aligned (fv d) (fw d) ∧ Aligned (fw d) (fv d)) (hs : ∀ d < dim, lax = true ∨ Safe (fv d) (fw d)) :
    mortonCmpFloat lax .f32 dim fv fw = .ok (mortonCmpInt t dim v w) := by
  rw [C17_aligned_partial lax dim fv fw h0 (fun d hd => same_regular (hv d hd) hp) (fun d hd => same_regular (hw d hd) hp) hs ha]
  congr 1
  rw [Bool.eq_iff_iff, decide_eq_true_eq, mortonCmpInt_iff t dim v w h0 h1]
  obtain ⟨s, hm⟩ := exists_firstMax (fun d => Morton.Spec.bias t (v d) ^^^ Morton.Spec.bias t (w d)) (dim - 1)
  have hsd : s < dim := by have := hm.le; omega
  have hsz : ∀ d, (Morton.Spec.bias t (v d) ^^^ Morton.Spec.bias t (w d)).size ≤ t.w := fun d => by
    rw [Nat.size_le]; exact Nat.xor_lt_two_pow (bias_lt t _) (bias_lt t _)
  have hlift : ∀ d < dim, (biased (fv d) ^^^ biased (fw d)).size = lift t p (Morton.Spec.bias t (v d) ^^^ Morton.Spec.bias t (w d)).size :=
    fun d hd => size_lift (hv d hd) (hw d hd) hp'
  have hm' : IsFirstMax (fun d => biased (fv d) ^^^ biased (fw d)) (dim - 1) s := by
    refine ⟨hm.le, fun d hd => ?_, fun d hd => ?_⟩
    · have := hm.ge_all d hd
      rw [hlift d (by omega), hlift s hsd]
      by_contra hc
      rw [not_le, lift_lt hp' (hsz _) (hsz _)] at hc
      omega
    · have := hm.first d hd
      rw [hlift d (by omega), hlift s hsd, lift_lt hp' (hsz _) (hsz _)]
      exact this
  rw [code_lt_iff h0 (fun d hd => biased_lt (hv d hd).1) (fun d hd => biased_lt (hw d hd).1) hm']
  unfold Morton.Spec.mcode
  rw [code_lt_iff h0 (fun d _ => bias_lt t _) (fun d _ => bias_lt t _) hm, same_biased (hv s hsd) hp', same_biased (hw s hsd) hp',
    Nat.mul_lt_mul_right (by positivity), Nat.add_lt_add_iff_right]

/-- C154: for integers of at most 24 bits, all eight integer types, all resolutions that are powers of two between 2^-103 and 2^64, and both readings of the shifts, the
comparison of floats is defined and is the comparison of integers. -/
theorem C154_agree (lax : Bool) (t : ITy) (p dim : ℕ) (v w : ℕ → BitVec t.w) (fv fw : ℕ → BitVec 32) (h0 : 0 < dim) (h1 : dim ≤ 2 ^ t.w) (hp : 47 ≤ p)
    (hp' : p ≤ 214) (hv : ∀ d < dim, Same t p (v d) (fv d) ∧ |t.val (v d)| < 2 ^ 24) (hw : ∀ d < dim, Same t p (w d) (fw d) ∧ |t.val (w d)| < 2 ^ 24) :
    mortonCmpFloat lax .f32 dim fv fw = .ok (mortonCmpInt t dim v w) := by
  have hw64 : t.w ≤ 64 := by cases t <;> decide
  refine C154_long lax t p dim v w fv fw h0 h1 hp (by omega) (fun d hd => (hv d hd).1) (fun d hd => (hw d hd).1)
    (fun d hd => ⟨same_aligned (hv d hd).1 (hw d hd).1 hp (hv d hd).2, same_aligned (hw d hd).1 (hv d hd).1 hp (hw d hd).2⟩) fun d hd => ?_
  right
  unfold Safe
  by_cases ha : neg (fv d) = false
  · exact Or.inl ha
  · by_cases hb : neg (fw d) = false
    · exact Or.inr (Or.inl hb)
    · have h1 := same_expo (hv d hd).1 hp (hv d hd).2 (by simpa using ha)
      have h2 := same_expo (hw d hd).1 hp (hw d hd).2 (by simpa using hb)
      exact Or.inr (Or.inr (by omega))

/-- C154 for the sorts of test_morton_order.cpp:78-86: a sequence of integer points is sorted exactly if the sequence of the corresponding floats is. -/
theorem C154_sorted (lax : Bool) (t : ITy) (p dim : ℕ) (F : (ℕ → BitVec t.w) → ℕ → BitVec 32) (l : List (ℕ → BitVec t.w)) (h0 : 0 < dim) (h1 : dim ≤ 2 ^ t.w)
    (hp : 47 ≤ p) (hp' : p ≤ 214) (hl : ∀ v ∈ l, ∀ d < dim, Same t p (v d) (F v d) ∧ |t.val (v d)| < 2 ^ 24) :
    l.Pairwise (fun v w => mortonCmpInt t dim w v = false) ↔ (l.map F).Pairwise (fun v w => mortonCmpFloat lax .f32 dim w v = .ok false) := by
  rw [List.pairwise_map]
  refine List.Pairwise.iff_of_mem fun {v w} hv hw => ?_
  rw [C154_agree lax t p dim w v (F w) (F v) h0 h1 hp hp' (hl w hw) (hl v hv)]
  simp

/-- The bound of 24 bits is exact: -2^24 and -2^24 + 1 are exact floats too and differ in the lowest bit only, so that (-2^24, 2) is after (-2^24 + 1, 0); the alignment of
`xorFloat` drops the lowest bit of the second number, the difference counts twice as much, and the floats come in the opposite order. -/
theorem C154_bound (lax : Bool) : ∃ x y z w : BitVec 32, ∃ a b c d : BitVec 32, Same .i32 150 x a ∧ Same .i32 150 y b ∧ Same .i32 150 z c ∧ Same .i32 150 w d ∧
    (∀ u ∈ [x, y, z, w], |ITy.i32.val u| ≤ 2 ^ 24) ∧ mortonCmpInt .i32 2 (v2 x y) (v2 z w) = false ∧ mortonCmpFloat lax .f32 2 (v2 a b) (v2 c d) = .ok true := by
  refine ⟨BitVec.ofInt 32 (-16777216), 2#32, BitVec.ofInt 32 (-16777215), 0#32, 0xCB800000#32, 0x40000000#32, 0xCB7FFFFF#32, 0#32,
    ⟨by unfold Spec.Finite; decide, by decide, by decide +kernel⟩, ⟨by unfold Spec.Finite; decide, by decide, by decide +kernel⟩,
    ⟨by unfold Spec.Finite; decide, by decide, by decide +kernel⟩, ⟨by unfold Spec.Finite; decide, by decide, by decide +kernel⟩, ?_, by decide +kernel, ?_⟩
  · simp only [List.mem_cons, List.not_mem_nil, or_false]
    rintro u (rfl | rfl | rfl | rfl)
    · rw [show ITy.i32.val (BitVec.ofInt 32 (-16777216)) = -16777216 by decide]; norm_num
    · rw [show ITy.i32.val 2#32 = 2 by decide]; norm_num
    · rw [show ITy.i32.val (BitVec.ofInt 32 (-16777215)) = -16777215 by decide]; norm_num
    · rw [show ITy.i32.val 0#32 = 0 by decide]; norm_num
  cases lax <;> decide +kernel

/-- The hypotheses of `C154_agree` hold on the points (-4, 3) and (-3, -1) of the program, with res = 1. -/
example (lax : Bool) : mortonCmpFloat lax .f32 2 (v2 0xC0800000#32 0x40400000#32) (v2 0xC0400000#32 0xBF800000#32) =
    .ok (mortonCmpInt .i32 2 (v2 (BitVec.ofInt 32 (-4)) 3#32) (v2 (BitVec.ofInt 32 (-3)) (BitVec.ofInt 32 (-1)))) := by
  have sm : ∀ x : BitVec 32, (∃ z : ℤ, ITy.i32.val x = z ∧ -5 < z ∧ z < 5) → |ITy.i32.val x| < 2 ^ 24 := by
    rintro x ⟨z, rfl, h1, h2⟩
    rw [abs_lt]; constructor <;> omega
  have s : ∀ (x a : BitVec 32), Same .i32 150 x a → |ITy.i32.val x| < 2 ^ 24 → ∀ (y b : BitVec 32), Same .i32 150 y b → |ITy.i32.val y| < 2 ^ 24 →
      ∀ d < 2, Same .i32 150 (v2 x y d) (v2 a b d) ∧ |ITy.i32.val (v2 x y d)| < 2 ^ 24 := fun x a h1 h2 y b h3 h4 d _ => by
    unfold v2; split <;> exact ⟨by assumption, by assumption⟩
  exact C154_agree lax .i32 150 2 _ _ _ _ (by norm_num) (by norm_num) (by norm_num) (by norm_num)
    (s _ _ ⟨by unfold Spec.Finite; decide, by decide, by decide +kernel⟩ (sm _ ⟨_, rfl, by decide, by decide⟩) _ _ ⟨by unfold Spec.Finite; decide, by decide, by decide +kernel⟩ (sm _ ⟨_, rfl, by decide, by decide⟩))
    (s _ _ ⟨by unfold Spec.Finite; decide, by decide, by decide +kernel⟩ (sm _ ⟨_, rfl, by decide, by decide⟩) _ _ ⟨by unfold Spec.Finite; decide, by decide, by decide +kernel⟩ (sm _ ⟨_, rfl, by decide, by decide⟩))

-- the comparison of the example is "not before": the first coordinates differ in their lowest bit, the second ones in sign
example : mortonCmpInt .i32 2 (v2 (BitVec.ofInt 32 (-4)) 3#32) (v2 (BitVec.ofInt 32 (-3)) (BitVec.ofInt 32 (-1))) = false := by decide +kernel

/-- Negative powers of two that are not aligned are outside of `C17_aligned_partial`; the aligned ones, for instance -8 and -3, are inside it and outside of `C17_zorder_partial`. -/
example : ¬ Tame 0xC1000000#32 ∧ Regular 0xC1000000#32 ∧ Aligned 0xC1000000#32 0xC0400000#32 := by
  refine ⟨by decide, Or.inr (by decide), fun _ _ _ _ => ?_⟩
  rw [show absScaled 0xC0400000#32 = 2 ^ 130 * (3 * 2 ^ 20) by decide +kernel, show expo 0xC1000000#32 = 130 by decide]
  exact dvd_mul_right _ _

end Verif.MortonFloat
