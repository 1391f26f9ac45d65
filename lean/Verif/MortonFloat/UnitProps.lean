import Verif.MortonFloat.Regular
import Verif.Morton.CurveProps

/-! Property theorems C163 (see properties.jsonl): the Morton order of floats is the one of their exact values, independently of the unit. -/
namespace Verif.MortonFloat
open Verif Verif.Morton NumericTraits Spec

/-- Integers of `P` bits and a sign in offset binary: the cells are those of the natural numbers, except that no cell of integers contains both signs. -/
theorem cell_offset {P k : ℕ} {x y : ℤ} {a b : ℕ} (ha : (a : ℤ) = 2 ^ P + x) (hb : (b : ℤ) = 2 ^ P + y) (ha' : a < 2 ^ (P + 1)) (hb' : b < 2 ^ (P + 1)) :
    Cell k x y ↔ Morton.Spec.SameCell (min k P) a b := by
  unfold Cell Morton.Spec.SameCell
  rcases le_total k P with h | h
  · rw [min_eq_left h]
    have e : (2 : ℤ) ^ P = 2 ^ (P - k) * 2 ^ k := by rw [← pow_add]; congr 1; omega
    have key : ∀ z : ℤ, (2 ^ P + z) / 2 ^ k = z / 2 ^ k + 2 ^ (P - k) := fun z => by
      rw [add_comm, e, Int.add_mul_ediv_right _ _ (by positivity)]
    have h1 := key x
    have h2 := key y
    rw [← ha] at h1
    rw [← hb] at h2
    have : ((a / 2 ^ k : ℕ) : ℤ) = ((b / 2 ^ k : ℕ) : ℤ) ↔ x / 2 ^ k = y / 2 ^ k := by
      push_cast
      rw [h1, h2]
      omega
    rw [← this]
    norm_cast
  · rw [min_eq_right h]
    have hP : (2 : ℤ) ^ P ≤ 2 ^ k := pow_le_pow_right₀ (by norm_num) h
    have key : ∀ (c : ℕ) (z : ℤ), (c : ℤ) = 2 ^ P + z → c < 2 ^ (P + 1) → (z / 2 ^ k = if c < 2 ^ P then -1 else 0) ∧ c / 2 ^ P = if c < 2 ^ P then 0 else 1 := by
      intro c z hc hlt
      have hpos : 0 < 2 ^ P := by positivity
      rw [pow_succ] at hlt
      split
      · rename_i hl
        have : (c : ℤ) < 2 ^ P := by exact_mod_cast hl
        refine ⟨?_, Nat.div_eq_of_lt hl⟩
        rw [Int.ediv_eq_iff_of_pos (by positivity)]
        constructor <;> linarith [Int.natCast_nonneg c]
      · rename_i hl
        have h2 : (c : ℤ) < 2 ^ P * 2 := by exact_mod_cast hlt
        have h3 : (2 : ℤ) ^ P ≤ c := by exact_mod_cast (not_lt.1 hl)
        refine ⟨Int.ediv_eq_zero_of_lt (by linarith) (by linarith), ?_⟩
        rw [Nat.div_eq_iff hpos]
        omega
    obtain ⟨h1, h2⟩ := key _ _ ha ha'
    obtain ⟨h3, h4⟩ := key _ _ hb hb'
    rw [h1, h2, h3, h4]
    split_ifs <;> simp

/-- The order of the Morton codes in offset binary is the Morton order of the integers. -/
theorem code_zless {P dim : ℕ} (h0 : 0 < dim) {x y : ℕ → ℤ} {a b : ℕ → ℕ} (ha : ∀ d < dim, (a d : ℤ) = 2 ^ P + x d) (hb : ∀ d < dim, (b d : ℤ) = 2 ^ P + y d)
    (ha' : ∀ d < dim, a d < 2 ^ (P + 1)) (hb' : ∀ d < dim, b d < 2 ^ (P + 1)) :
    Morton.Spec.code (P + 1) dim a < Morton.Spec.code (P + 1) dim b ↔ ZLess dim x y := by
  have mono : ∀ d < dim, ∀ e < dim, (∀ k, Cell k (x d) (y d) → Cell k (x e) (y e)) ↔ (a e ^^^ b e).size ≤ (a d ^^^ b d).size := by
    intro d hd e he
    simp only [fun k => cell_offset (k := k) (ha d hd) (hb d hd) (ha' d hd) (hb' d hd), fun k => cell_offset (k := k) (ha e he) (hb e he) (ha' e he) (hb' e he), ← size_xor_le]
    have hle : (a e ^^^ b e).size ≤ P + 1 := Nat.size_le.2 (Nat.xor_lt_two_pow (ha' e he) (hb' e he))
    constructor
    · intro h
      have := h (a d ^^^ b d).size
      by_contra hc
      omega
    · intro h k hk
      omega
  have key : ∀ s, (s < dim ∧ (∀ d < dim, ∀ k, Cell k (x s) (y s) → Cell k (x d) (y d)) ∧ ∀ d < s, ∃ k, Cell k (x d) (y d) ∧ ¬ Cell k (x s) (y s)) ↔
      IsFirstMax (fun d => a d ^^^ b d) (dim - 1) s := by
    intro s
    have e : ∀ d < dim, s < dim → ((∃ k, Cell k (x d) (y d) ∧ ¬ Cell k (x s) (y s)) ↔ (a d ^^^ b d).size < (a s ^^^ b s).size) := fun d hd hs => by
      rw [← not_le, ← mono d hd s hs]
      push Not
      rfl
    constructor
    · rintro ⟨h1, h2, h3⟩
      exact ⟨by omega, fun d hd => (mono s h1 d (by omega)).1 (h2 d (by omega)), fun d hd => (e d (by omega) h1).1 (h3 d hd)⟩
    · intro h
      have hs : s < dim := by have := h.le; omega
      exact ⟨hs, fun d hd => (mono s hs d hd).2 (h.ge_all d (by omega)), fun d hd => (e d (by omega) hs).2 (h.first d hd)⟩
  have hlt : ∀ d < dim, (a d < b d ↔ x d < y d) := fun d hd => by
    have h1 := ha d hd
    have h2 := hb d hd
    generalize (2 : ℤ) ^ P = Q at h1 h2
    omega
  constructor
  · intro h
    obtain ⟨s, hmax⟩ := exists_firstMax (fun d => a d ^^^ b d) (dim - 1)
    obtain ⟨g1, g2, g3⟩ := (key s).2 hmax
    rw [code_lt_iff h0 ha' hb' hmax, hlt s g1] at h
    exact ⟨s, g1, h, g2, g3⟩
  · rintro ⟨s, g1, h, g2, g3⟩
    rw [code_lt_iff h0 ha' hb' ((key s).1 ⟨g1, g2, g3⟩), hlt s g1]
    exact h

/-- The order depends only on which cells separate the coordinates and on their order. -/
theorem zless_congr {dim : ℕ} {x y x' y' : ℕ → ℤ} (h : ∀ d < dim, x d < y d ↔ x' d < y' d)
    (hc : ∀ d < dim, ∀ e < dim, (∀ k, Cell k (x d) (y d) → Cell k (x e) (y e)) ↔ ∀ k, Cell k (x' d) (y' d) → Cell k (x' e) (y' e)) : ZLess dim x y ↔ ZLess dim x' y' := by
  refine exists_congr fun s => and_congr_right fun hs => and_congr (h s hs) (and_congr (forall_congr' fun d => forall_congr' fun hd => hc s hs d hd) ?_)
  refine forall_congr' fun d => forall_congr' fun hd => ?_
  have := not_congr (hc d (by omega) s hs)
  push Not at this
  exact this

theorem cell_scale (j : ℕ) (x y z u : ℤ) : (∀ k, Cell k (x * 2 ^ j) (y * 2 ^ j) → Cell k (z * 2 ^ j) (u * 2 ^ j)) ↔ ∀ k, Cell k x y → Cell k z u := by
  have hp : (0 : ℤ) < 2 ^ j := by positivity
  have big : ∀ (k : ℕ) (a b : ℤ), Cell (k + j) (a * 2 ^ j) (b * 2 ^ j) ↔ Cell k a b := fun k a b => by
    unfold Cell
    rw [pow_add, Int.mul_ediv_mul_of_pos_left _ _ hp, Int.mul_ediv_mul_of_pos_left _ _ hp]
  have small : ∀ k ≤ j, ∀ a b : ℤ, Cell k (a * 2 ^ j) (b * 2 ^ j) ↔ a = b := fun k hk a b => by
    unfold Cell
    have e : (2 : ℤ) ^ j = 2 ^ (j - k) * 2 ^ k := by rw [← pow_add]; congr 1; omega
    have hq : (2 : ℤ) ^ (j - k) ≠ 0 := by positivity
    rw [e, ← mul_assoc, ← mul_assoc, Int.mul_ediv_cancel _ (by positivity), Int.mul_ediv_cancel _ (by positivity)]
    exact ⟨fun h => mul_right_cancel₀ hq h, fun h => by rw [h]⟩
  constructor
  · intro h k hk
    exact (big k z u).1 (h (k + j) ((big k x y).2 hk))
  · intro h k hk
    rcases le_total k j with hkj | hkj
    · rw [small k hkj] at hk ⊢
      exact (cell_zero _ _).1 (h 0 ((cell_zero _ _).2 hk))
    · obtain ⟨i, rfl⟩ := Nat.exists_eq_add_of_le' hkj
      exact (big i z u).2 (h i ((big i x y).1 hk))

/-- The vectors on which the comparison is defined and right, C17. -/
structure Comparable (lax : Bool) (dim : ℕ) (v w : ℕ → BitVec 32) : Prop where
  left : ∀ d < dim, Regular (v d)
  right : ∀ d < dim, Regular (w d)
  safe : ∀ d < dim, lax = true ∨ Safe (v d) (w d)
  aligned : ∀ d < dim, Aligned (v d) (w d) ∧ Aligned (w d) (v d)

/-- **C163** The comparison of floats is the Morton order of their exact values (in units of 2^-150). -/
theorem C163_spec_partial (lax : Bool) (dim : ℕ) (v w : ℕ → BitVec 32) (h0 : 0 < dim) (h : Comparable lax dim v w) :
    ∃ r, mortonCmpFloat lax .f32 dim v w = .ok r ∧ (r = true ↔ ZLess dim (fun d => scaled (v d)) fun d => scaled (w d)) := by
  refine ⟨_, C17_aligned_partial lax dim v w h0 h.left h.right h.safe h.aligned, ?_⟩
  rw [decide_eq_true_eq]
  exact code_zless (P := 278) h0 (fun d hd => biased_cast (regular_expo (h.left d hd))) (fun d hd => biased_cast (regular_expo (h.right d hd)))
    (fun d hd => biased_lt (regular_expo (h.left d hd))) fun d hd => biased_lt (regular_expo (h.right d hd))

theorem normal_unique {f g d e : ℕ} (hf : f < 2 ^ 23) (hg : g < 2 ^ 23) (h : (2 ^ 23 + f) * 2 ^ d = (2 ^ 23 + g) * 2 ^ e) : d = e ∧ f = g := by
  have key : ∀ {f g d e : ℕ}, g < 2 ^ 23 → (2 ^ 23 + f) * 2 ^ d = (2 ^ 23 + g) * 2 ^ e → d ≤ e := by
    intro f g d e hg h
    by_contra hc
    obtain ⟨i, rfl⟩ := Nat.exists_eq_add_of_lt (not_le.1 hc)
    rw [show e + i + 1 = (i + 1) + e by omega, pow_add, ← mul_assoc] at h
    have h1 := Nat.eq_of_mul_eq_mul_right (by positivity) h
    have h2 : 2 ≤ 2 ^ (i + 1) := by
      rw [pow_succ]
      have : 0 < 2 ^ i := by positivity
      omega
    have h3 : (2 ^ 23 + f) * 2 ≤ (2 ^ 23 + f) * 2 ^ (i + 1) := Nat.mul_le_mul_left _ h2
    omega
  have hde : d = e := le_antisymm (key hg h) (key hf h.symm)
  subst hde
  have := Nat.eq_of_mul_eq_mul_right (by positivity) h
  exact ⟨rfl, by omega⟩

theorem absScaled_normal {a : BitVec 32} (h : 24 ≤ expo a) : absScaled a = (2 ^ 23 + frac a) * 2 ^ expo a := if_neg (by omega)

theorem scaled_natAbs (a : BitVec 32) : (scaled a).natAbs = absScaled a := by
  unfold scaled
  split_ifs <;> simp

theorem regular_scaled_zero {a : BitVec 32} (h : Regular a) : scaled a = 0 ↔ a = 0#32 := by
  constructor
  · intro h0
    rcases h with h | h
    · exact h
    · have := scaled_natAbs a
      rw [h0, absScaled_normal h.1] at this
      have : 0 < (2 ^ 23 + frac a) * 2 ^ expo a := by positivity
      simp at *
  · rintro rfl
    decide

/-- The fields of a float multiplied by a power of two. -/
theorem fields_scale {j : ℕ} {a b : BitVec 32} (ha : Regular a) (hb : Regular b) (h : scaled b = scaled a * 2 ^ j) :
    (a = 0#32 ∧ b = 0#32) ∨ (neg b = neg a ∧ expo b = expo a + j ∧ frac b = frac a ∧ absScaled b = absScaled a * 2 ^ j) := by
  by_cases h0 : a = 0#32
  · rw [(regular_scaled_zero ha).2 h0, zero_mul] at h
    exact Or.inl ⟨h0, (regular_scaled_zero hb).1 h⟩
  have hp : (0 : ℤ) < 2 ^ j := by positivity
  have hb0 : b ≠ 0#32 := fun hb' => by
    rw [(regular_scaled_zero hb).2 hb'] at h
    exact h0 ((regular_scaled_zero ha).1 ((mul_eq_zero.1 h.symm).resolve_right hp.ne'))
  have ea : 24 ≤ expo a := (ha.resolve_left h0).1
  have eb : 24 ≤ expo b := (hb.resolve_left hb0).1
  have habs : absScaled b = absScaled a * 2 ^ j := by
    rw [← scaled_natAbs, ← scaled_natAbs, h, Int.natAbs_mul, Int.natAbs_pow]
    rfl
  have hu := habs
  rw [absScaled_normal ea, absScaled_normal eb, mul_assoc, ← pow_add] at hu
  obtain ⟨h1, h2⟩ := normal_unique (Nat.mod_lt _ (by norm_num)) (Nat.mod_lt _ (by norm_num)) hu
  refine Or.inr ⟨?_, h1, h2, habs⟩
  have pa : 0 < absScaled a := by rw [absScaled_normal ea]; positivity
  have pb : 0 < absScaled b := by rw [absScaled_normal eb]; positivity
  have sa : neg a = true ↔ scaled a < 0 := by unfold scaled; split_ifs with c <;> simp [c] <;> omega
  have sb : neg b = true ↔ scaled b < 0 := by unfold scaled; split_ifs with c <;> simp [c] <;> omega
  rw [Bool.eq_iff_iff, sa, sb, h]
  exact ⟨fun h => by by_contra hc; exact absurd (mul_nonneg (not_lt.1 hc) hp.le) (not_le.2 h), fun h => mul_neg_of_neg_of_pos h hp⟩

theorem aligned_scale {j : ℕ} {a b a' b' : BitVec 32} (ha : Regular a) (hb : Regular b) (ha' : Regular a') (hb' : Regular b') (h1 : scaled a' = scaled a * 2 ^ j)
    (h2 : scaled b' = scaled b * 2 ^ j) (h : Aligned a b) : Aligned a' b' := by
  intro na nb fa hlt
  rcases fields_scale ha ha' h1 with ⟨-, rfl⟩ | ⟨n1, e1, f1, -⟩
  · exact absurd na (by decide)
  rcases fields_scale hb hb' h2 with ⟨-, rfl⟩ | ⟨n2, e2, f2, s2⟩
  · exact absurd nb (by decide)
  rw [e1, s2, pow_add]
  exact Nat.mul_dvd_mul_right (h (n1 ▸ na) (n2 ▸ nb) (f1 ▸ fa) (by omega)) _

theorem safe_scale {j : ℕ} {a b a' b' : BitVec 32} (ha : Regular a) (hb : Regular b) (ha' : Regular a') (hb' : Regular b') (h1 : scaled a' = scaled a * 2 ^ j)
    (h2 : scaled b' = scaled b * 2 ^ j) (h : Safe a b) : Safe a' b' := by
  rcases fields_scale ha ha' h1 with ⟨-, rfl⟩ | ⟨n1, e1, -, -⟩
  · exact Or.inl (by decide)
  rcases fields_scale hb hb' h2 with ⟨-, rfl⟩ | ⟨n2, e2, -, -⟩
  · exact Or.inr (Or.inl (by decide))
  rcases h with h | h | ⟨h, h'⟩
  · exact Or.inl (n1.trans h)
  · exact Or.inr (Or.inl (n2.trans h))
  · exact Or.inr (Or.inr ⟨by omega, by omega⟩)

/-- C163, full statement: the comparison does not depend on the unit. -/
def C163_statement (lax : Bool) : Prop :=
  ∀ (dim j : ℕ) (v w v' w' : ℕ → BitVec 32), 0 < dim → (∀ d < dim, Finite (v d) ∧ Finite (w d) ∧ Finite (v' d) ∧ Finite (w' d)) →
    (∀ d < dim, scaled (v' d) = scaled (v d) * 2 ^ j) → (∀ d < dim, scaled (w' d) = scaled (w d) * 2 ^ j) →
    mortonCmpFloat lax .f32 dim v' w' = mortonCmpFloat lax .f32 dim v w

/-- **C163** Multiplying all the coordinates by a power of two does not change the comparison. Missing: the floats on which the comparison is not right (C17). -/
theorem C163_unit_partial (lax : Bool) (dim j : ℕ) (v w v' w' : ℕ → BitVec 32) (h0 : 0 < dim) (h : Comparable lax dim v w) (rv : ∀ d < dim, Regular (v' d))
    (rw' : ∀ d < dim, Regular (w' d)) (hv : ∀ d < dim, scaled (v' d) = scaled (v d) * 2 ^ j) (hw : ∀ d < dim, scaled (w' d) = scaled (w d) * 2 ^ j) :
    mortonCmpFloat lax .f32 dim v' w' = mortonCmpFloat lax .f32 dim v w := by
  have h' : Comparable lax dim v' w' :=
    ⟨rv, rw', fun d hd => (h.safe d hd).imp id (safe_scale (h.left d hd) (h.right d hd) (rv d hd) (rw' d hd) (hv d hd) (hw d hd)),
      fun d hd => ⟨aligned_scale (h.left d hd) (h.right d hd) (rv d hd) (rw' d hd) (hv d hd) (hw d hd) (h.aligned d hd).1,
        aligned_scale (h.right d hd) (h.left d hd) (rw' d hd) (rv d hd) (hw d hd) (hv d hd) (h.aligned d hd).2⟩⟩
  obtain ⟨r, e, hr⟩ := C163_spec_partial lax dim v w h0 h
  obtain ⟨r', e', hr'⟩ := C163_spec_partial lax dim v' w' h0 h'
  rw [e, e']
  congr 1
  rw [Bool.eq_iff_iff, hr, hr']
  have hp : (0 : ℤ) < 2 ^ j := by positivity
  refine zless_congr (fun d hd => ?_) fun d hd e he => ?_
  · rw [hv d hd, hw d hd]
    exact mul_lt_mul_iff_left₀ hp
  · simp only [hv d hd, hw d hd, hv e he, hw e he]
    exact cell_scale j _ _ _ _

/-- **C163** Moving both vectors by multiples of the size of a cell that contains them, when the results are exact, does not change the comparison. -/
theorem C163_translate_partial (lax : Bool) (dim j : ℕ) (v w v' w' : ℕ → BitVec 32) (m : ℕ → ℤ) (h0 : 0 < dim) (h : Comparable lax dim v w) (h' : Comparable lax dim v' w')
    (hj : ∀ d < dim, Cell j (scaled (v d)) (scaled (w d))) (hv : ∀ d < dim, scaled (v' d) = scaled (v d) + m d * 2 ^ j)
    (hw : ∀ d < dim, scaled (w' d) = scaled (w d) + m d * 2 ^ j) : mortonCmpFloat lax .f32 dim v' w' = mortonCmpFloat lax .f32 dim v w := by
  obtain ⟨r, e, hr⟩ := C163_spec_partial lax dim v w h0 h
  obtain ⟨r', e', hr'⟩ := C163_spec_partial lax dim v' w' h0 h'
  rw [e, e']
  congr 1
  rw [Bool.eq_iff_iff, hr, hr']
  have hc : ∀ d < dim, ∀ k, Cell k (scaled (v' d)) (scaled (w' d)) ↔ Cell k (scaled (v d)) (scaled (w d)) := by
    intro d hd k
    rw [hv d hd, hw d hd]
    rcases le_total k j with h | h
    · have e : m d * (2 : ℤ) ^ j = m d * 2 ^ (j - k) * 2 ^ k := by rw [mul_assoc, ← pow_add]; congr 2; omega
      unfold Cell
      rw [e, Int.add_mul_ediv_right _ _ (by positivity), Int.add_mul_ediv_right _ _ (by positivity), add_left_inj]
    · refine ⟨fun _ => cell_le h (hj d hd), fun _ => cell_le h ?_⟩
      have := hj d hd
      unfold Cell at *
      rw [Int.add_mul_ediv_right _ _ (by positivity), Int.add_mul_ediv_right _ _ (by positivity), this]
  refine zless_congr (fun d hd => ?_) fun d hd e he => ?_
  · rw [hv d hd, hw d hd, add_lt_add_iff_right]
  · simp only [hc d hd, hc e he]

/-- In the plane zero and the smallest positive float on the second axis are equivalent (or, when shifts of negative numbers are undefined, cannot be compared); multiplied by 2^40 they are ordered. -/
theorem C163_violated (lax : Bool) : ¬ C163_statement lax := fun h => by
  have key := h 2 40 (fun _ => 0#32) (fun d => if d = 0 then 0#32 else 1#32) (fun _ => 0#32) (fun d => if d = 0 then 0#32 else 0x09000000#32) (by norm_num)
    (fun d _ => by unfold Spec.Finite; split_ifs <;> decide) (fun d _ => by decide) fun d _ => by split_ifs <;> decide +kernel
  revert key
  cases lax <;> decide +kernel

/-- Two points of the plane and the same ones in a unit four times smaller: -6, 5 and -3, 9. -/
example : mortonCmpFloat true .f32 2 (fun d => if d = 0 then 0xC0C00000#32 else 0x40A00000#32) (fun d => if d = 0 then 0xC0400000#32 else 0x41100000#32) = .ok true ∧
    mortonCmpFloat true .f32 2 (fun d => if d = 0 then 0xC1C00000#32 else 0x41A00000#32) (fun d => if d = 0 then 0xC1400000#32 else 0x42100000#32) = .ok true := by
  constructor <;> decide +kernel

end Verif.MortonFloat
