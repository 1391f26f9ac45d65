import Verif.MortonFloat.Lemmas

/-! Property theorems C17, C18 and C71 (see properties.jsonl). -/
namespace Verif.MortonFloat
open Verif.NumericTraits Verif.MortonFloat.Spec Verif.Morton

/-! ### C17 -/

/-- The comparison says "less". -/
def Less (lax : Bool) (t : FTy) (dim : ℕ) (v w : ℕ → BitVec t.w) : Prop := mortonCmpFloat lax t dim v w = .ok true

/-- C17: on vectors of finite floats the comparison is defined and a strict weak order. -/
def C17_statement (lax : Bool) : Prop := ∀ dim : ℕ, 0 < dim → ∀ P : (ℕ → BitVec 32) → Prop, (∀ v, P v ↔ ∀ d < dim, Finite (v d)) →
  (∀ v w, P v → P w → ∃ b, mortonCmpFloat lax .f32 dim v w = .ok b) ∧
  (∀ v, P v → ¬ Less lax .f32 dim v v) ∧
  (∀ u v w, P u → P v → P w → Less lax .f32 dim u v → Less lax .f32 dim v w → Less lax .f32 dim u w) ∧
  (∀ u v w, P u → P v → P w → Less lax .f32 dim u w → Less lax .f32 dim u v ∨ Less lax .f32 dim v w)

/-- On tame floats (zero, and magnitudes from 2^-103 on that are not negative powers of two) the comparison is the Z-order of the
exact values in fixed point. The first reading of the standard needs in addition that two negative coordinates have close
exponents. Missing for C17: the other floats, where the order is wrong (below). -/
theorem C17_zorder_partial (lax : Bool) (dim : ℕ) (v w : ℕ → BitVec 32) (hdim : 0 < dim) (hv : ∀ d < dim, Tame (v d))
    (hw : ∀ d < dim, Tame (w d)) (hs : ∀ d < dim, lax = true ∨ Safe (v d) (w d)) :
    mortonCmpFloat lax .f32 dim v w =
      .ok (decide (Morton.Spec.code 279 dim (fun d => biased (v d)) < Morton.Spec.code 279 dim fun d => biased (w d))) := by
  obtain ⟨s, h1, h2, -⟩ := cmpLoop_inv lax v w (dim - 1) (fun d hd => hv d (by omega)) (fun d hd => hw d (by omega)) (fun d hd => hs d (by omega))
  have hsd : s.1 < dim := by have := h2.le; omega
  have hc := code_lt_iff hdim (fun d hd => biased_lt (tame_expo (hv d hd))) (fun d hd => biased_lt (tame_expo (hw d hd))) h2
  have hl := lt_iff (tame_expo (hv s.1 hsd)) (tame_expo (hw s.1 hsd))
  unfold mortonCmpFloat
  rw [h1, bind_ok]
  show Except.ok _ = _
  congr 1
  rw [Bool.eq_iff_iff, hl, decide_eq_true_iff, hc]

theorem tame_inj {a b : BitVec 32} (ha : Tame a) (hb : Tame b) (h : biased a = biased b) : a = b := by
  have ha' := biased_cast (tame_expo ha)
  have hb' := biased_cast (tame_expo hb)
  rw [h, hb'] at ha'
  have hs : scaled a = scaled b := by generalize (2 : ℤ) ^ 278 = K at ha'; omega
  have h1 := pos_lt_iff a b
  have h2 := pos_lt_iff b a
  have hp : pos a = pos b := by omega
  rw [pos_eq, pos_eq] at hp
  have fa := frac_lt a
  have fb := frac_lt b
  have key : ∀ x : BitVec 32, Tame x → neg x = true → 0 < mag x := fun x hx hn => by
    have := (tame_neg hx hn).1
    rw [mag_eq]; omega
  have hn : neg a = neg b ∧ mag a = mag b := by
    cases hna : neg a <;> cases hnb : neg b <;> rw [hna, hnb] at hp <;> simp only [Bool.false_eq_true, if_false, if_true] at hp
    · exact ⟨rfl, by omega⟩
    · have := key b hb hnb; omega
    · have := key a ha hna; omega
    · exact ⟨rfl, by omega⟩
  have hm := hn.2
  rw [mag_eq, mag_eq] at hm
  exact eq_of_fields hn.1 (by omega) (by omega)

/-- With two's complement shifts the comparison is a strict total order on vectors of tame floats. Missing for C17: the floats that
are not tame, and the undefined shifts of the standard. -/
theorem C17_order_partial (dim : ℕ) (hdim : 0 < dim) (u v w : ℕ → BitVec 32) (hu : ∀ d < dim, Tame (u d)) (hv : ∀ d < dim, Tame (v d))
    (hw : ∀ d < dim, Tame (w d)) :
    ¬ Less true .f32 dim u u ∧
    (Less true .f32 dim u v → Less true .f32 dim v w → Less true .f32 dim u w) ∧
    (Less true .f32 dim u v ∨ Less true .f32 dim v u ∨ ∀ d < dim, u d = v d) := by
  have key : ∀ x y : ℕ → BitVec 32, (∀ d < dim, Tame (x d)) → (∀ d < dim, Tame (y d)) → (Less true .f32 dim x y ↔
      Morton.Spec.code 279 dim (fun d => biased (x d)) < Morton.Spec.code 279 dim fun d => biased (y d)) := by
    intro x y hx hy
    unfold Less
    rw [C17_zorder_partial true dim x y hdim hx hy fun _ _ => Or.inl rfl]
    simp
  rw [key u u hu hu, key u v hu hv, key v w hv hw, key u w hu hw, key v u hv hu]
  refine ⟨lt_irrefl _, fun h1 h2 => h1.trans h2, ?_⟩
  rcases Nat.lt_trichotomy (Morton.Spec.code 279 dim fun d => biased (u d)) (Morton.Spec.code 279 dim fun d => biased (v d)) with h | h | h
  · exact Or.inl h
  · refine Or.inr (Or.inr fun d hd => ?_)
    have := code_inj (fun d hd => biased_lt (tame_expo (hu d hd))) (fun d hd => biased_lt (tame_expo (hv d hd))) h d hd
    exact tame_inj (hu d hd) (hv d hd) this
  · exact Or.inr (Or.inl h)

/-- The vector with the given two coordinates. -/
def v2 (x y : BitVec 32) : ℕ → BitVec 32 := fun d => if d = 0 then x else y

-- 1.5, 100, -3 and 0 are tame; (-3, 100) < (1.5, 0), decided by the signs.
example : Tame 0x3FC00000#32 ∧ Tame 0x42C80000#32 ∧ Tame 0xC0400000#32 ∧ Tame 0#32 := by decide
example : mortonCmpFloat false .f32 2 (v2 0xC0400000#32 0x42C80000#32) (v2 0x3FC00000#32 0#32) = .ok true := by decide +kernel
-- (2, 100) < (3, 0) is false: the second coordinates differ at a higher level.
example : mortonCmpFloat false .f32 2 (v2 0x40000000#32 0x42C80000#32) (v2 0x40400000#32 0#32) = .ok false := by decide +kernel

/-- Three vectors of which each is less than the next, cyclically, contradict a strict weak order. -/
theorem not_C17_of_cycle {lax : Bool} {u v w : ℕ → BitVec 32} (hu : ∀ d < 2, Finite (u d)) (hv : ∀ d < 2, Finite (v d))
    (hw : ∀ d < 2, Finite (w d)) (h1 : Less lax .f32 2 u v) (h2 : Less lax .f32 2 v w) (h3 : Less lax .f32 2 w u) : ¬ C17_statement lax := by
  intro h
  obtain ⟨-, hi, ht, -⟩ := h 2 (by norm_num) _ fun _ => Iff.rfl
  exact hi u hu (ht u w u hu hw hu (ht u v w hu hv hw h1 h2) h3)

/-- With two's complement shifts there is a cycle: the points (-1024, 1024), (-2^-20, 1), (-1, 2). -/
theorem C17_cycle_violated : ¬ C17_statement true := by
  have f : ∀ x y : BitVec 32, expo x ≤ 254 → expo y ≤ 254 → ∀ d < 2, Finite (v2 x y d) := by
    intro x y hx hy d _; unfold v2 Spec.Finite; split <;> assumption
  exact not_C17_of_cycle (u := v2 0xC4800000#32 0x44800000#32) (v := v2 0xB5800000#32 0x3F800000#32) (w := v2 0xBF800000#32 0x40000000#32)
    (f _ _ (by decide) (by decide)) (f _ _ (by decide) (by decide)) (f _ _ (by decide) (by decide))
    (by unfold Less; decide +kernel) (by unfold Less; decide +kernel) (by unfold Less; decide +kernel)

/-- The cycle needs no negative number: (0, 2^-126), (2^-149, 2^-126 + 2^-149), (2^-127, 0), all nonnegative. -/
theorem C17_denormals_violated : Less true .f32 2 (v2 0#32 0x00800000#32) (v2 1#32 0x00800001#32) ∧
    Less true .f32 2 (v2 1#32 0x00800001#32) (v2 0x00400000#32 0#32) ∧ Less true .f32 2 (v2 0x00400000#32 0#32) (v2 0#32 0x00800000#32) := by
  unfold Less
  exact ⟨by decide +kernel, by decide +kernel, by decide +kernel⟩

/-- The two zeros: (-0, 1) and (0, 5) are incomparable, (0, 5) and (-0, 2) too, but (-0, 1) < (-0, 2). -/
theorem C17_zeros_violated (lax : Bool) : ¬ C17_statement lax := by
  intro h
  have f : ∀ x y : BitVec 32, expo x ≤ 254 → expo y ≤ 254 → ∀ d < 2, Finite (v2 x y d) := by
    intro x y hx hy d _; unfold v2 Spec.Finite; split <;> assumption
  obtain ⟨-, -, -, hn⟩ := h 2 (by norm_num) _ fun _ => Iff.rfl
  have := hn (v2 0x80000000#32 0x3F800000#32) (v2 0#32 0x40A00000#32) (v2 0x80000000#32 0x40000000#32)
    (f _ _ (by decide) (by decide)) (f _ _ (by decide) (by decide)) (f _ _ (by decide) (by decide))
  unfold Less at this
  cases lax
  · rcases this (by decide +kernel) with h' | h' <;> exact absurd h' (by decide +kernel)
  · rcases this (by decide +kernel) with h' | h' <;> exact absurd h' (by decide +kernel)

/-- In the standard the comparison of -1 and -2^-24·1.5 shifts a negative integer to the left. -/
theorem C17_shift_violated : mortonCmpFloat false .f32 1 (v2 0xBFC00000#32 0#32) (v2 0xB3400000#32 0#32) = .error (.ub .shift) := by
  decide +kernel

/-- For `double` the shift count is negative: `xorFloat` is undefined for any two different numbers of the same sign. -/
theorem C17_double_violated (lax : Bool) (a b : BitVec 64) (ha : isNaN .f64 a = false) (hb : isNaN .f64 b = false)
    (hs : a.toNat / 2 ^ 63 = b.toNat / 2 ^ 63) (hne : a ≠ b) : xorFloat lax .f64 a b = .error (.ub .shift) := by
  unfold xorFloat gtAbs
  rw [ha, hb]
  simp only [Bool.not_false, Bool.true_and, decide_eq_true_eq]
  have hne' : a.toNat ≠ b.toNat := fun h => hne (BitVec.eq_of_toNat_eq h)
  have la := a.isLt
  have lb := b.isLt
  have ma : mag a = a.toNat % 2 ^ 63 := rfl
  have mb : mag b = b.toNat % 2 ^ 63 := rfl
  by_cases h : mag b < mag a
  · rw [if_pos h]; exact double_ordered lax (by omega) (by omega)
  · rw [if_neg h]; exact double_ordered lax (by omega) (by omega)

/-- Hence the comparison of vectors of doubles is undefined as soon as the first coordinates differ and have the same sign. -/
theorem C17_doubleCmp_violated (lax : Bool) (dim : ℕ) (v w : ℕ → BitVec 64) (ha : isNaN .f64 (v 0) = false)
    (hb : isNaN .f64 (w 0) = false) (hs : (v 0).toNat / 2 ^ 63 = (w 0).toNat / 2 ^ 63) (hne : v 0 ≠ w 0) :
    mortonCmpFloat lax .f64 dim v w = .error (.ub .shift) := by
  have key : ∀ n, cmpLoop lax .f64 v w n = .error (.ub .shift) := by
    intro n
    induction n with
    | zero => unfold cmpLoop; rw [C17_double_violated lax _ _ ha hb hs hne]; rfl
    | succ n ih => unfold cmpLoop; rw [ih]; rfl
  unfold mortonCmpFloat
  rw [key]
  rfl

-- 1.0 and 2.0
example : xorFloat true .f64 0x3FF0000000000000#64 0x4000000000000000#64 = .error (.ub .shift) := by decide +kernel

/-! ### C18 -/

/-- IEEE-754 interchange format of `w` bits with `p` bits of precision: the constants of the traits follow from `w` and `p`. -/
structure IsFormat (t : FTy) (w p : ℕ) : Prop where
  width : t.w = w
  mantissa : t.mantissaBits = p - 1
  exponent : t.exponentBits = w - p
  bias : t.exponentBias = 2 ^ (w - p - 1) - 1
  max : t.exponentMax = 2 ^ (w - p - 1)
  min : t.exponentMin = 1 - 2 ^ (w - p - 1)
  implicit : t.mantissaImplicitBit = 2 ^ (p - 1)
  mantissaMask : t.mantissaMask = 2 ^ (p - 1) - 1
  exponentMask : t.exponentMask = 2 ^ (w - 1) - 2 ^ (p - 1)
  sign : t.signMask.toNat = 2 ^ (w - 1)

/-- C18 for a format: the constants, and the xor of two numbers with different sign bits is infinity, with the exponent
EXPONENT_MAX of the format. -/
def C18_at (lax : Bool) (t : FTy) (p : ℕ) : Prop :=
  IsFormat t t.w p ∧ ∀ a b : BitVec t.w, a.toNat / 2 ^ (t.w - 1) ≠ b.toNat / 2 ^ (t.w - 1) →
    ∃ r, xorFloat lax t a b = .ok r ∧ r.value.toNat = infMag t ∧ r.mantissaDiff = 0 ∧ r.exponentDiff = 2 ^ (t.w - p - 1)

/-- C18: binary32 and binary64. -/
def C18_statement (lax : Bool) : Prop := C18_at lax .f32 24 ∧ C18_at lax .f64 53

/-- C18 holds for float. Missing: double, for which it fails (below). -/
theorem C18_float_partial (lax : Bool) : C18_at lax .f32 24 := by
  refine ⟨⟨rfl, rfl, rfl, rfl, rfl, rfl, rfl, rfl, rfl, by decide⟩, ?_⟩
  intro a b hs
  have key : ∀ x y : BitVec 32, x.toNat / 2 ^ 31 ≠ y.toNat / 2 ^ 31 →
      xorOrdered lax .f32 x y = .ok ⟨0x7F800000#32, 0, 128⟩ := by
    intro x y h
    have hx : (neg x ^^ neg y) = true := by
      have := x.isLt
      have := y.isLt
      unfold neg
      by_cases h1 : 2 ^ 31 ≤ x.toNat <;> by_cases h2 : 2 ^ 31 ≤ y.toNat <;> simp only [h1, h2, decide_true, decide_false] <;> first | rfl | omega
    unfold xorOrdered
    rw [decompose_eq, decompose_eq]
    dsimp only
    rw [if_pos hx]
    cases lax <;> rfl
  unfold xorFloat
  split
  · exact ⟨_, key a b hs, rfl, rfl, rfl⟩
  · exact ⟨_, key b a (Ne.symm hs), rfl, rfl, rfl⟩

/-- Exponent of double: 8 bits instead of 11, so that the maximum is -768 instead of 1024. -/
theorem C18_double_constants_violated : FTy.exponentBits .f64 = 8 ∧ FTy.exponentMax .f64 = -768 ∧ ¬ IsFormat .f64 64 53 :=
  ⟨rfl, rfl, fun h => absurd h.exponent (by decide)⟩

/-- For all doubles of different sign the returned value is 2^-768 instead of infinity. -/
theorem C18_double_violated (lax : Bool) (a b : BitVec 64) (hs : a.toNat / 2 ^ 63 ≠ b.toNat / 2 ^ 63) :
    xorFloat lax .f64 a b = .ok ⟨0x0FF0000000000000#64, 0, -768⟩ := by
  have key : ∀ x y : BitVec 64, x.toNat / 2 ^ 63 ≠ y.toNat / 2 ^ 63 →
      xorOrdered lax .f64 x y = .ok ⟨0x0FF0000000000000#64, 0, -768⟩ := by
    intro x y h
    have hx : (decide (2 ^ 63 ≤ x.toNat) ^^ decide (2 ^ 63 ≤ y.toNat)) = true := by
      have := x.isLt
      have := y.isLt
      by_cases h1 : 2 ^ 63 ≤ x.toNat <;> by_cases h2 : 2 ^ 63 ≤ y.toNat <;> simp only [h1, h2, decide_true, decide_false] <;> first | rfl | omega
    unfold xorOrdered
    rw [decomposeD_eq, decomposeD_eq]
    dsimp only
    rw [if_pos hx]
    cases lax <;> rfl
  unfold xorFloat
  split
  · exact key a b hs
  · exact key b a (Ne.symm hs)

theorem C18_violated (lax : Bool) : ¬ C18_statement lax := fun h => C18_double_constants_violated.2.2 h.2.1

-- 1.0f and -2.0f; the same numbers in double precision
example : xorFloat false .f32 0x3F800000#32 0xC0000000#32 = .ok ⟨0x7F800000#32, 0, 128⟩ := by decide +kernel
example : xorFloat false .f64 0x3FF0000000000000#64 0xC000000000000000#64 = .ok ⟨0x0FF0000000000000#64, 0, -768⟩ := by decide +kernel

/-! ### C71 -/

/-- C71 on tame floats: the distance is defined, at least -127, and at most `L` exactly if in every coordinate the exact values fall into the
same cell of size 2^(L+1) (2^(L+151) in the unit 2^-150). Missing: the other floats. -/
theorem C71_distance_partial (lax : Bool) (v w : ℕ → BitVec 32) (n : ℕ) (hv : ∀ d < n, Tame (v d)) (hw : ∀ d < n, Tame (w d))
    (hs : ∀ d < n, lax = true ∨ Safe (v d) (w d)) :
    ∃ r, mortonDistanceFloat lax .f32 v w n = .ok r ∧ -127 ≤ r ∧
      ∀ L : ℤ, -127 ≤ L → (r ≤ L ↔ ∀ d < n, Morton.Spec.SameCell (L + 151).toNat (biased (v d)) (biased (w d))) := by
  induction n with
  | zero => exact ⟨-127, rfl, le_refl _, fun L hL => ⟨fun _ d hd => absurd hd (Nat.not_lt_zero d), fun _ => hL⟩⟩
  | succ n ih =>
    obtain ⟨r, h1, h2, h3⟩ := ih (fun d hd => hv d (by omega)) (fun d hd => hw d (by omega)) (fun d hd => hs d (by omega))
    obtain ⟨x, hx, he, -⟩ := good_xor lax (hv n (by omega)) (hw n (by omega)) (hs n (by omega))
    have hlev := lev_tame (hv n (by omega)) (hw n (by omega))
    have hstep : mortonDistanceFloat lax .f32 v w (n + 1) = .ok (if x.exponentDiff > r then x.exponentDiff else r) := by
      rw [mortonDistanceFloat, h1, bind_ok, hx, bind_ok]; rfl
    refine ⟨_, hstep, ?_, ?_⟩
    · split <;> omega
    · intro L hL
      have hcell : x.exponentDiff ≤ L ↔ Morton.Spec.SameCell (L + 151).toNat (biased (v n)) (biased (w n)) := by
        rw [← size_xor_le, he]
        show _ ↔ lev (v n) (w n) ≤ _
        split <;> omega
      have h4 := h3 L hL
      constructor
      · intro h d hd
        have hr : r ≤ L := by split at h <;> omega
        have hxl : x.exponentDiff ≤ L := by split at h <;> omega
        rcases Nat.lt_or_ge d n with h' | h'
        · exact h4.1 hr d h'
        · rw [show d = n by omega]; exact hcell.1 hxl
      · intro h
        have hr := h4.2 fun d hd => h d (by omega)
        have hxl := hcell.2 (h n (by omega))
        split <;> omega

-- distance of (2, 3) and (3, 4) is 2 (cells of size 8), of equal points -127
example : mortonDistanceFloat false .f32 (v2 0x40000000#32 0x40400000#32) (v2 0x40400000#32 0x40800000#32) 2 = .ok 2 := by decide +kernel
example : mortonDistanceFloat false .f32 (v2 0x40000000#32 0x40400000#32) (v2 0x40000000#32 0x40400000#32) 2 = .ok (-127) := by decide +kernel

/-- C71 fails for denormals: the distance between 0 and 2^-149 is -127 although they are different (and with the standard's shifts
the call is undefined). -/
theorem C71_violated : mortonDistanceFloat true .f32 (v2 0#32 0#32) (v2 1#32 0#32) 1 = .ok (-127) ∧
    ¬ Morton.Spec.SameCell 0 (biased 0#32) (biased 1#32) ∧
    mortonDistanceFloat false .f32 (v2 0#32 0#32) (v2 1#32 0#32) 1 = .error (.ub .shift) := by
  refine ⟨by decide +kernel, by decide +kernel, by decide +kernel⟩

/-- The signed left shift of the standard is defined exactly for amounts below the width and values that are nonnegative and whose
product by the power of two fits the unsigned type; the lax shift only needs the amount. -/
theorem shl_defined {w : ℕ} (a : BitVec w) (n : ℤ) :
    ((∃ y, shl false a n = .ok y) ↔ (0 ≤ n ∧ n < w) ∧ 0 ≤ a.toInt ∧ a.toInt * 2 ^ n.toNat < 2 ^ w) ∧
    ((∃ y, shl true a n = .ok y) ↔ 0 ≤ n ∧ n < w) := by
  unfold shl
  have no : ∀ {p : Prop}, (∃ y : BitVec w, (.error (.ub .shift) : Outcome (BitVec w)) = .ok y) → p := fun ⟨_, h⟩ => by cases h
  by_cases h : n < 0 ∨ (w : ℤ) ≤ n
  · rw [if_pos h, if_pos h]
    exact ⟨⟨no, fun ⟨h', _⟩ => by omega⟩, ⟨no, fun h' => by omega⟩⟩
  · rw [if_neg h, if_neg h, if_neg (fun h => by cases h.1 : ¬ (true = false ∧ (a.toInt < 0 ∨ 2 ^ w ≤ a.toInt * 2 ^ n.toNat)))]
    refine ⟨?_, ⟨fun _ => by omega, fun _ => ⟨_, rfl⟩⟩⟩
    by_cases h' : a.toInt < 0 ∨ 2 ^ w ≤ a.toInt * 2 ^ n.toNat
    · rw [if_pos ⟨rfl, h'⟩]
      refine ⟨no, fun ⟨_, h1, h2⟩ => ?_⟩
      rcases h' with h' | h'
      · exact absurd h' (not_lt.2 h1)
      · exact absurd h2 (not_lt.2 h')
    · rw [if_neg (fun h => h' h.2)]
      push Not at h'
      exact ⟨fun _ => ⟨by omega, h'⟩, fun _ => ⟨_, rfl⟩⟩

example : shl false (-1#32) 1 = .error (.ub .shift) := by decide +kernel

end Verif.MortonFloat
