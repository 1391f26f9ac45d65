import Verif.PlaneAligner.FpProps
import Verif.TlsFp.Lemmas

/-! Property theorems C128 (see properties.jsonl): the normals for which the plane aligner in `float` arithmetic computes no number. -/
namespace Verif.PlaneAligner
open Verif Ieee Ieee.Fp Float.Model V3

/-! ### Zeros, infinities and NaN -/

theorem zero_cases {a : Flt} (ha : a.Fin) (h0 : a.val = 0) : a = ⟨.zero .positive, trivial⟩ ∨ a = ⟨.zero .negative, trivial⟩ := by
  obtain ⟨s, h⟩ := x_zero ha h0
  cases s with
  | positive => exact Or.inl (Fp.ext h)
  | negative => exact Or.inr (Fp.ext h)

theorem not_fin_cases {a : Flt} (ha : ¬ a.Fin) : a = ⟨.infinity .positive, trivial⟩ ∨ a = ⟨.infinity .negative, trivial⟩ ∨ a = ⟨.notANumber, trivial⟩ := by
  unfold Fp.Fin at ha
  cases h : a.x with
  | notANumber => exact Or.inr (Or.inr (Fp.ext h))
  | infinity s =>
    cases s with
    | positive => exact Or.inl (Fp.ext h)
    | negative => exact Or.inr (Or.inl (Fp.ext h))
  | zero s => exact absurd (by rw [h]; trivial) ha
  | finite s m e hm => exact absurd (by rw [h]; trivial) ha

/-- An infinity or NaN times zero. -/
theorem mul_zero_nan {a b : Flt} (ha : ¬ a.Fin) (hb : b.Fin) (h0 : b.val = 0) : (a * b).NaN := by
  rcases not_fin_cases ha with rfl | rfl | rfl <;> rcases zero_cases hb h0 with rfl | rfl <;> decide +kernel

/-- An infinity or NaN times a number. -/
theorem mul_not_fin {a b : Flt} (ha : ¬ a.Fin) (hb : b.Fin) : ¬ (a * b).Fin := by
  have h1 : ¬ (ofU .binary32 (.infinity .positive)).Fin := by decide +kernel
  have h2 : ¬ (ofU .binary32 (.infinity .negative)).Fin := by decide +kernel
  have h3 : ¬ (ofU .binary32 .notANumber).Fin := by decide +kernel
  show ¬ (ofU .binary32 (UnpackedFloat.mul _ a.x b.x)).Fin
  unfold Fp.Fin at hb
  rcases not_fin_cases ha with rfl | rfl | rfl <;> cases hx : b.x with
  | infinity s => rw [hx] at hb; cases hb
  | notANumber => rw [hx] at hb; cases hb
  | zero s => exact h3
  | finite s m e hm => cases s <;> first | exact h1 | exact h2 | exact h3

/-- One divided by zero. -/
theorem one_div_zero {a : Flt} (ha : a.Fin) (h0 : a.val = 0) : ¬ (((1 : ℕ) : Flt) / a).Fin := by
  rcases zero_cases ha h0 with rfl | rfl <;> decide +kernel

theorem NaN.not_fin {a : Flt} (h : a.NaN) : ¬ a.Fin := by
  unfold Fp.Fin
  rw [show a.x = _ from h]
  exact id

/-- A sum with a term that is not a number. -/
theorem sum3_nan {o : Bool} {a b c : Flt} (h : a.NaN ∨ b.NaN ∨ c.NaN) : (sum3 o a b c).NaN := by
  unfold sum3
  split_ifs
  · rcases h with h | h | h
    · exact NaN.add (Or.inl h)
    · exact NaN.add (Or.inr (NaN.add (Or.inl h)))
    · exact NaN.add (Or.inr (NaN.add (Or.inr h)))
  · rcases h with h | h | h
    · exact NaN.add (Or.inl (NaN.add (Or.inl h)))
    · exact NaN.add (Or.inl (NaN.add (Or.inr h)))
    · exact NaN.add (Or.inr h)

/-! ### Small numbers -/

/-- Underflow. -/
theorem mul_under {a b : Flt} (ha : a.Fin) (hb : b.Fin) (h : |a.val * b.val| ≤ 2 ^ (-151 : ℤ)) : (a * b).Fin ∧ (a * b).val = 0 := by
  have i := mul_is ha hb (h.trans (by rw [top32]; exact zpow_le_zpow_right₀ (by norm_num) (by norm_num)))
  refine ⟨i.1, ?_⟩
  have h1 : |(a * b).val - a.val * b.val| ≤ |0 - a.val * b.val| := i.2.nearest Fmt.good grid_zero
  rw [zero_sub, abs_neg] at h1
  have h2 : |(a * b).val| ≤ 2 ^ (-150 : ℤ) := by
    have := abs_add_le ((a * b).val - a.val * b.val) (a.val * b.val)
    rw [sub_add_cancel] at this
    rw [show (-150 : ℤ) = -151 + 1 by norm_num, zpow_add₀ (by norm_num), zpow_one]
    linarith
  obtain ⟨q, u, -, hu, hq⟩ := (a * b).grid
  rw [minExp32] at hu
  by_contra h0
  have hq0 : q ≠ 0 := by
    rintro rfl
    exact h0 (by rw [hq]; simp)
  have h3 : (1 : ℝ) ≤ |(q : ℝ)| := by exact_mod_cast Int.one_le_abs hq0
  have h4 : (2 : ℝ) ^ (-149 : ℤ) ≤ 2 ^ u := zpow_le_zpow_right₀ (by norm_num) (by omega)
  have h5 : (2 : ℝ) ^ (-149 : ℤ) ≤ |(a * b).val| := by
    rw [hq, abs_mul, abs_of_pos (show (0 : ℝ) < 2 ^ u by positivity)]
    have : (0 : ℝ) < 2 ^ u := by positivity
    nlinarith
  have h6 : (2 : ℝ) ^ (-150 : ℤ) < 2 ^ (-149 : ℤ) := zpow_lt_zpow_right₀ (by norm_num) (by norm_num)
  linarith

/-- A number of size at most 2^k. -/
def Le2 (a : Flt) (k : ℤ) : Prop := a.Fin ∧ |a.val| ≤ 2 ^ k

theorem Le2.add {a b : Flt} {k : ℤ} (hk : -149 ≤ k) (hk' : k ≤ 100) (ha : Le2 a k) (hb : Le2 b k) : Le2 (a + b) (k + 1) := by
  have h : |a.val + b.val| ≤ 2 ^ (k + 1) := by
    rw [zpow_add₀ (by norm_num), zpow_one]
    exact (abs_add_le _ _).trans (by linarith [ha.2, hb.2])
  have i := add_is ha.1 hb.1 (h.trans (by rw [top32]; exact zpow_le_zpow_right₀ (by norm_num) (by omega)))
  exact ⟨i.1, i.2.abs_le (by rw [minExp32]; omega) h⟩

theorem Le2.sub {a b : Flt} {k : ℤ} (hk : -149 ≤ k) (hk' : k ≤ 100) (ha : Le2 a k) (hb : Le2 b k) : Le2 (a - b) (k + 1) := by
  have h : |a.val - b.val| ≤ 2 ^ (k + 1) := by
    rw [zpow_add₀ (by norm_num), zpow_one, sub_eq_add_neg]
    exact (abs_add_le _ _).trans (by rw [abs_neg]; linarith [ha.2, hb.2])
  have i := sub_is ha.1 hb.1 (h.trans (by rw [top32]; exact zpow_le_zpow_right₀ (by norm_num) (by omega)))
  exact ⟨i.1, i.2.abs_le (by rw [minExp32]; omega) h⟩

theorem Le2.mul {a b : Flt} {j k : ℤ} (hk : -149 ≤ j + k) (hk' : j + k ≤ 100) (ha : Le2 a j) (hb : Le2 b k) : Le2 (a * b) (j + k) := by
  have h : |a.val * b.val| ≤ 2 ^ (j + k) := by
    rw [zpow_add₀ (by norm_num), abs_mul]
    exact mul_le_mul ha.2 hb.2 (abs_nonneg _) (by positivity)
  have i := mul_is ha.1 hb.1 (h.trans (by rw [top32]; exact zpow_le_zpow_right₀ (by norm_num) (by omega)))
  exact ⟨i.1, i.2.abs_le (by rw [minExp32]; omega) h⟩

theorem Le2.mul_zero {a b : Flt} {j k : ℤ} (hk : j + k ≤ -151) (ha : Le2 a j) (hb : Le2 b k) : (a * b).Fin ∧ (a * b).val = 0 := by
  refine mul_under ha.1 hb.1 ?_
  calc |a.val * b.val| ≤ 2 ^ (j + k) := by
        rw [zpow_add₀ (by norm_num), abs_mul]
        exact mul_le_mul ha.2 hb.2 (abs_nonneg _) (by positivity)
    _ ≤ _ := zpow_le_zpow_right₀ (by norm_num) hk

theorem Le2.mono {a : Flt} {j k : ℤ} (h : j ≤ k) (ha : Le2 a j) : Le2 a k := ⟨ha.1, ha.2.trans (zpow_le_zpow_right₀ (by norm_num) h)⟩

/-- A zero of either sign. -/
def Zero (a : Flt) : Prop := a.Fin ∧ a.val = 0

theorem Zero.le2 {a : Flt} (h : Zero a) (k : ℤ) : Le2 a k := ⟨h.1, by rw [h.2, abs_zero]; positivity⟩

theorem Zero.add {a b : Flt} (ha : Zero a) (hb : Zero b) : Zero (a + b) := by
  have := add_is ha.1 hb.1 (by rw [ha.2, hb.2, add_zero, abs_zero]; positivity)
  rw [ha.2, hb.2, add_zero] at this
  exact ⟨this.1, this.2.exact grid_zero⟩

theorem Zero.sub {a b : Flt} (ha : Zero a) (hb : Zero b) : Zero (a - b) := by
  have := sub_is ha.1 hb.1 (by rw [ha.2, hb.2, sub_zero, abs_zero]; positivity)
  rw [ha.2, hb.2, sub_zero] at this
  exact ⟨this.1, this.2.exact grid_zero⟩

theorem Zero.sum3 {o : Bool} {a b c : Flt} (ha : Zero a) (hb : Zero b) (hc : Zero c) : Zero (sum3 o a b c) := by
  unfold PlaneAligner.sum3
  split_ifs
  · exact ha.add (hb.add hc)
  · exact (ha.add hb).add hc

theorem Zero.mul {a b : Flt} (ha : Zero a) (hb : b.Fin) : Zero (a * b) := by
  have := mul_is ha.1 hb (by rw [ha.2, zero_mul, abs_zero]; positivity)
  rw [ha.2, zero_mul] at this
  exact ⟨this.1, this.2.exact grid_zero⟩

/-! ### Small axes -/

theorem axis_le (i : ℕ) : Le2 (axisXF i).x 0 ∧ Le2 (axisXF i).y 0 ∧ Le2 (axisXF i).z 0 := by
  have h1 : Le2 ((1 : ℕ) : Flt) 0 := ⟨one_is.1, by rw [one_is.2]; norm_num⟩
  have h0 : Le2 (0 : Flt) 0 := Zero.le2 ⟨zero_is.1, zero_is.2⟩ 0
  unfold axisXF
  split
  · exact ⟨h0, h0, h1⟩
  · exact ⟨h0, h0, h1⟩
  · exact ⟨h1, h0, h0⟩

/-- Subtracting zeros from the axis x, and normalising it. -/
theorem axis_sub (o : Bool) (i : ℕ) {a b c : Flt} (ha : Zero a) (hb : Zero b) (hc : Zero c) : normalizeF o (subF (axisXF i) ⟨a, b, c⟩) = axisXF i := by
  have s1 : ∀ {a : Flt}, Zero a → ((1 : ℕ) : Flt) - a = ((1 : ℕ) : Flt) := fun h => by
    rcases zero_cases h.1 h.2 with rfl | rfl <;> decide +kernel
  have s0 : ∀ {a : Flt}, Zero a → (0 : Flt) - a = 0 := fun h => by
    rcases zero_cases h.1 h.2 with rfl | rfl <;> decide +kernel
  have e : subF (axisXF i) ⟨a, b, c⟩ = axisXF i := by
    unfold axisXF subF
    split <;> simp only [s1, s0, ha, hb, hc]
  rw [e]
  have n1 : ∀ o, normalizeF o (⟨0, 0, ((1 : ℕ) : Flt)⟩ : V3 Flt) = ⟨0, 0, ((1 : ℕ) : Flt)⟩ := by
    intro o
    cases o <;> (unfold normalizeF; rw [if_pos (by decide +kernel)]; unfold sdivF; congr 1 <;> decide +kernel)
  have n2 : ∀ o, normalizeF o (⟨((1 : ℕ) : Flt), 0, 0⟩ : V3 Flt) = ⟨((1 : ℕ) : Flt), 0, 0⟩ := by
    intro o
    cases o <;> (unfold normalizeF; rw [if_pos (by decide +kernel)]; unfold sdivF; congr 1 <;> decide +kernel)
  unfold axisXF
  split
  · exact n1 o
  · exact n1 o
  · exact n2 o

/-- The entries of the linear part are not numbers. -/
def AllNaN (T : T3 Flt) : Prop :=
  (T.r0.x.NaN ∧ T.r0.y.NaN ∧ T.r0.z.NaN) ∧ (T.r1.x.NaN ∧ T.r1.y.NaN ∧ T.r1.z.NaN) ∧ (T.r2.x.NaN ∧ T.r2.y.NaN ∧ T.r2.z.NaN)

/-- A row without numbers. -/
theorem row_nan (o : Bool) {r : V3 Flt} (v : V3 Flt) (hx : ¬ r.x.Fin) (hy : ¬ r.y.Fin) :
    (rowF o r (pretranslateF v idF)).x.NaN ∧ (rowF o r (pretranslateF v idF)).y.NaN ∧ (rowF o r (pretranslateF v idF)).z.NaN :=
  ⟨sum3_nan (Or.inr (Or.inl (mul_zero_nan hy zero_is.1 zero_is.2))), sum3_nan (Or.inl (mul_zero_nan hx zero_is.1 zero_is.2)), sum3_nan (Or.inl (mul_zero_nan hx zero_is.1 zero_is.2))⟩

/-- If the normal is not enlarged by the normalisation, the determinant underflows. -/
theorem all_nan (o : ℕ → Bool) (s : AlignerF) (points : List (V3 Flt)) (hc : s.cloud = some points)
    (hx : Le2 (normalizeF (o 0) s.normal).x (-78)) (hy : Le2 (normalizeF (o 0) s.normal).y (-78)) (hz : Le2 (normalizeF (o 0) s.normal).z (-78)) :
    ∃ s', s.compute o = .ok s' ∧ AllNaN s'.transform := by
  have e : s.compute o = .ok ⟨s.cloud, s.normal, s.const,
      prerotateF (o 4) (inverse3F o (axesF o s.normal).1 (axesF o s.normal).2.1 (axesF o s.normal).2.2).1 (inverse3F o (axesF o s.normal).1 (axesF o s.normal).2.1 (axesF o s.normal).2.2).2.1
        (inverse3F o (axesF o s.normal).1 (axesF o s.normal).2.1 (axesF o s.normal).2.2).2.2 (pretranslateF (negF (centerOf o s points)) idF), s.planeTol⟩ := by
    unfold AlignerF.compute
    rw [hc]
    rfl
  refine ⟨_, e, ?_⟩
  clear e
  dsimp only
  generalize centerOf o s points = ctr
  unfold axesF
  dsimp only
  generalize normalizeF (o 0) s.normal = az at *
  generalize maxIdxF az = i at *
  obtain ⟨a1, a2, a3⟩ := axis_le i
  -- the axis x is not changed
  have d : Le2 (dotF (o 2) (axisXF i) az) (-76) := by
    have p1 : Le2 ((axisXF i).x * az.x) (-78) := Le2.mul (j := 0) (k := -78) (by norm_num) (by norm_num) a1 hx
    have p2 : Le2 ((axisXF i).y * az.y) (-78) := Le2.mul (j := 0) (k := -78) (by norm_num) (by norm_num) a2 hy
    have p3 : Le2 ((axisXF i).z * az.z) (-78) := Le2.mul (j := 0) (k := -78) (by norm_num) (by norm_num) a3 hz
    unfold dotF sum3
    split_ifs
    · exact Le2.add (k := -77) (by norm_num) (by norm_num) (p1.mono (by norm_num)) (Le2.add (k := -78) (by norm_num) (by norm_num) p2 p3)
    · exact Le2.add (k := -77) (by norm_num) (by norm_num) (Le2.add (k := -78) (by norm_num) (by norm_num) p1 p2) (p3.mono (by norm_num))
  have ex : normalizeF (o 1) (subF (axisXF i) (smulF (dotF (o 2) (axisXF i) az) az)) = axisXF i :=
    axis_sub (o 1) i (Le2.mul_zero (by norm_num) d hx) (Le2.mul_zero (by norm_num) d hy) (Le2.mul_zero (by norm_num) d hz)
  rw [ex]
  generalize axisXF i = ax at *
  -- the axis y is small
  have cr : ∀ {a b c d : Flt}, Le2 a (-78) → Le2 b 0 → Le2 c (-78) → Le2 d 0 → Le2 (a * b - c * d) (-77) := fun ha hb hc hd =>
    Le2.sub (k := -78) (by norm_num) (by norm_num) (Le2.mul (j := -78) (k := 0) (by norm_num) (by norm_num) ha hb) (Le2.mul (j := -78) (k := 0) (by norm_num) (by norm_num) hc hd)
  have y1 : Le2 (crossF az ax).x (-77) := cr hy a3 hz a2
  have y2 : Le2 (crossF az ax).y (-77) := cr hz a1 hx a3
  have y3 : Le2 (crossF az ax).z (-77) := cr hx a2 hy a1
  generalize hay : crossF az ax = ay at *
  -- the first cofactors are zero
  have cz : ∀ {a b c d : Flt}, Le2 a (-77) → Le2 b (-78) → Le2 c (-77) → Le2 d (-78) → Zero (a * b - c * d) := fun ha hb hc hd =>
    Zero.sub (Le2.mul_zero (by norm_num) ha hb) (Le2.mul_zero (by norm_num) hc hd)
  have c1 : Zero (crossF ay az).x := cz y2 hz y3 hy
  have c2 : Zero (crossF ay az).y := cz y3 hx y1 hz
  have c3 : Zero (crossF ay az).z := cz y1 hy y2 hx
  have det : Zero (dotF (o 3) (crossF ay az) ax) := Zero.sum3 (c1.mul a1.1) (c2.mul a2.1) (c3.mul a3.1)
  have hi := one_div_zero det.1 det.2
  have f2 : ∀ {a b c d : Flt}, Le2 a 0 → Le2 b 0 → Le2 c 0 → Le2 d 0 → (a * b - c * d).Fin := fun ha hb hc hd =>
    (Le2.sub (k := 0) (by norm_num) (by norm_num) (Le2.mul (j := 0) (k := 0) (by norm_num) (by norm_num) ha hb) (Le2.mul (j := 0) (k := 0) (by norm_num) (by norm_num) hc hd)).1
  have z0 : (-78 : ℤ) ≤ 0 := by norm_num
  have w0 : (-77 : ℤ) ≤ 0 := by norm_num
  unfold inverse3F
  dsimp only
  generalize ((1 : ℕ) : Flt) / dotF (o 3) (crossF ay az) ax = inv at *
  refine ⟨row_nan _ _ (mul_not_fin hi c1.1) (mul_not_fin hi c2.1), row_nan _ _ ?_ ?_, row_nan _ _ ?_ ?_⟩
  · exact mul_not_fin hi (f2 (hy.mono z0) a3 (hz.mono z0) a2)
  · exact mul_not_fin hi (f2 (hz.mono z0) a1 (hx.mono z0) a3)
  · exact mul_not_fin hi (f2 a2 (y3.mono w0) a3 (y2.mono w0))
  · exact mul_not_fin hi (f2 a3 (y1.mono w0) a1 (y3.mono w0))

/-- All the normals with components up to 2^-78 in absolute value: no entry of the linear part is a number. -/
theorem C128_tiny_violated (o : ℕ → Bool) (s : AlignerF) (points : List (V3 Flt)) (hc : s.cloud = some points) (hn : s.normal.Fin3)
    (hx : |s.normal.x.val| ≤ 2 ^ (-78 : ℤ)) (hy : |s.normal.y.val| ≤ 2 ^ (-78 : ℤ)) (hz : |s.normal.z.val| ≤ 2 ^ (-78 : ℤ)) :
    ∃ s', s.compute o = .ok s' ∧ AllNaN s'.transform := by
  have e : normalizeF (o 0) s.normal = s.normal := by
    unfold normalizeF
    have z : Zero (dotF (o 0) s.normal s.normal) :=
      Zero.sum3 (Le2.mul_zero (j := -78) (k := -78) (by norm_num) ⟨hn.1, hx⟩ ⟨hn.1, hx⟩) (Le2.mul_zero (j := -78) (k := -78) (by norm_num) ⟨hn.2.1, hy⟩ ⟨hn.2.1, hy⟩)
        (Le2.mul_zero (j := -78) (k := -78) (by norm_num) ⟨hn.2.2, hz⟩ ⟨hn.2.2, hz⟩)
    rw [if_neg]
    rw [lt_iff zero_is.1 z.1, zero_is.2, z.2]
    exact lt_irrefl _
  apply all_nan o s points hc <;> rw [e]
  exacts [⟨hn.1, hx⟩, ⟨hn.2.1, hy⟩, ⟨hn.2.2, hz⟩]

/-! ### Huge normals -/

/-- The positive infinity. -/
def PInf (a : Flt) : Prop := a.x = .infinity .positive

/-- A number that is not negative, or the positive infinity. -/
def NonNeg (a : Flt) : Prop := (a.Fin ∧ 0 ≤ a.val) ∨ PInf a

/-- A rounded result, or an overflow. -/
theorem over32 {x : ℝ} {y : UnpackedFloat} (h : Rounded .binary32 x y) (hx : 0 ≤ x) : (ofU .binary32 y).Is x ∨ PInf (ofU .binary32 y) := by
  rcases h.fin with ⟨s, rfl⟩ | ⟨s, m, e, hm, rfl⟩
  · left
    rw [ofU_repr (show Repr .binary32 (.zero s) from trivial)]
    exact ⟨trivial, h⟩
  · by_cases he : e ≤ maxExponent .binary32
    · left
      rw [ofU_repr (show Repr .binary32 (.finite s m e hm) from ⟨h.canon, he⟩)]
      exact ⟨trivial, h⟩
    · right
      have hs : s = .positive := by
        cases s with
        | positive => rfl
        | negative =>
          exfalso
          have h1 := h.mono_ge grid_zero hx
          simp only [Ieee.val, sgn] at h1
          have h2 : (0 : ℝ) < m * 2 ^ e := by
            have : (0 : ℝ) < m := by exact_mod_cast hm
            positivity
          linarith
      subst hs
      show UnpackedFloat.unpack _ (UnpackedFloat.pack _ _) = _
      have hmx : maxExponent .binary32 = 104 := by decide
      have hp : UnpackedFloat.pack .binary32 (.finite .positive m e hm) = UnpackedFloat.packedInfinity .binary32 .positive := by
        unfold UnpackedFloat.pack
        dsimp only
        refine if_pos ?_
        have h1 : (Format.binary32.exponentBias : ℤ) = 127 := by decide
        have h2 : (Format.binary32.mantissaBitsWithoutImplicit : ℤ) = 23 := by decide
        have h3 : 2 ^ Format.binary32.exponentBits = 256 := by decide
        rw [h1, h2, h3]
        omega
      rw [hp]
      exact unpack_pack (spec := .binary32) (by decide) (x := .infinity .positive) trivial

/-- Finite numbers are below 2^128. -/
theorem fin_lt {a : Flt} (ha : a.Fin) : |a.val| < 2 ^ (128 : ℤ) := by
  have hr := a.repr
  unfold Fp.Fin Fp.val at *
  cases hx : a.x with
  | infinity s => rw [hx] at ha; cases ha
  | notANumber => rw [hx] at ha; cases ha
  | zero s => simp only [Ieee.val, abs_zero]; positivity
  | finite s m e hm =>
    rw [hx] at hr
    obtain ⟨hc, he⟩ := hr
    have hmx : maxExponent .binary32 = 104 := by decide
    rw [hmx] at he
    have h1 : m < 2 ^ 24 := by
      have := hc.1
      have e24 : Format.binary32.mantissaBits = 24 := by decide
      rw [e24] at this
      exact this
    have h2 : (m : ℝ) < 2 ^ (24 : ℤ) := by exact_mod_cast h1
    have h3 : (2 : ℝ) ^ e ≤ 2 ^ (104 : ℤ) := zpow_le_zpow_right₀ (by norm_num) he
    have h4 : |Ieee.val (.finite s m e hm)| = m * 2 ^ e := by
      cases s <;> simp [Ieee.val, sgn, abs_mul]
    rw [h4, show (128 : ℤ) = 24 + 104 by norm_num, zpow_add₀ (by norm_num)]
    have : (0 : ℝ) < 2 ^ e := by positivity
    have hm0 : (0 : ℝ) ≤ m := Nat.cast_nonneg _
    nlinarith

theorem sq_nonneg32 {a : Flt} (ha : a.Fin) : NonNeg (a * a) := by
  rcases over32 (mul_spec Fmt.good ha ha a.canon a.canon) (mul_self_nonneg a.val) with h | h
  · exact Or.inl ⟨h.1, h.2.mono_ge grid_zero (mul_self_nonneg a.val)⟩
  · exact Or.inr h

theorem sq_inf {a : Flt} (ha : a.Fin) (h : 2 ^ (64 : ℤ) ≤ |a.val|) : PInf (a * a) := by
  have h2 : (2 : ℝ) ^ (128 : ℤ) ≤ a.val * a.val := by
    rw [← abs_mul_abs_self, show (128 : ℤ) = 64 + 64 by norm_num, zpow_add₀ (by norm_num)]
    exact mul_le_mul h h (by positivity) (abs_nonneg _)
  rcases over32 (mul_spec Fmt.good ha ha a.canon a.canon) (mul_self_nonneg a.val) with i | i
  · exfalso
    have h1 := i.2.mono_ge (grid_two_pow (spec := .binary32) (k := 128) (by rw [minExp32]; norm_num)) h2
    have h3 := fin_lt i.1
    have h4 := le_abs_self (Fp.val (ofU .binary32 (UnpackedFloat.mul .binary32 a.x a.x)))
    exact absurd (lt_of_le_of_lt (le_trans h1 h4) h3) (lt_irrefl _)
  · exact i

theorem add_inf32 {a b : Flt} (ha : NonNeg a) (hb : NonNeg b) : NonNeg (a + b) ∧ (PInf a ∨ PInf b → PInf (a + b)) := by
  have o : (ofU .binary32 (.infinity .positive)).x = .infinity .positive := by decide +kernel
  have ri : ∀ {a b : Flt}, NonNeg a → PInf b → PInf (a + b) := by
    intro a b ha hb
    show (ofU .binary32 (UnpackedFloat.add _ a.x b.x)).x = _
    rw [show b.x = _ from hb]
    rcases ha with ⟨ha, -⟩ | ha
    · unfold Fp.Fin at ha
      cases hx : a.x with
      | infinity s => rw [hx] at ha; cases ha
      | notANumber => rw [hx] at ha; cases ha
      | zero s => exact o
      | finite s m e hm => exact o
    · rw [show a.x = _ from ha]
      exact o
  have li : ∀ {a b : Flt}, PInf a → NonNeg b → PInf (a + b) := by
    intro a b ha hb
    show (ofU .binary32 (UnpackedFloat.add _ a.x b.x)).x = _
    rw [show a.x = _ from ha]
    rcases hb with ⟨hb, -⟩ | hb
    · unfold Fp.Fin at hb
      cases hx : b.x with
      | infinity s => rw [hx] at hb; cases hb
      | notANumber => rw [hx] at hb; cases hb
      | zero s => exact o
      | finite s m e hm => exact o
    · rw [show b.x = _ from hb]
      exact o
  refine ⟨?_, fun h => h.elim (fun h => li h hb) (ri ha)⟩
  rcases ha with ⟨f, h⟩ | ha
  · rcases hb with ⟨f', h'⟩ | hb
    · rcases over32 (add_spec Fmt.good f f' a.canon b.canon) (add_nonneg h h') with i | i
      · exact Or.inl ⟨i.1, i.2.mono_ge grid_zero (add_nonneg h h')⟩
      · exact Or.inr i
    · exact Or.inr (ri (Or.inl ⟨f, h⟩) hb)
  · exact Or.inr (li ha hb)

/-- The quotient by the infinity. -/
theorem div_inf32 {a b : Flt} (ha : a.Fin) (hb : PInf b) : Zero (a / b) := by
  have hz : ∀ s, Zero (ofU .binary32 (.zero s)) := by
    intro s
    rw [ofU_repr (show Repr .binary32 (.zero s) from trivial)]
    exact ⟨trivial, rfl⟩
  show Zero (ofU .binary32 (UnpackedFloat.div _ a.x b.x))
  rw [show b.x = _ from hb]
  unfold Fp.Fin at ha
  cases hx : a.x with
  | infinity s => rw [hx] at ha; cases ha
  | notANumber => rw [hx] at ha; cases ha
  | zero s => exact hz _
  | finite s m e hm => exact hz _

/-- All the finite normals with a component of at least 2^64 in absolute value: no entry of the linear part is a number. -/
theorem C128_huge_violated (o : ℕ → Bool) (s : AlignerF) (points : List (V3 Flt)) (hc : s.cloud = some points) (hn : s.normal.Fin3)
    (h : 2 ^ (64 : ℤ) ≤ |s.normal.x.val| ∨ 2 ^ (64 : ℤ) ≤ |s.normal.y.val| ∨ 2 ^ (64 : ℤ) ≤ |s.normal.z.val|) :
    ∃ s', s.compute o = .ok s' ∧ AllNaN s'.transform := by
  have hd : PInf (dotF (o 0) s.normal s.normal) := by
    have x := sq_nonneg32 hn.1
    have y := sq_nonneg32 hn.2.1
    have z := sq_nonneg32 hn.2.2
    have hi : PInf (s.normal.x * s.normal.x) ∨ PInf (s.normal.y * s.normal.y) ∨ PInf (s.normal.z * s.normal.z) :=
      h.imp (sq_inf hn.1) (Or.imp (sq_inf hn.2.1) (sq_inf hn.2.2))
    unfold dotF sum3
    split_ifs
    · exact (add_inf32 x (add_inf32 y z).1).2 (hi.imp id (add_inf32 y z).2)
    · exact (add_inf32 (add_inf32 x y).1 z).2 ((or_assoc.2 hi).imp (add_inf32 x y).2 id)
  have e : normalizeF (o 0) s.normal = sdivF s.normal (Fp.sqrt (dotF (o 0) s.normal s.normal)) := by
    unfold normalizeF
    rw [if_pos]
    rw [show dotF (o 0) s.normal s.normal = ⟨.infinity .positive, trivial⟩ from Fp.ext hd]
    decide +kernel
  have hs : PInf (Fp.sqrt (dotF (o 0) s.normal s.normal)) := by
    rw [show dotF (o 0) s.normal s.normal = ⟨.infinity .positive, trivial⟩ from Fp.ext hd]
    unfold PInf
    decide +kernel
  apply all_nan o s points hc <;> rw [e]
  exacts [(div_inf32 hn.1 hs).le2 _, (div_inf32 hn.2.1 hs).le2 _, (div_inf32 hn.2.2 hs).le2 _]

/-- A tiny and a huge normal. -/
example : (AlignerF.compute (fun _ => true) ⟨some [], ⟨tiny, -tiny, tiny⟩, 0, idF, 0⟩).map (fun s => (decide s.transform.r0.x.NaN, decide s.transform.r2.z.NaN)) = .ok (true, true) := by decide +kernel

example : (AlignerF.compute (fun _ => true) ⟨some [], ⟨0, ((2 ^ 64 : ℕ) : Flt), 0⟩, 0, idF, 0⟩).map (fun s => (decide s.transform.r0.x.NaN, decide s.transform.r2.z.NaN)) = .ok (true, true) := by decide +kernel

end Verif.PlaneAligner
