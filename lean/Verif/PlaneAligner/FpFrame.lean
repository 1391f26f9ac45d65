import Verif.PlaneAligner.FpLemmas
import Verif.PlaneAligner.Props

/-! Lemmas for C128: the axes and the inverse of the matrix, in `float` arithmetic. -/
namespace Verif.PlaneAligner
open Verif Ieee Ieee.Fp Float.Model V3

/-- The coordinates of `v` are those of `w` up to `e`. -/
def Near (v : V3 Flt) (w : V3 ℝ) (e : ℝ) : Prop := Approx v.x w.x e ∧ Approx v.y w.y e ∧ Approx v.z w.z e

/-- The coordinates are in [-1, 1]. -/
def Small (w : V3 ℝ) : Prop := |w.x| ≤ 1 ∧ |w.y| ≤ 1 ∧ |w.z| ≤ 1

theorem small_of_unit {w : V3 ℝ} (h : dot w w = 1) : Small w := by
  simp only [dot] at h
  refine ⟨?_, ?_, ?_⟩ <;> rw [abs_le] <;> constructor <;> nlinarith [mul_self_nonneg w.x, mul_self_nonneg w.y, mul_self_nonneg w.z]

theorem zp {k : ℤ} {q : ℝ} (h : (2 : ℝ) ^ k = q) : (2 : ℝ) ^ k = q := h

/-- A difference of products of numbers in [-1, 1]. -/
theorem prodSub {a b c d : Flt} {A B C D e f E : ℝ} (ha : Approx a A e) (hb : Approx b B f) (hc : Approx c C e) (hd : Approx d D f) (hA : |A| ≤ 1) (hB : |B| ≤ 1) (hC : |C| ≤ 1) (hD : |D| ≤ 1)
    (he : e ≤ 1 / 8) (hf : f ≤ 1 / 8) (hE : 2 * (e + f + e * f) + 1 / 4194304 ≤ E) : Approx (a * b - c * d) (A * B - C * D) E := by
  have e0 : 0 ≤ e := (abs_nonneg _).trans ha.2
  have f0 : 0 ≤ f := (abs_nonneg _).trans hb.2
  have hef : e * f ≤ 1 / 64 := by nlinarith
  have hP : |A * B| ≤ 1 := by rw [abs_mul]; exact mul_le_one₀ hA (abs_nonneg _) hB
  have hQ : |C * D| ≤ 1 := by rw [abs_mul]; exact mul_le_one₀ hC (abs_nonneg _) hD
  have h1 : Approx (a * b) (A * B) (e + f + e * f + 1 / 16777216) := ha.mul hb 1 (by rw [minExp32, mant32]; norm_num) (by rw [top32]; norm_num) hA hB (by rw [zpow_one]; nlinarith)
    (by rw [mant32]; norm_num; linarith)
  have h2 : Approx (c * d) (C * D) (e + f + e * f + 1 / 16777216) := hc.mul hd 1 (by rw [minExp32, mant32]; norm_num) (by rw [top32]; norm_num) hC hD (by rw [zpow_one]; nlinarith)
    (by rw [mant32]; norm_num; linarith)
  exact h1.sub h2 2 (by rw [minExp32, mant32]; norm_num) (by rw [top32]; norm_num) hP hQ (by norm_num; linarith) (by rw [mant32]; norm_num; linarith)

theorem cross_near {a b : V3 Flt} {A B : V3 ℝ} {e f E : ℝ} (ha : Near a A e) (hb : Near b B f) (hA : Small A) (hB : Small B) (he : e ≤ 1 / 8) (hf : f ≤ 1 / 8)
    (hE : 2 * (e + f + e * f) + 1 / 4194304 ≤ E) : Near (crossF a b) (cross A B) E :=
  ⟨prodSub ha.2.1 hb.2.2 ha.2.2 hb.2.1 hA.2.1 hB.2.2 hA.2.2 hB.2.1 he hf hE, prodSub ha.2.2 hb.1 ha.1 hb.2.2 hA.2.2 hB.1 hA.1 hB.2.2 he hf hE,
    prodSub ha.1 hb.2.1 ha.2.1 hb.1 hA.1 hB.2.1 hA.2.1 hB.1 he hf hE⟩

/-! ### Exact operations with 0 and 1 -/

theorem one_is : ((1 : ℕ) : Flt).Fin ∧ ((1 : ℕ) : Flt).val = 1 := by
  have := natCast_exact (spec := .binary32) (n := 1) (by rw [mant32]; norm_num) (by rw [top32]; norm_num)
  exact ⟨this.1, by rw [this.2, Nat.cast_one]⟩

theorem zero_mul_is {a : Flt} (ha : a.Fin) : ((0 : Flt) * a).Fin ∧ ((0 : Flt) * a).val = 0 := by
  have := mul_exact (zero_is (spec := .binary32)).1 ha (by rw [zero_is.2, zero_mul, abs_zero]; positivity) (by rw [zero_is.2, zero_mul]; exact grid_zero)
  exact ⟨this.1, by rw [this.2, zero_is.2, zero_mul]⟩

theorem mul_zero_is {a : Flt} (ha : a.Fin) : (a * (0 : Flt)).Fin ∧ (a * (0 : Flt)).val = 0 := by
  have := mul_exact ha (zero_is (spec := .binary32)).1 (by rw [zero_is.2, mul_zero, abs_zero]; positivity) (by rw [zero_is.2, mul_zero]; exact grid_zero)
  exact ⟨this.1, by rw [this.2, zero_is.2, mul_zero]⟩

theorem one_mul_is {a : Flt} (ha : a.Fin) (h : |a.val| ≤ 2 ^ (127 : ℤ)) : (((1 : ℕ) : Flt) * a).Fin ∧ (((1 : ℕ) : Flt) * a).val = a.val := by
  have := mul_exact one_is.1 ha (by rw [one_is.2, one_mul, top32]; exact h) (by rw [one_is.2, one_mul]; exact a.grid)
  exact ⟨this.1, by rw [this.2, one_is.2, one_mul]⟩

theorem mul_one_is {a : Flt} (ha : a.Fin) (h : |a.val| ≤ 2 ^ (127 : ℤ)) : (a * ((1 : ℕ) : Flt)).Fin ∧ (a * ((1 : ℕ) : Flt)).val = a.val := by
  have := mul_exact ha one_is.1 (by rw [one_is.2, mul_one, top32]; exact h) (by rw [one_is.2, mul_one]; exact a.grid)
  exact ⟨this.1, by rw [this.2, one_is.2, mul_one]⟩

theorem add_zero_is {a b : Flt} (ha : a.Fin) (hb : b.Fin) (h0 : b.val = 0) (h : |a.val| ≤ 2 ^ (127 : ℤ)) : (a + b).Fin ∧ (a + b).val = a.val := by
  have := add_is ha hb (by rw [h0, add_zero, top32]; exact h)
  exact ⟨this.1, by have e := this.2.exact (by rw [h0, add_zero]; exact a.grid); rw [h0, add_zero] at e; exact e⟩

theorem zero_add_is {a b : Flt} (ha : a.Fin) (hb : b.Fin) (h0 : a.val = 0) (h : |b.val| ≤ 2 ^ (127 : ℤ)) : (a + b).Fin ∧ (a + b).val = b.val := by
  have := add_is ha hb (by rw [h0, zero_add, top32]; exact h)
  exact ⟨this.1, by have e := this.2.exact (by rw [h0, zero_add]; exact b.grid); rw [h0, zero_add] at e; exact e⟩

/-- The sum of three terms, two of which are zero. -/
theorem sum3_one (o : Bool) {a b c : Flt} (ha : a.Fin) (hb : b.Fin) (hc : c.Fin) (h : |a.val| ≤ 2 ^ (127 : ℤ) ∧ |b.val| ≤ 2 ^ (127 : ℤ) ∧ |c.val| ≤ 2 ^ (127 : ℤ)) :
    (b.val = 0 → c.val = 0 → (sum3 o a b c).Fin ∧ (sum3 o a b c).val = a.val) ∧
    (a.val = 0 → c.val = 0 → (sum3 o a b c).Fin ∧ (sum3 o a b c).val = b.val) ∧
    (a.val = 0 → b.val = 0 → (sum3 o a b c).Fin ∧ (sum3 o a b c).val = c.val) := by
  have hz : |(0 : ℝ)| ≤ 2 ^ (127 : ℤ) := by rw [abs_zero]; positivity
  unfold sum3
  cases o
  · rw [if_neg (by simp)]
    refine ⟨fun h1 h2 => ?_, fun h1 h2 => ?_, fun h1 h2 => ?_⟩
    · obtain ⟨f, e⟩ := add_zero_is ha hb h1 h.1
      obtain ⟨f', e'⟩ := add_zero_is f hc h2 (by rw [e]; exact h.1)
      exact ⟨f', e'.trans e⟩
    · obtain ⟨f, e⟩ := zero_add_is ha hb h1 h.2.1
      obtain ⟨f', e'⟩ := add_zero_is f hc h2 (by rw [e]; exact h.2.1)
      exact ⟨f', e'.trans e⟩
    · obtain ⟨f, e⟩ := add_zero_is ha hb h2 h.1
      exact zero_add_is f hc (e.trans h1) h.2.2
  · rw [if_pos rfl]
    refine ⟨fun h1 h2 => ?_, fun h1 h2 => ?_, fun h1 h2 => ?_⟩
    · obtain ⟨f, e⟩ := add_zero_is hb hc h2 h.2.1
      exact add_zero_is ha f (e.trans h1) h.1
    · obtain ⟨f, e⟩ := add_zero_is hb hc h2 h.2.1
      obtain ⟨f', e'⟩ := zero_add_is ha f h1 (by rw [e]; exact h.2.1)
      exact ⟨f', e'.trans e⟩
    · obtain ⟨f, e⟩ := zero_add_is hb hc h2 h.2.2
      obtain ⟨f', e'⟩ := zero_add_is ha f h1 (by rw [e]; exact h.2.2)
      exact ⟨f', e'.trans e⟩

/-! ### Geometry -/

/-- The triangle inequality. -/
theorem len_sub (a b c p q r : ℝ) : |Real.sqrt (a ^ 2 + b ^ 2 + c ^ 2) - Real.sqrt (p ^ 2 + q ^ 2 + r ^ 2)| ≤ Real.sqrt ((a - p) ^ 2 + (b - q) ^ 2 + (c - r) ^ 2) := by
  have tri : ∀ a b c p q r : ℝ, Real.sqrt (a ^ 2 + b ^ 2 + c ^ 2) ≤ Real.sqrt (p ^ 2 + q ^ 2 + r ^ 2) + Real.sqrt ((a - p) ^ 2 + (b - q) ^ 2 + (c - r) ^ 2) := by
    intro a b c p q r
    have hB : 0 ≤ p ^ 2 + q ^ 2 + r ^ 2 := by positivity
    have hD : 0 ≤ (a - p) ^ 2 + (b - q) ^ 2 + (c - r) ^ 2 := by positivity
    rw [Real.sqrt_le_left (add_nonneg (Real.sqrt_nonneg _) (Real.sqrt_nonneg _))]
    have h1 := Real.sq_sqrt hB
    have h2 := Real.sq_sqrt hD
    have h3 : p * (a - p) + q * (b - q) + r * (c - r) ≤ Real.sqrt (p ^ 2 + q ^ 2 + r ^ 2) * Real.sqrt ((a - p) ^ 2 + (b - q) ^ 2 + (c - r) ^ 2) := by
      rw [← Real.sqrt_mul hB]
      apply Real.le_sqrt_of_sq_le
      nlinarith [sq_nonneg (p * (b - q) - q * (a - p)), sq_nonneg (p * (c - r) - r * (a - p)), sq_nonneg (q * (c - r) - r * (b - q))]
    nlinarith
  rw [abs_le]
  have h1 := tri a b c p q r
  have h2 := tri p q r a b c
  rw [show (p - a) ^ 2 + (q - b) ^ 2 + (r - c) ^ 2 = (a - p) ^ 2 + (b - q) ^ 2 + (c - r) ^ 2 by ring] at h2
  constructor <;> linarith

/-- The direction of a perturbed vector. -/
theorem dir_close {x y z p q r δ : ℝ} (hδ : 0 ≤ δ) (hx : |x - p| ≤ δ) (hy : |y - q| ≤ δ) (hz : |z - r| ≤ δ) (hR : 66 / 100 ≤ Real.sqrt (p ^ 2 + q ^ 2 + r ^ 2)) (hδ' : δ ≤ 1 / 1000) :
    3 / 5 ≤ Real.sqrt (x ^ 2 + y ^ 2 + z ^ 2) ∧ |x / Real.sqrt (x ^ 2 + y ^ 2 + z ^ 2) - p / Real.sqrt (p ^ 2 + q ^ 2 + r ^ 2)| ≤ 42 / 10 * δ ∧
      |y / Real.sqrt (x ^ 2 + y ^ 2 + z ^ 2) - q / Real.sqrt (p ^ 2 + q ^ 2 + r ^ 2)| ≤ 42 / 10 * δ ∧
      |z / Real.sqrt (x ^ 2 + y ^ 2 + z ^ 2) - r / Real.sqrt (p ^ 2 + q ^ 2 + r ^ 2)| ≤ 42 / 10 * δ := by
  have hd := len_sub x y z p q r
  have sq : ∀ {a b : ℝ}, |a - b| ≤ δ → (a - b) ^ 2 ≤ δ ^ 2 := fun h => sq_le_sq' (abs_le.1 h).1 (abs_le.1 h).2
  have hD : Real.sqrt ((x - p) ^ 2 + (y - q) ^ 2 + (z - r) ^ 2) ≤ 7 / 4 * δ := by
    rw [Real.sqrt_le_left (by linarith)]
    nlinarith [sq hx, sq hy, sq hz]
  have hS := hd.trans hD
  have comp : ∀ a b c : ℝ, |a| ≤ Real.sqrt (a ^ 2 + b ^ 2 + c ^ 2) := fun a b c => by
    rw [← Real.sqrt_sq_eq_abs]; exact Real.sqrt_le_sqrt (by nlinarith [sq_nonneg b, sq_nonneg c])
  have cx := comp x y z
  have cy : |y| ≤ Real.sqrt (x ^ 2 + y ^ 2 + z ^ 2) := (comp y x z).trans (le_of_eq (by congr 1; ring))
  have cz : |z| ≤ Real.sqrt (x ^ 2 + y ^ 2 + z ^ 2) := (comp z x y).trans (le_of_eq (by congr 1; ring))
  generalize Real.sqrt (x ^ 2 + y ^ 2 + z ^ 2) = S at *
  generalize Real.sqrt (p ^ 2 + q ^ 2 + r ^ 2) = R at *
  obtain ⟨s1, s2⟩ := abs_le.1 hS
  have hSp : 0 < S := by linarith
  have hRp : 0 < R := by linarith
  have key : ∀ {a b : ℝ}, |a - b| ≤ δ → |a| ≤ S → |a / S - b / R| ≤ 42 / 10 * δ := by
    intro a b h1 h2
    have e : a / S - b / R = ((a - b) + a / S * (R - S)) / R := by field_simp; ring
    rw [e, abs_div, abs_of_pos hRp, div_le_iff₀ hRp]
    have h3 : |a / S * (R - S)| ≤ 7 / 4 * δ := by
      rw [abs_mul, abs_div, abs_of_pos hSp]
      calc _ ≤ 1 * |R - S| := mul_le_mul_of_nonneg_right ((div_le_one hSp).2 h2) (abs_nonneg _)
        _ ≤ _ := by rw [one_mul, abs_sub_comm]; exact hS
    have h4 := (abs_add_le (a - b) (a / S * (R - S))).trans (add_le_add h1 h3)
    refine h4.trans ?_
    nlinarith
  exact ⟨by linarith, key hx cx, key hy cy, key hz cz⟩

/-- The component that is not the greatest one. -/
theorem not_greatest {p q p' q' : ℝ} (hp : |p' - p| ≤ 2 ^ (-21 : ℤ)) (hq : |q' - q| ≤ 2 ^ (-21 : ℤ)) (h : |p'| ≤ |q'|) (h1 : p ^ 2 + q ^ 2 ≤ 1) : |p| ≤ 3 / 4 := by
  by_contra hn
  have hn := not_le.1 hn
  have e : (2 : ℝ) ^ (-21 : ℤ) ≤ 1 / 1000 := by norm_num
  have a1 : |p| ≤ |p'| + |p' - p| := by
    have := abs_sub_abs_le_abs_sub p p'
    rw [abs_sub_comm] at this
    linarith
  have a2 : |q'| ≤ |q| + |q' - q| := by linarith [abs_sub_abs_le_abs_sub q' q]
  have a3 : 7 / 10 < |q| := by linarith [hp.trans e, hq.trans e]
  rw [← sq_abs p, ← sq_abs q] at h1
  nlinarith

/-- The axes computed from an axis `e` that is not too near to the normal. -/
theorem gs (o : Bool) {az ef : V3 Flt} {d : Flt} {c e : V3 ℝ} (hc : dot c c = 1) (he : dot e e = 1) (haz : Near az c (1 / 2097152)) (hef : Near ef e 0) (hd : Approx d (dot e c) (1 / 2097152))
    (hk : |dot e c| ≤ 3 / 4) : ∃ a : V3 ℝ, Frame a (cross c a) c ∧ Near (normalizeF o (subF ef (smulF d az))) a (6 / 1048576) := by
  have sc := small_of_unit hc
  have se := small_of_unit he
  set k := dot e c with hkd
  have hk1 : |k| ≤ 1 := by linarith
  have comp : ∀ {x : Flt} {X : ℝ} {y : Flt} {Y : ℝ}, Approx x X (1 / 2097152) → |X| ≤ 1 → Approx y Y 0 → |Y| ≤ 1 → Approx (y - d * x) (Y - k * X) (5 / 4194304) := by
    intro x X y Y hx hX hy hY
    have h1 : Approx (d * x) (k * X) (1 / 1048576 + 2 / 16777216) := hd.mul hx 1 (by rw [minExp32, mant32]; norm_num) (by rw [top32]; norm_num) hk1 hX (by norm_num)
      (by rw [mant32]; norm_num)
    have hP : |k * X| ≤ 1 := by rw [abs_mul]; exact mul_le_one₀ hk1 (abs_nonneg _) hX
    exact hy.sub h1 2 (by rw [minExp32, mant32]; norm_num) (by rw [top32]; norm_num) hY hP (by norm_num) (by rw [mant32]; norm_num)
  have r1 := comp haz.1 sc.1 hef.1 se.1
  have r2 := comp haz.2.1 sc.2.1 hef.2.1 se.2.1
  have r3 := comp haz.2.2 sc.2.2 hef.2.2 se.2.2
  set w := V3.sub e (smul k c) with hw
  have hww : dot w w = 1 - k ^ 2 := by
    rw [hw]
    simp only [dot, V3.sub, smul] at *
    linear_combination he + k ^ 2 * hc + 2 * k * hkd
  have hk2 : k ^ 2 ≤ 9 / 16 := by rw [← sq_abs]; nlinarith [abs_nonneg k]
  have hpos : 0 < dot w w := by rw [hww]; linarith
  have hdw : dot w w = w.x ^ 2 + w.y ^ 2 + w.z ^ 2 := by simp only [dot]; ring
  have hR : 66 / 100 ≤ Real.sqrt (w.x ^ 2 + w.y ^ 2 + w.z ^ 2) := by
    rw [← hdw, hww]
    apply Real.le_sqrt_of_sq_le
    linarith
  set v := subF ef (smulF d az) with hv
  have hwx : w.x = e.x - k * c.x := rfl
  have hwy : w.y = e.y - k * c.y := rfl
  have hwz : w.z = e.z - k * c.z := rfl
  obtain ⟨hS, dx, dy, dz⟩ := dir_close (x := v.x.val) (y := v.y.val) (z := v.z.val) (p := w.x) (q := w.y) (r := w.z) (δ := 5 / 4194304) (by norm_num) r1.2 r2.2 r3.2 hR (by norm_num)
  have bd : ∀ {x : Flt} {Y X : ℝ}, Approx x (Y - k * X) (5 / 4194304) → |Y| ≤ 1 → |X| ≤ 1 → |x.val| ≤ 2 ^ (62 : ℤ) := by
    intro x Y X h hY hX
    have hP : |k * X| ≤ 1 := by rw [abs_mul]; exact mul_le_one₀ hk1 (abs_nonneg _) hX
    have h1 : |Y - k * X| ≤ 2 := by
      have := abs_add_le Y (-(k * X))
      rw [abs_neg, ← sub_eq_add_neg] at this
      linarith
    exact (h.abs_le h1).trans (by norm_num)
  have hs : 2 ^ (-120 : ℤ) ≤ v.sqlen := by
    have h0 : 0 ≤ v.sqlen := by unfold V3.sqlen; positivity
    have h1 : (3 / 5 : ℝ) ^ 2 ≤ v.sqlen := by
      have := Real.sq_sqrt h0
      rw [← this]
      exact pow_le_pow_left₀ (by norm_num) hS 2
    exact le_trans (by norm_num) h1
  obtain ⟨n1, n2, n3⟩ := normalize_approx o (v := v) ⟨r1.1, r2.1, r3.1⟩ (bd r1 se.1 sc.1) (bd r2 se.2.1 sc.2.1) (bd r3 se.2.2 sc.2.2) hs
  obtain ⟨u1, u2⟩ := normalize_unit hpos
  have hsd : Real.sqrt (dot w w) = Real.sqrt (w.x ^ 2 + w.y ^ 2 + w.z ^ 2) := by rw [hdw]
  have hE : (2 : ℝ) ^ (-21 : ℤ) + 42 / 10 * (5 / 4194304) ≤ 6 / 1048576 := by norm_num
  refine ⟨normalize Real.sqrt w, ⟨u1, hc, ?_, rfl⟩, ?_⟩
  · rw [u2]
    have : dot w c = 0 := by
      rw [hw]
      simp only [dot, V3.sub, smul] at *
      linear_combination -k * hc - hkd
    simp only [dot, sdiv] at *
    rw [div_mul_eq_mul_div, div_mul_eq_mul_div, div_mul_eq_mul_div, ← add_div, ← add_div, this, zero_div]
  · rw [u2]
    refine ⟨(n1.trans ?_).weaken hE, (n2.trans ?_).weaken hE, (n3.trans ?_).weaken hE⟩
    · show |_ - w.x / Real.sqrt (dot w w)| ≤ _
      rw [hsd]; exact dx
    · show |_ - w.y / Real.sqrt (dot w w)| ≤ _
      rw [hsd]; exact dy
    · show |_ - w.z / Real.sqrt (dot w w)| ≤ _
      rw [hsd]; exact dz

/-- Normals that are neither tiny nor huge. -/
def Usable (n : V3 Flt) : Prop := n.Fin3 ∧ |n.x.val| ≤ 2 ^ (62 : ℤ) ∧ |n.y.val| ≤ 2 ^ (62 : ℤ) ∧ |n.z.val| ≤ 2 ^ (62 : ℤ) ∧ 2 ^ (-120 : ℤ) ≤ n.sqlen

/-- The exact direction of a normal. -/
noncomputable def dirOf (n : V3 Flt) : V3 ℝ := ⟨n.x.val / Real.sqrt n.sqlen, n.y.val / Real.sqrt n.sqlen, n.z.val / Real.sqrt n.sqlen⟩

/-- The axes. -/
theorem axes_near (o : ℕ → Bool) {n : V3 Flt} (h : Usable n) :
    ∃ a b : V3 ℝ, Frame a b (dirOf n) ∧ Near (axesF o n).1 a (6 / 1048576) ∧ Near (axesF o n).2.1 b (14 / 1048576) ∧ Near (axesF o n).2.2 (dirOf n) (1 / 2097152) := by
  obtain ⟨hf, hx, hy, hz, hs⟩ := h
  have h0 : 0 < n.sqlen := lt_of_lt_of_le (by positivity) hs
  have e21 : (2 : ℝ) ^ (-21 : ℤ) = 1 / 2097152 := by norm_num
  obtain ⟨n1, n2, n3⟩ := normalize_approx (o 0) hf hx hy hz hs
  have hc : dot (dirOf n) (dirOf n) = 1 := by
    have h1 := Real.mul_self_sqrt h0.le
    have h2 : Real.sqrt n.sqlen ≠ 0 := (Real.sqrt_pos.2 h0).ne'
    unfold dirOf
    simp only [dot]
    generalize Real.sqrt n.sqlen = s at *
    field_simp
    unfold V3.sqlen at h1
    linear_combination -h1
  have hn : Near (normalizeF (o 0) n) (dirOf n) (1 / 2097152) := by rw [← e21]; exact ⟨n1, n2, n3⟩
  have key : ∃ a : V3 ℝ, Frame a (cross (dirOf n) a) (dirOf n) ∧ Near (axesF o n).1 a (6 / 1048576) := by
    unfold axesF
    dsimp only
    generalize dirOf n = c at *
    generalize normalizeF (o 0) n = az at *
    have sc := small_of_unit hc
    have fin := hn.1.1
    have fiy := hn.2.1.1
    have fiz := hn.2.2.1
    have hb : ∀ {x : Flt} {X : ℝ}, Approx x X (1 / 2097152) → |X| ≤ 1 → |x.val| ≤ 2 ^ (127 : ℤ) := fun h hX => (h.abs_le hX).trans (by norm_num)
    have bz : |(0 : ℝ)| ≤ 2 ^ (127 : ℤ) := by rw [abs_zero]; positivity
    have bx := hb hn.1 sc.1
    have by' := hb hn.2.1 sc.2.1
    have bz' := hb hn.2.2 sc.2.2
    have hz0 : Approx (0 : Flt) 0 0 := ⟨zero_is.1, by rw [zero_is.2]; simp⟩
    have hone : Approx ((1 : ℕ) : Flt) 1 0 := ⟨one_is.1, by rw [one_is.2]; simp⟩
    simp only [dot] at hc
    have onZ : |c.z| ≤ 3 / 4 → ∃ a : V3 ℝ, Frame a (cross c a) c ∧ Near (normalizeF (o 1) (subF (⟨0, 0, (1 : ℕ)⟩ : V3 Flt) (smulF (dotF (o 2) ⟨0, 0, (1 : ℕ)⟩ az) az))) a (6 / 1048576) := by
      intro h34
      have e : dot (⟨0, 0, 1⟩ : V3 ℝ) c = c.z := by simp [dot]
      refine gs (o 1) (e := ⟨0, 0, 1⟩) hc (by simp [dot]) hn ⟨hz0, hz0, hone⟩ ?_ (by rw [e]; exact h34)
      rw [e]
      obtain ⟨f1, e1⟩ := zero_mul_is fin
      obtain ⟨f2, e2⟩ := zero_mul_is fiy
      obtain ⟨f3, e3⟩ := one_mul_is fiz bz'
      obtain ⟨f, v⟩ := (sum3_one (o 2) f1 f2 f3 ⟨by rw [e1]; exact bz, by rw [e2]; exact bz, by rw [e3]; exact bz'⟩).2.2 e1 e2
      exact ⟨f, by rw [show (dotF (o 2) ⟨0, 0, ((1 : ℕ) : Flt)⟩ az).val = az.z.val from v.trans e3]; exact hn.2.2.2⟩
    have onX : |c.x| ≤ 3 / 4 → ∃ a : V3 ℝ, Frame a (cross c a) c ∧ Near (normalizeF (o 1) (subF (⟨(1 : ℕ), 0, 0⟩ : V3 Flt) (smulF (dotF (o 2) ⟨(1 : ℕ), 0, 0⟩ az) az))) a (6 / 1048576) := by
      intro h34
      have e : dot (⟨1, 0, 0⟩ : V3 ℝ) c = c.x := by simp [dot]
      refine gs (o 1) (e := ⟨1, 0, 0⟩) hc (by simp [dot]) hn ⟨hone, hz0, hz0⟩ ?_ (by rw [e]; exact h34)
      rw [e]
      obtain ⟨f1, e1⟩ := one_mul_is fin bx
      obtain ⟨f2, e2⟩ := zero_mul_is fiy
      obtain ⟨f3, e3⟩ := zero_mul_is fiz
      obtain ⟨f, v⟩ := (sum3_one (o 2) f1 f2 f3 ⟨by rw [e1]; exact bx, by rw [e2]; exact bz, by rw [e3]; exact bz⟩).1 e2 e3
      exact ⟨f, by rw [show (dotF (o 2) ⟨((1 : ℕ) : Flt), 0, 0⟩ az).val = az.x.val from v.trans e1]; exact hn.1.2⟩
    have cmp : ∀ {x y : Flt}, x.Fin → y.Fin → (x.abs < y.abs ↔ |x.val| < |y.val|) := fun hx hy => by
      rw [lt_iff (abs_fin.2 hx) (abs_fin.2 hy), abs_val, abs_val]
    have sx := mul_self_nonneg c.x
    have sy := mul_self_nonneg c.y
    have sz := mul_self_nonneg c.z
    rw [← e21] at hn
    unfold maxIdxF
    split_ifs with a1 a2 a3
    · rw [cmp fin fiy] at a1
      rw [cmp fiy fiz] at a2
      exact onX (not_greatest hn.1.2 hn.2.2.2 (a1.le.trans a2.le) (by nlinarith))
    · rw [cmp fiy fiz] at a2
      exact onZ (not_greatest hn.2.2.2 hn.2.1.2 (not_lt.1 a2) (by nlinarith))
    · rw [cmp fin fiz] at a3
      exact onX (not_greatest hn.1.2 hn.2.2.2 a3.le (by nlinarith))
    · rw [cmp fin fiz] at a3
      exact onZ (not_greatest hn.2.2.2 hn.1.2 (not_lt.1 a3) (by nlinarith))
  obtain ⟨a, hF, ha⟩ := key
  refine ⟨a, _, hF, ha, ?_, hn⟩
  exact cross_near hn ha (small_of_unit hc) (small_of_unit hF.aa) (by norm_num) (by norm_num) (by norm_num)

end Verif.PlaneAligner
