import Verif.PlaneAligner.FpFrame

/-! Property theorems C128 (see properties.jsonl): the frame and the transformation of the plane aligner in `float` arithmetic. -/
namespace Verif.PlaneAligner
open Verif Ieee Ieee.Fp Float.Model V3

theorem Frame.cross_bc {a b c : V3 ℝ} (h : Frame a b c) : cross b c = a := by
  have h2 := h.cc
  have h3 := h.ac
  rw [h.b]
  simp only [dot, cross] at *
  obtain ⟨ax, ay, az⟩ := a
  congr 1
  · linear_combination ax * h2 - c.x * h3
  · linear_combination ay * h2 - c.y * h3
  · linear_combination az * h2 - c.z * h3

theorem Frame.cross_ab {a b c : V3 ℝ} (h : Frame a b c) : cross a b = c := by
  have h1 := h.aa
  have h3 := h.ac
  rw [h.b]
  simp only [dot, cross] at *
  obtain ⟨cx, cy, cz⟩ := c
  congr 1
  · linear_combination cx * h1 - a.x * h3
  · linear_combination cy * h1 - a.y * h3
  · linear_combination cz * h1 - a.z * h3

theorem Frame.bb {a b c : V3 ℝ} (h : Frame a b c) : dot b b = 1 := by
  have h1 := h.aa
  have h2 := h.cc
  have h3 := h.ac
  rw [h.b]
  simp only [dot, cross] at *
  linear_combination (c.x * c.x + c.y * c.y + c.z * c.z) * h1 + h2 - (a.x * c.x + a.y * c.y + a.z * c.z) * h3

/-- The sum of three terms of size at most `2^k`. -/
theorem sum3_near (o : Bool) {a b c : Flt} {A B C e E : ℝ} (k : ℤ) (hk : -125 ≤ k) (hk' : k ≤ 125) (ha : Approx a A e) (hb : Approx b B e) (hc : Approx c C e) (hA : |A| ≤ 2 ^ k) (hB : |B| ≤ 2 ^ k) (hC : |C| ≤ 2 ^ k)
    (he : e ≤ 2 ^ k / 8) (hE : 3 * e + 2 ^ k * (1 / 4194304) ≤ E) : Approx (sum3 o a b c) (A + B + C) E := by
  have e0 : 0 ≤ e := (abs_nonneg _).trans ha.2
  have hp : (0 : ℝ) < 2 ^ k := by positivity
  have h2 : (2 : ℝ) ^ (k + 2) = 4 * 2 ^ k := by rw [zpow_add₀ (by norm_num)]; ring
  have h3 : (2 : ℝ) ^ (k + 2 - ((Format.binary32.mantissaBits : ℕ) : ℤ) - 1) = 2 ^ k * (1 / 8388608) := by
    rw [mant32, show k + 2 - 24 - 1 = k + (-23) by ring, zpow_add₀ (by norm_num)]; norm_num
  have l1 : Format.binary32.minExponent + ((Format.binary32.mantissaBits : ℕ) : ℤ) ≤ k + 2 := by rw [minExp32, mant32]; omega
  have l2 : k + 2 ≤ top .binary32 := by rw [top32]; omega
  have two : ∀ {X Y : ℝ}, |X| ≤ 2 ^ k → |Y| ≤ 2 ^ k → |X + Y| ≤ 2 * 2 ^ k := fun h h' => (abs_add_le _ _).trans (by linarith)
  unfold sum3
  cases o
  · rw [if_neg (by simp)]
    have s1 := ha.add hb (k + 2) l1 l2 hA hB (by rw [h2]; linarith) (le_refl _)
    rw [h3] at s1
    exact s1.add hc (k + 2) l1 l2 (two hA hB) hC (by rw [h2]; linarith) (by rw [h3]; linarith)
  · rw [if_pos rfl, add_assoc]
    have s1 := hb.add hc (k + 2) l1 l2 hB hC (by rw [h2]; linarith) (le_refl _)
    rw [h3] at s1
    exact ha.add s1 (k + 2) l1 l2 hA (two hB hC) (by rw [h2]; linarith) (by rw [h3]; linarith)

theorem mul_small {a b : Flt} {A B e f E : ℝ} (ha : Approx a A e) (hb : Approx b B f) (hA : |A| ≤ 1) (hB : |B| ≤ 1) (he : e ≤ 1 / 8) (hf : f ≤ 1 / 8)
    (hE : e + f + e * f + 1 / 16777216 ≤ E) : Approx (a * b) (A * B) E := by
  have e0 : 0 ≤ e := (abs_nonneg _).trans ha.2
  exact ha.mul hb 1 (by rw [minExp32, mant32]; norm_num) (by rw [top32]; norm_num) hA hB (by rw [zpow_one]; nlinarith) (by rw [mant32]; norm_num; linarith)

theorem smul_near {k : Flt} {a : V3 Flt} {A : V3 ℝ} {e f E : ℝ} (hk : Approx k 1 e) (ha : Near a A f) (hA : Small A) (he : e ≤ 1 / 8) (hf : f ≤ 1 / 8)
    (hE : e + f + e * f + 1 / 16777216 ≤ E) : Near (smulF k a) A E := by
  have h1 : |(1 : ℝ)| ≤ 1 := by simp
  have := fun {x : Flt} {X : ℝ} (h : Approx x X f) (hX : |X| ≤ 1) => mul_small hk h h1 hX he hf hE
  simp only [one_mul] at this
  exact ⟨this ha.1 hA.1, this ha.2.1 hA.2.1, this ha.2.2 hA.2.2⟩

/-- The inverse of the matrix of the axes. -/
theorem inverse_near (o : ℕ → Bool) {a b c : V3 Flt} {A B C : V3 ℝ} (h : Frame A B C) (ha : Near a A (6 / 1048576)) (hb : Near b B (14 / 1048576)) (hc : Near c C (1 / 2097152)) :
    Near (inverse3F o a b c).1 A (155 / 1048576) ∧ Near (inverse3F o a b c).2.1 B (155 / 1048576) ∧ Near (inverse3F o a b c).2.2 C (155 / 1048576) := by
  have sa := small_of_unit h.aa
  have sb := small_of_unit h.bb
  have sc := small_of_unit h.cc
  have c0 : Near (crossF b c) A (30 / 1048576) := by
    have := cross_near hb hc sb sc (by norm_num) (by norm_num) (E := 30 / 1048576) (by norm_num)
    rwa [h.cross_bc] at this
  have c1 : Near (crossF c a) B (41 / 1048576) := by
    have := cross_near hc ha sc sa (by norm_num) (by norm_num) (E := 41 / 1048576) (by norm_num)
    rwa [← h.b] at this
  have c2 : Near (crossF a b) C (41 / 1048576) := by
    have := cross_near ha hb sa sb (by norm_num) (by norm_num) (E := 41 / 1048576) (by norm_num)
    rwa [h.cross_ab] at this
  have hprod : ∀ {x y : Flt} {X : ℝ}, Approx x X (30 / 1048576) → Approx y X (6 / 1048576) → |X| ≤ 1 → Approx (x * y) (X * X) (37 / 1048576) ∧ |X * X| ≤ 2 ^ (0 : ℤ) := by
    intro x y X h1 h2 hX
    refine ⟨mul_small h1 h2 hX hX (by norm_num) (by norm_num) (by norm_num), ?_⟩
    rw [abs_mul, zpow_zero]; exact mul_le_one₀ hX (abs_nonneg _) hX
  have p1 := hprod c0.1 ha.1 sa.1
  have p2 := hprod c0.2.1 ha.2.1 sa.2.1
  have p3 := hprod c0.2.2 ha.2.2 sa.2.2
  have hdet : Approx (dotF (o 3) (crossF b c) a) 1 (112 / 1048576) := by
    have := sum3_near (o 3) 0 (by norm_num) (by norm_num) p1.1 p2.1 p3.1 p1.2 p2.2 p3.2 (by norm_num) (E := 112 / 1048576) (by norm_num)
    rwa [show A.x * A.x + A.y * A.y + A.z * A.z = 1 from h.aa] at this
  have hinv : Approx (((1 : ℕ) : Flt) / dotF (o 3) (crossF b c) a) 1 (113 / 1048576) := by
    obtain ⟨f, e⟩ := hdet
    obtain ⟨e1, e2⟩ := abs_le.1 e
    generalize dotF (o 3) (crossF b c) a = d at *
    have hd : 0 < d.val := by linarith
    have hq : |1 / d.val - 1| ≤ 1121 / 10 / 1048576 := by
      rw [show 1 / d.val - 1 = (1 - d.val) / d.val by field_simp, abs_div, abs_of_pos hd, div_le_iff₀ hd, abs_sub_comm]
      refine e.trans ?_
      linarith
    have hb : |1 / d.val| ≤ 2 ^ (1 : ℤ) := by
      obtain ⟨q1, q2⟩ := abs_le.1 hq
      rw [abs_le, zpow_one]
      constructor <;> linarith
    have hi := div_is one_is.1 f hd.ne' (by rw [one_is.2, top32]; exact hb.trans (zpow_le_zpow_right₀ (by norm_num) (by norm_num)))
    rw [one_is.2] at hi
    exact (hi.approx 1 (by rw [minExp32, mant32]; norm_num) hb hq).weaken (by rw [mant32]; norm_num)
  exact ⟨smul_near hinv c0 sa (by norm_num) (by norm_num) (by norm_num), smul_near hinv c1 sb (by norm_num) (by norm_num) (by norm_num),
    smul_near hinv c2 sc (by norm_num) (by norm_num) (by norm_num)⟩

/-- The product with the linear part of a translation. -/
theorem row_near (o : Bool) {r : V3 Flt} {R : V3 ℝ} {e : ℝ} (h : Near r R e) (hR : Small R) (he : e ≤ 1) (v : V3 Flt) : Near (rowF o r (pretranslateF v idF)) R e := by
  have bd : ∀ {x : Flt} {X : ℝ}, Approx x X e → |X| ≤ 1 → |x.val| ≤ 2 ^ (127 : ℤ) := fun h hX => (h.abs_le hX).trans ((add_le_add (le_refl _) he).trans (by norm_num))
  have bx := bd h.1 hR.1
  have by' := bd h.2.1 hR.2.1
  have bz := bd h.2.2 hR.2.2
  obtain ⟨x1, x2⟩ := mul_one_is h.1.1 bx
  obtain ⟨y1, y2⟩ := mul_one_is h.2.1.1 by'
  obtain ⟨z1, z2⟩ := mul_one_is h.2.2.1 bz
  obtain ⟨x3, x4⟩ := mul_zero_is h.1.1
  obtain ⟨y3, y4⟩ := mul_zero_is h.2.1.1
  obtain ⟨z3, z4⟩ := mul_zero_is h.2.2.1
  have b0 : |(0 : ℝ)| ≤ 2 ^ (127 : ℤ) := by rw [abs_zero]; positivity
  obtain ⟨f1, v1⟩ := (sum3_one o x1 y3 z3 ⟨by rw [x2]; exact bx, by rw [y4]; exact b0, by rw [z4]; exact b0⟩).1 y4 z4
  obtain ⟨f2, v2⟩ := (sum3_one o x3 y1 z3 ⟨by rw [x4]; exact b0, by rw [y2]; exact by', by rw [z4]; exact b0⟩).2.1 x4 z4
  obtain ⟨f3, v3⟩ := (sum3_one o x3 y3 z1 ⟨by rw [x4]; exact b0, by rw [y4]; exact b0, by rw [z2]; exact bz⟩).2.2 x4 y4
  exact ⟨⟨f1, by rw [show (rowF o r (pretranslateF v idF)).x.val = r.x.val from v1.trans x2]; exact h.1.2⟩,
    ⟨f2, by rw [show (rowF o r (pretranslateF v idF)).y.val = r.y.val from v2.trans y2]; exact h.2.1.2⟩,
    ⟨f3, by rw [show (rowF o r (pretranslateF v idF)).z.val = r.z.val from v3.trans z2]; exact h.2.2.2⟩⟩

/-- C128, full statement: for every normal other than zero and every cloud, `compute` stores a transformation whose linear part is, up to 2^-12, a rotation that takes the direction of the normal to the
axis z. -/
def C128_statement : Prop := ∀ (o : ℕ → Bool) (s : AlignerF) (points : List (V3 Flt)), s.cloud = some points → s.normal.Fin3 → s.normal.sqlen ≠ 0 →
  ∃ s' a b, s.compute o = .ok s' ∧ Frame a b (dirOf s.normal) ∧ Near s'.transform.r0 a (2 ^ (-12 : ℤ)) ∧ Near s'.transform.r1 b (2 ^ (-12 : ℤ)) ∧ Near s'.transform.r2 (dirOf s.normal) (2 ^ (-12 : ℤ))

/-- The axes alone are more accurate than the inverse of their matrix: the axis z is the direction of the normal up to 2^-21, and the axes x and y complete it to a right-handed orthonormal frame up to
6 and 14 times 2^-20. Missing for C128: tiny and huge normals. -/
theorem C128_axes_partial (o : ℕ → Bool) (n : V3 Flt) (h : Usable n) :
    ∃ a b : V3 ℝ, Frame a b (dirOf n) ∧ Near (axesF o n).1 a (6 * 2 ^ (-20 : ℤ)) ∧ Near (axesF o n).2.1 b (14 * 2 ^ (-20 : ℤ)) ∧ Near (axesF o n).2.2 (dirOf n) (2 ^ (-21 : ℤ)) := by
  obtain ⟨a, b, hF, h1, h2, h3⟩ := axes_near o h
  refine ⟨a, b, hF, ?_, ?_, ?_⟩
  · convert h1 using 1; norm_num
  · convert h2 using 1; norm_num
  · convert h3 using 1; norm_num

/-- The transformation with exact coefficients. -/
noncomputable def valT (T : T3 Flt) : T3 ℝ :=
  ⟨⟨T.r0.x.val, T.r0.y.val, T.r0.z.val⟩, ⟨T.r1.x.val, T.r1.y.val, T.r1.z.val⟩, ⟨T.r2.x.val, T.r2.y.val, T.r2.z.val⟩, ⟨T.t.x.val, T.t.y.val, T.t.z.val⟩⟩

/-- The vector of the values. -/
noncomputable def val3 (v : V3 Flt) : V3 ℝ := ⟨v.x.val, v.y.val, v.z.val⟩

/-- The center that `compute` subtracts. -/
def centerOf (o : ℕ → Bool) (s : AlignerF) (points : List (V3 Flt)) : V3 Flt := centerF (o 5) (axesF o s.normal).2.2 (inliersF s points).1 (inliersF s points).2

/-- The coordinates are at most `2^k`. -/
def Within (v : V3 ℝ) (k : ℤ) : Prop := |v.x| ≤ 2 ^ k ∧ |v.y| ≤ 2 ^ k ∧ |v.z| ≤ 2 ^ k

/-- A product of a coefficient with a coordinate. -/
theorem mul_scaled {a b : Flt} {A : ℝ} {k : ℤ} (hk : -100 ≤ k) (hk' : k ≤ 100) (ha : Approx a A (155 / 1048576)) (hA : |A| ≤ 1) (hb : b.Fin) (hB : |b.val| ≤ 2 ^ k) :
    Approx (a * b) (A * b.val) (2 ^ k * (156 / 1048576)) ∧ |A * b.val| ≤ 2 ^ k := by
  have hp : (0 : ℝ) < 2 ^ k := by positivity
  have h2 : (2 : ℝ) ^ (k + 1) = 2 * 2 ^ k := by rw [zpow_add₀ (by norm_num)]; ring
  constructor
  · exact ha.mul (approx_self hb) (k + 1) (by rw [minExp32, mant32]; omega) (by rw [top32]; omega) hA hB (by rw [h2]; nlinarith) (by
      rw [mant32, show k + 1 - 24 - 1 = k + (-24) by ring, zpow_add₀ (by norm_num)]
      norm_num
      nlinarith)
  · rw [abs_mul]
    calc _ ≤ 1 * |b.val| := mul_le_mul_of_nonneg_right hA (abs_nonneg _)
      _ ≤ _ := by rw [one_mul]; exact hB

/-- A coordinate of the translation. -/
theorem dot_scaled (o : Bool) {r v : V3 Flt} {R : V3 ℝ} {k : ℤ} (hk : -100 ≤ k) (hk' : k ≤ 100) (hr : Near r R (155 / 1048576)) (hR : Small R) (hf : v.Fin3) (hv : Within (val3 v) k) :
    Approx (dotF o r v) (dot R (val3 v)) (2 ^ k * (469 / 1048576)) := by
  have hp : (0 : ℝ) < 2 ^ k := by positivity
  obtain ⟨x1, x2⟩ := mul_scaled hk hk' hr.1 hR.1 hf.1 hv.1
  obtain ⟨y1, y2⟩ := mul_scaled hk hk' hr.2.1 hR.2.1 hf.2.1 hv.2.1
  obtain ⟨z1, z2⟩ := mul_scaled hk hk' hr.2.2 hR.2.2 hf.2.2 hv.2.2
  exact sum3_near o k (by omega) (by omega) x1 y1 z1 x2 y2 z2 (by linarith) (by linarith)

/-- A real row applied to a point. -/
theorem dot_real {r : V3 Flt} {R p : V3 ℝ} {k : ℤ} (hr : Near r R (155 / 1048576)) (hp : Within p k) : |dot (val3 r) p - dot R p| ≤ 2 ^ k * (465 / 1048576) := by
  have m : ∀ {x y z : ℝ}, |x - y| ≤ 155 / 1048576 → |z| ≤ 2 ^ k → |(x - y) * z| ≤ 2 ^ k * (155 / 1048576) := fun h h' => by
    rw [abs_mul, mul_comm ((2 : ℝ) ^ k)]; exact mul_le_mul h h' (abs_nonneg _) (by norm_num)
  have e : dot (val3 r) p - dot R p = (r.x.val - R.x) * p.x + (r.y.val - R.y) * p.y + (r.z.val - R.z) * p.z := by simp only [dot, val3]; ring
  rw [e]
  have h1 := m hr.1.2 hp.1
  have h2 := m hr.2.1.2 hp.2.1
  have h3 := m hr.2.2.2 hp.2.2
  exact (abs_add_le _ _).trans (by linarith [abs_add_le ((r.x.val - R.x) * p.x) ((r.y.val - R.y) * p.y)])

/-- C128 for normals that are neither tiny nor huge: the linear part is a rotation that takes the direction of the normal to the axis z, up to 155 times 2^-20; if the center is finite and its
coordinates and those of a point `p` are at most 2^k, the stored transformation takes `p` to the coordinates of `p - center` in the frame, up to 2^(k-10). Missing for C128: tiny and huge normals. -/
theorem C128_partial (o : ℕ → Bool) (s : AlignerF) (points : List (V3 Flt)) (hc : s.cloud = some points) (hn : Usable s.normal) :
    ∃ s' a b, s.compute o = .ok s' ∧ Frame a b (dirOf s.normal) ∧
      Near s'.transform.r0 a (155 * 2 ^ (-20 : ℤ)) ∧ Near s'.transform.r1 b (155 * 2 ^ (-20 : ℤ)) ∧ Near s'.transform.r2 (dirOf s.normal) (155 * 2 ^ (-20 : ℤ)) ∧
      s'.cloud = s.cloud ∧ s'.normal = s.normal ∧ s'.const = s.const ∧ s'.planeTol = s.planeTol ∧
      ∀ k : ℤ, -100 ≤ k → k ≤ 100 → (centerOf o s points).Fin3 → Within (val3 (centerOf o s points)) k → ∀ p : V3 ℝ, Within p k →
        |((valT s'.transform).apply p).x - dot a (V3.sub p (val3 (centerOf o s points)))| ≤ 2 ^ (k - 10) ∧
        |((valT s'.transform).apply p).y - dot b (V3.sub p (val3 (centerOf o s points)))| ≤ 2 ^ (k - 10) ∧
        |((valT s'.transform).apply p).z - dot (dirOf s.normal) (V3.sub p (val3 (centerOf o s points)))| ≤ 2 ^ (k - 10) := by
  obtain ⟨a, b, hF, h1, h2, h3⟩ := axes_near o hn
  obtain ⟨i1, i2, i3⟩ := inverse_near o hF h1 h2 h3
  have sa := small_of_unit hF.aa
  have sb := small_of_unit hF.bb
  have sc := small_of_unit hF.cc
  have hE : (155 : ℝ) * 2 ^ (-20 : ℤ) = 155 / 1048576 := by norm_num
  rw [hE]
  set R := inverse3F o (axesF o s.normal).1 (axesF o s.normal).2.1 (axesF o s.normal).2.2 with hRd
  have ec : s.compute o = .ok ⟨s.cloud, s.normal, s.const, prerotateF (o 4) R.1 R.2.1 R.2.2 (pretranslateF (negF (centerOf o s points)) idF), s.planeTol⟩ := by
    unfold AlignerF.compute
    rw [hc]
    rfl
  clear_value R
  refine ⟨_, a, b, ec, hF, row_near (o 4) i1 sa (by norm_num) _, row_near (o 4) i2 sb (by norm_num) _, row_near (o 4) i3 sc (by norm_num) _, rfl, rfl, rfl, rfl, ?_⟩
  intro k hk hk' hf hw p hp
  generalize centerOf o s points = c at *
  have hp0 : (0 : ℝ) < 2 ^ k := by positivity
  have hk10 : (2 : ℝ) ^ (k - 10) = 2 ^ k * (1 / 1024) := by rw [zpow_sub₀ (by norm_num)]; norm_num; ring
  -- the translation before the rotation
  have tr : ∀ {x : Flt}, x.Fin → |x.val| ≤ 2 ^ k → ((0 : Flt) + -x).Fin ∧ ((0 : Flt) + -x).val = -x.val := by
    intro x hx hxk
    have := zero_add_is (zero_is (spec := .binary32)).1 (neg_fin.2 hx) zero_is.2 (by rw [neg_val, abs_neg]; exact hxk.trans (zpow_le_zpow_right₀ (by norm_num) (by omega)))
    exact ⟨this.1, by rw [this.2, neg_val]⟩
  have tx := tr hf.1 hw.1
  have ty := tr hf.2.1 hw.2.1
  have tz := tr hf.2.2 hw.2.2
  set t : V3 Flt := addF ⟨0, 0, 0⟩ (negF c) with ht
  have hft : t.Fin3 := ⟨tx.1, ty.1, tz.1⟩
  have hvt : val3 t = ⟨-c.x.val, -c.y.val, -c.z.val⟩ := by
    show (⟨_, _, _⟩ : V3 ℝ) = _
    congr 1
    · exact tx.2
    · exact ty.2
    · exact tz.2
  have hwt : Within (val3 t) k := by
    rw [hvt]
    exact ⟨by rw [abs_neg]; exact hw.1, by rw [abs_neg]; exact hw.2.1, by rw [abs_neg]; exact hw.2.2⟩
  have key : ∀ {r : V3 Flt} {Q : V3 ℝ}, Near r Q (155 / 1048576) → Small Q →
      |dot (val3 (rowF (o 4) r (pretranslateF (negF c) idF))) p + (dotF (o 4) r t).val - dot Q (V3.sub p (val3 c))| ≤ 2 ^ (k - 10) := by
    intro r Q hr hQ
    have d1 := dot_real (row_near (o 4) hr hQ (by norm_num) (negF c)) hp
    have d2 := (dot_scaled (o 4) hk hk' hr hQ hft hwt).2
    rw [hvt] at d2
    have e : dot Q (V3.sub p (val3 c)) = dot Q p + dot Q ⟨-c.x.val, -c.y.val, -c.z.val⟩ := by simp only [dot, V3.sub, val3]; ring
    rw [e, add_sub_add_comm, hk10]
    exact (abs_add_le _ _).trans (by linarith)
  exact ⟨key i1 sa, key i2 sb, key i3 sc⟩

/-- A float whose square underflows. -/
def tiny : Flt := ((1 : ℕ) : Flt) / ((2 ^ 80 : ℕ) : Flt)

/-- A normal of length 2^-80: the squared norm is 0, the normal is not normalised, the determinant is 0 and the transformation is not a number. -/
theorem C128_violated : ¬ C128_statement := by
  intro h
  have hf : tiny.Fin := by decide +kernel
  have hv : tiny.val ≠ 0 := by
    intro h0
    have := (lt_iff (zero_is (spec := .binary32)).1 hf).1 (by decide +kernel)
    rw [zero_is.2, h0] at this
    exact lt_irrefl _ this
  obtain ⟨s', a, b, hs, -, h0, -⟩ := h (fun _ => true) ⟨some [], ⟨tiny, 0, 0⟩, 0, idF, 0⟩ [] rfl ⟨hf, zero_is.1, zero_is.1⟩ (by
    show tiny.val ^ 2 + (0 : Flt).val ^ 2 + (0 : Flt).val ^ 2 ≠ 0
    rw [zero_is.2]
    have := sq_nonneg tiny.val
    have : tiny.val ^ 2 ≠ 0 := pow_ne_zero 2 hv
    simpa using this)
  have hb : ¬ s'.transform.r0.x.Fin := by
    have e : (AlignerF.compute (fun _ => true) ⟨some [], ⟨tiny, 0, 0⟩, 0, idF, 0⟩).map (fun s => decide s.transform.r0.x.Fin) = .ok false := by decide +kernel
    rw [hs] at e
    simpa using Except.ok.inj e
  exact hb h0.1.1

/-- The plane z = 1 with two points: the axes are those of the space and the center is subtracted. -/
example : (AlignerF.compute (fun _ => true) ⟨some [⟨((2 : ℕ) : Flt), 0, ((1 : ℕ) : Flt)⟩, ⟨0, ((2 : ℕ) : Flt), ((1 : ℕ) : Flt)⟩], ⟨0, 0, ((3 : ℕ) : Flt)⟩, -((3 : ℕ) : Flt), idF, ((1 : ℕ) : Flt)⟩).map
    (fun s => (decide (s.transform.r0.x = ((1 : ℕ) : Flt)), decide (s.transform.r2.z = ((1 : ℕ) : Flt)), decide (s.transform.t.x = -((1 : ℕ) : Flt)))) = .ok (true, true, true) := by
  decide +kernel

end Verif.PlaneAligner
