import Verif.Geometry2Fp.Ccw

/-!
C91: the test of a cone in floating point arithmetic.
-/
namespace Verif.Geometry2Fp
open Ieee Fp Float.Model FunctionsFp Real
open Geometry2 (V2 rot)

/-- The products `a b` and `c e` are equal to their roundings, or differ by more than 2^-23 of their magnitudes. -/
def Clear (a b c e : Flt) : Prop :=
  ((a * b).val = a.val * b.val ∧ (c * e).val = c.val * e.val) ∨ (|a.val * b.val| + |c.val * e.val|) / 2 ^ 23 + 1 / 2 ^ 148 < |a.val * b.val - c.val * e.val|

theorem clear_sign {a b c e : Flt} (ha : a.Fin ∧ |a.val| ≤ 2 ^ 62) (hb : b.Fin ∧ |b.val| ≤ 2 ^ 62) (hc : c.Fin ∧ |c.val| ≤ 2 ^ 62) (he : e.Fin ∧ |e.val| ≤ 2 ^ 62)
    (h : Clear a b c e) : (a * b).Fin ∧ (c * e).Fin ∧ |(a * b).val| ≤ 2 ^ 126 ∧ |(c * e).val| ≤ 2 ^ 126 ∧ ((c * e).val < (a * b).val ↔ c.val * e.val < a.val * b.val) ∧
      ((a * b).val < (c * e).val ↔ a.val * b.val < c.val * e.val) := by
  have prod : ∀ {a b : Flt}, (a.Fin ∧ |a.val| ≤ 2 ^ 62) → (b.Fin ∧ |b.val| ≤ 2 ^ 62) → (a * b).Fin ∧ |(a * b).val - a.val * b.val| ≤ |a.val * b.val| / 2 ^ 24 + 1 / 2 ^ 150 ∧
      |(a * b).val| ≤ 2 ^ 126 := by
    intro a b ha hb
    have hp : |a.val * b.val| ≤ 2 ^ 124 := by
      rw [abs_mul]
      exact (mul_le_mul ha.2 hb.2 (abs_nonneg _) (by norm_num)).trans (by norm_num)
    have := mul32 ha.1 hb.1 hp (by norm_num)
    refine ⟨this.1, this.2, ?_⟩
    have h1 := abs_sub_abs_le_abs_sub (a * b).val (a.val * b.val)
    have h2 := this.2
    norm_num [-abs_mul] at hp h2 ⊢
    linarith
  obtain ⟨f1, g1, b1⟩ := prod ha hb
  obtain ⟨f2, g2, b2⟩ := prod hc he
  refine ⟨f1, f2, b1, b2, ?_⟩
  rcases h with ⟨h1, h2⟩ | h
  · rw [h1, h2]
    exact ⟨Iff.rfl, Iff.rfl⟩
  · generalize (a * b).val = P at *
    generalize (c * e).val = Q at *
    generalize a.val * b.val = X at *
    generalize c.val * e.val = Y at *
    have hX := abs_nonneg X
    have hY := abs_nonneg Y
    rw [abs_le] at g1 g2
    norm_num at g1 g2 h
    rcases lt_or_ge Y X with h' | h'
    · rw [abs_of_pos (by linarith : 0 < X - Y)] at h
      exact ⟨⟨fun _ => h', fun _ => by linarith⟩, ⟨fun h' => by linarith, fun h' => by linarith⟩⟩
    · rw [abs_of_nonpos (by linarith : X - Y ≤ 0)] at h
      exact ⟨⟨fun _ => by linarith, fun _ => by linarith⟩, ⟨fun h' => by linarith, fun h' => by linarith⟩⟩

theorem clear_sub {a b c e : Flt} (ha : a.Fin ∧ |a.val| ≤ 2 ^ 62) (hb : b.Fin ∧ |b.val| ≤ 2 ^ 62) (hc : c.Fin ∧ |c.val| ≤ 2 ^ 62) (he : e.Fin ∧ |e.val| ≤ 2 ^ 62)
    (h : Clear a b c e) : (a * b - c * e).Fin ∧ (0 < (a * b - c * e).val ↔ 0 < a.val * b.val - c.val * e.val) ∧ ((a * b - c * e).val < 0 ↔ a.val * b.val - c.val * e.val < 0) := by
  obtain ⟨f1, f2, b1, b2, h1, h2⟩ := clear_sign ha hb hc he h
  have hd : |(a * b).val - (c * e).val| ≤ 2 ^ top Format.binary32 := by
    rw [top32]
    refine (abs_sub _ _).trans ?_
    norm_num at b1 b2 ⊢
    linarith
  have hs := sub_sign f1 f2 hd
  exact ⟨(sub_is f1 f2 hd).1, by rw [hs.1, h1, sub_pos], by rw [hs.2.1, h2, sub_neg]⟩

theorem clear_add {a b c e : Flt} (ha : a.Fin ∧ |a.val| ≤ 2 ^ 62) (hb : b.Fin ∧ |b.val| ≤ 2 ^ 62) (hc : c.Fin ∧ |c.val| ≤ 2 ^ 62) (he : e.Fin ∧ |e.val| ≤ 2 ^ 62)
    (h : Clear a b c e) : (-c * e + a * b).Fin ∧ (0 < (-c * e + a * b).val ↔ 0 < -c.val * e.val + a.val * b.val) ∧ ((-c * e + a * b).val < 0 ↔ -c.val * e.val + a.val * b.val < 0) := by
  obtain ⟨f1, f2, b1, b2, h1, h2⟩ := clear_sign ha hb hc he h
  have f3 : (-c * e).Fin := by rw [Fp.neg_mul, neg_fin]; exact f2
  have v3 : (-c * e).val = -(c * e).val := by rw [Fp.neg_mul, neg_val]
  have hd : |(-c * e).val + (a * b).val| ≤ 2 ^ top Format.binary32 := by
    rw [top32, v3]
    refine (abs_add_le _ _).trans ?_
    rw [_root_.abs_neg]
    norm_num at b1 b2 ⊢
    linarith
  have hi := add_is f3 f1 hd
  have hs := hi.sign_iff (multiple_add _ _)
  rw [v3] at hs
  refine ⟨hi.1, ?_, ?_⟩
  · rw [hs.1]
    constructor
    · intro h
      linarith [h1.1 (by linarith)]
    · intro h
      linarith [h1.2 (by linarith)]
  · rw [hs.2]
    constructor
    · intro h
      linarith [h2.1 (by linarith)]
    · intro h
      linarith [h2.2 (by linarith)]

theorem zeroFlt : (lit Format.binary32 0 0).Fin ∧ (lit Format.binary32 0 0).val = 0 := by
  have : (lit Format.binary32 0 0).x = .zero .positive := by decide +kernel
  unfold Fp.Fin Fp.val
  rw [this]
  exact ⟨trivial, rfl⟩

theorem pos_iff {a : Flt} (ha : a.Fin) : lit Format.binary32 0 0 < a ↔ 0 < a.val := by rw [lt_iff zeroFlt.1 ha, zeroFlt.2]

theorem neg_iff {a : Flt} (ha : a.Fin) : a < lit Format.binary32 0 0 ↔ a.val < 0 := by rw [lt_iff ha zeroFlt.1, zeroFlt.2]

/-- The test agrees with the one in exact arithmetic when the three determinants are clear. -/
theorem cone_exact {x y : Flt} {b e : V2f} (hx : Within (2 ^ 62) (x, y)) (hb : Within (2 ^ 62) b) (he : Within (2 ^ 62) e)
    (c1 : Clear e.2 x e.1 y) (c2 : Clear b.1 y b.2 x) (c3 : Clear b.1 e.2 e.1 b.2) : insideCone x y b e = Geometry2.insideCone x.val y.val (pt b) (pt e) := by
  obtain ⟨f1, g1, l1⟩ := clear_add he.2 hx.1 he.1 hx.2 c1
  obtain ⟨f2, g2, l2⟩ := clear_sub hb.1 hx.2 hb.2 hx.1 c2
  obtain ⟨f3, g3, l3⟩ := clear_sub hb.1 he.2 he.1 hb.2 c3
  unfold insideCone Geometry2.insideCone
  simp only [pt, neg_iff f3, l3, pos_iff f1, pos_iff f2, g1, g2, pos_iff (neg_fin.2 f1), pos_iff (neg_fin.2 f2), neg_val, _root_.neg_pos, l1, l2, gt_iff_lt]

/-- C91, partial: a point at angle δ from the begin `b` of a cone of opening w is recognised, when the three determinants are clear: (0, w) for w ≤ π, and [0, w] for w > π.
Missing: points near the border, for which the test is wrong. -/
theorem C91_cone_partial {x y : Flt} {b e : V2f} (hx : Within (2 ^ 62) (x, y)) (hb : Within (2 ^ 62) b) (he : Within (2 ^ 62) e)
    (c1 : Clear e.2 x e.1 y) (c2 : Clear b.1 y b.2 x) (c3 : Clear b.1 e.2 e.1 b.2) (hb0 : pt b ≠ 0) {r w ρ δ : ℝ} (hr : 0 < r) (hρ : 0 < ρ) (w0 : 0 ≤ w) (w1 : w < 2 * π)
    (d0 : 0 ≤ δ) (d1 : δ < 2 * π) (hp : pt (x, y) = ρ • rot δ (pt b)) (hq : pt e = r • rot w (pt b)) :
    insideCone x y b e = true ↔ if w ≤ π then 0 < δ ∧ δ < w else δ ≤ w := by
  rw [cone_exact hx hb he c1 c2 c3, ← Geometry2.C59_cone (pt b) hb0 hr hρ w0 w1 d0 d1, ← hp, ← hq]
  rfl

/-- The determinants of integers up to 2^12 are clear. -/
theorem clear_int {p q : V2f} (hp : Within (2 ^ 12) p) (hq : Within (2 ^ 12) q) (ip : Integral p) (iq : Integral q) : Clear p.1 q.2 p.2 q.1 ∧ Clear p.1 q.2 q.1 p.2 ∧ Clear p.2 q.1 p.1 q.2 := by
  have prod : ∀ {a b : Flt}, (a.Fin ∧ |a.val| ≤ 2 ^ 12) → (b.Fin ∧ |b.val| ≤ 2 ^ 12) → (∃ n : ℤ, a.val = n) → (∃ n : ℤ, b.val = n) → (a * b).val = a.val * b.val := by
    rintro a b ha hb ⟨m, hm⟩ ⟨n, hn⟩
    refine (mulInt ha.1 hb.1 hm hn ?_).2
    rw [abs_mul]
    exact (mul_le_mul ha.2 hb.2 (abs_nonneg _) (by norm_num)).trans (by norm_num)
  exact ⟨.inl ⟨prod hp.1 hq.2 ip.1 iq.2, prod hp.2 hq.1 ip.2 iq.1⟩, .inl ⟨prod hp.1 hq.2 ip.1 iq.2, prod hq.1 hp.2 iq.1 ip.2⟩, .inl ⟨prod hp.2 hq.1 ip.2 iq.1, prod hp.1 hq.2 ip.1 iq.2⟩⟩

/-- C91, partial: with integer coordinates up to 2^12 the cone test is exact, also on the border. -/
theorem C91_cone_integers_partial {x y : Flt} {b e : V2f} (hx : Within (2 ^ 12) (x, y)) (hb : Within (2 ^ 12) b) (he : Within (2 ^ 12) e) (ix : Integral (x, y)) (ib : Integral b)
    (ie : Integral e) (hb0 : pt b ≠ 0) {r w ρ δ : ℝ} (hr : 0 < r) (hρ : 0 < ρ) (w0 : 0 ≤ w) (w1 : w < 2 * π)
    (d0 : 0 ≤ δ) (d1 : δ < 2 * π) (hp : pt (x, y) = ρ • rot δ (pt b)) (hq : pt e = r • rot w (pt b)) :
    insideCone x y b e = true ↔ if w ≤ π then 0 < δ ∧ δ < w else δ ≤ w := by
  have up : ∀ {p : V2f}, Within (2 ^ 12) p → Within (2 ^ 62) p := fun h =>
    ⟨⟨h.1.1, h.1.2.trans (by norm_num)⟩, ⟨h.2.1, h.2.2.trans (by norm_num)⟩⟩
  exact C91_cone_partial (up hx) (up hb) (up he) (clear_int he hx ie ix).2.2 (clear_int hb hx ib ix).1 (clear_int hb he ib ie).2.1 hb0 hr hρ w0 w1 d0 d1 hp hq

/-- C91 fails for the cone: the point (0.75, 0.3) is inside the cone from (7.5, 3) to (-4.4, 8.8) (its determinants with the borders are positive), but the test fails. -/
theorem C91_cone_violated : insideCone (f 75 2) (f 3 1) (num 75, num 30) (-num 44, num 88) = false ∧
    Geometry2.insideCone (f 75 2).val (f 3 1).val (pt (num 75, num 30)) (pt (-num 44, num 88)) = true := by
  refine ⟨by decide +kernel, ?_⟩
  have a1 := (val_finite (a := f 75 2) (s := .positive) (m := 12582912) (e := -24) (h := by decide) (by decide +kernel)).2
  have a2 := (val_finite (a := f 3 1) (s := .positive) (m := 10066330) (e := -25) (h := by decide) (by decide +kernel)).2
  have b1 := (val_finite (a := num 75) (s := .positive) (m := 15728640) (e := -21) (h := by decide) (by decide +kernel)).2
  have b2 := (val_finite (a := num 30) (s := .positive) (m := 12582912) (e := -22) (h := by decide) (by decide +kernel)).2
  have c1 := (val_finite (a := -num 44) (s := .negative) (m := 9227469) (e := -21) (h := by decide) (by decide +kernel)).2
  have c2 := (val_finite (a := num 88) (s := .positive) (m := 9227469) (e := -20) (h := by decide) (by decide +kernel)).2
  simp only [Geometry2.insideCone, pt, a1, a2, b1, b2, c1, c2, sgn]
  norm_num

-- the quadrant, its inside, its border, and its complement
example : insideCone (num 10) (num 10) (num 10, num 0) (num 0, num 10) = true ∧ insideCone (num 10) (num 0) (num 10, num 0) (num 0, num 10) = false ∧
    insideCone (num 10) (num 0) (num 0, num 10) (num 10, num 0) = true := by decide +kernel

end Verif.Geometry2Fp
