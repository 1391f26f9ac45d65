import Verif.Geometry2Fp.Model
import Verif.Geometry2.Props
import Verif.FunctionsFp.AtanProps
import Verif.Ieee.Rel

/-!
C91: the orientation of three points and the test of a cone in floating point arithmetic.
-/
namespace Verif.Geometry2Fp
open Ieee Fp Float.Model FunctionsFp

/-- The exact coordinates of a point. -/
noncomputable def pt (p : V2f) : Geometry2.V2 ℝ := (p.1.val, p.2.val)

/-- Both coordinates are finite numbers of magnitude at most `M`. -/
def Within (M : ℝ) (p : V2f) : Prop := (p.1.Fin ∧ |p.1.val| ≤ M) ∧ (p.2.Fin ∧ |p.2.val| ≤ M)

/-- Both coordinates are integers. -/
def Integral (p : V2f) : Prop := (∃ n : ℤ, p.1.val = n) ∧ (∃ n : ℤ, p.2.val = n)

/-- The full statement: the sign of `ccw` is the orientation of the three points, for all points whose coordinates are finite (up to 2^61: no overflow). -/
def C91_statement : Prop := ∀ p1 p2 p3 : V2f, Within (2 ^ 61) p1 → Within (2 ^ 61) p2 → Within (2 ^ 61) p3 → (0 < (ccw p1 p2 p3).val ↔ Geometry2.LeftTurn (pt p1) (pt p2) (pt p3))

theorem top32 : top Format.binary32 = 127 := by decide
theorem min32 : Format.binary32.minExponent = -149 := by decide

theorem sub32 {a b : Flt} {M : ℝ} (ha : a.Fin ∧ |a.val| ≤ M) (hb : b.Fin ∧ |b.val| ≤ M) (hM : M ≤ 2 ^ 126) :
    (a - b).Fin ∧ |(a - b).val - (a.val - b.val)| ≤ |a.val - b.val| / 2 ^ 24 ∧ |a.val - b.val| ≤ 2 * M := by
  have h1 : |a.val - b.val| ≤ 2 * M := by
    have := abs_sub a.val b.val
    linarith [ha.2, hb.2]
  have h2 := sub_rel ha.1 hb.1 (h1.trans (by rw [top32]; norm_num at hM ⊢; linarith))
  rw [mb.2] at h2
  exact ⟨h2.1, by exact_mod_cast h2.2, h1⟩

theorem prod_close {fa fb A B P : ℝ} (ha : |fa - A| ≤ |A| / 2 ^ 24) (hb : |fb - B| ≤ |B| / 2 ^ 24) (hP : |P - fa * fb| ≤ |fa * fb| / 2 ^ 24 + 1 / 2 ^ 150) :
    |P - A * B| ≤ |A * B| * (13 / 2 ^ 26) + 1 / 2 ^ 150 := by
  have h1 : |fa * fb - A * B| ≤ |A * B| * (2 / 2 ^ 24 + 1 / 2 ^ 48) := by
    have e : fa * fb - A * B = (fa - A) * (fb - B) + (fa - A) * B + A * (fb - B) := by ring
    have hA := abs_nonneg A
    have hB := abs_nonneg B
    have t1 : |(fa - A) * (fb - B)| ≤ |A| / 2 ^ 24 * (|B| / 2 ^ 24) := by
      rw [abs_mul]
      exact mul_le_mul ha hb (abs_nonneg _) (by positivity)
    have t2 : |(fa - A) * B| ≤ |A| / 2 ^ 24 * |B| := by
      rw [abs_mul]
      exact mul_le_mul_of_nonneg_right ha hB
    have t3 : |A * (fb - B)| ≤ |A| * (|B| / 2 ^ 24) := by
      rw [abs_mul]
      exact mul_le_mul_of_nonneg_left hb hA
    rw [e, abs_mul A B]
    refine (abs_add_le _ _).trans ((add_le_add (abs_add_le _ _) le_rfl).trans ?_)
    have : |A| * |B| * (2 / 2 ^ 24 + 1 / 2 ^ 48) = |A| / 2 ^ 24 * (|B| / 2 ^ 24) + |A| / 2 ^ 24 * |B| + |A| * (|B| / 2 ^ 24) := by ring
    rw [this]
    linarith
  have h2 : |fa * fb| ≤ |A * B| + |A * B| * (2 / 2 ^ 24 + 1 / 2 ^ 48) := by
    have := abs_sub_abs_le_abs_sub (fa * fb) (A * B)
    linarith
  have h3 : |P - A * B| ≤ |P - fa * fb| + |fa * fb - A * B| := abs_sub_le _ _ _
  have h0 := abs_nonneg (A * B)
  have h4 : |fa * fb| / 2 ^ 24 ≤ (|A * B| + |A * B| * (2 / 2 ^ 24 + 1 / 2 ^ 48)) / 2 ^ 24 := div_le_div_of_nonneg_right h2 (by norm_num)
  norm_num [-abs_mul] at hP h1 h2 h4 ⊢
  linarith

theorem mul32 {a b : Flt} {M : ℝ} (ha : a.Fin) (hb : b.Fin) (hM : |a.val * b.val| ≤ M) (hM' : M ≤ 2 ^ 127) :
    (a * b).Fin ∧ |(a * b).val - a.val * b.val| ≤ |a.val * b.val| / 2 ^ 24 + 1 / 2 ^ 150 := by
  have h2 := mul_rel ha hb (hM.trans (by rw [top32]; exact_mod_cast hM'))
  rw [mb.2, min32] at h2
  refine ⟨h2.1, h2.2.trans (le_of_eq ?_)⟩
  norm_num

/-- The two products of `ccw`. -/
theorem ccw_close {p1 p2 p3 : V2f} (h1 : Within (2 ^ 61) p1) (h2 : Within (2 ^ 61) p2) (h3 : Within (2 ^ 61) p3) :
    ∃ P Q : ℝ, (ccw p1 p2 p3).Fin ∧ (0 < (ccw p1 p2 p3).val ↔ Q < P) ∧ ((ccw p1 p2 p3).val < 0 ↔ P < Q) ∧
      |P - (p2.1.val - p1.1.val) * (p3.2.val - p1.2.val)| ≤ |(p2.1.val - p1.1.val) * (p3.2.val - p1.2.val)| * (13 / 2 ^ 26) + 1 / 2 ^ 150 ∧
      |Q - (p2.2.val - p1.2.val) * (p3.1.val - p1.1.val)| ≤ |(p2.2.val - p1.2.val) * (p3.1.val - p1.1.val)| * (13 / 2 ^ 26) + 1 / 2 ^ 150 := by
  have prod : ∀ {a b c e : Flt}, (a.Fin ∧ |a.val| ≤ 2 ^ 61) → (b.Fin ∧ |b.val| ≤ 2 ^ 61) → (c.Fin ∧ |c.val| ≤ 2 ^ 61) → (e.Fin ∧ |e.val| ≤ 2 ^ 61) →
      ((a - b) * (c - e)).Fin ∧ |((a - b) * (c - e)).val - (a.val - b.val) * (c.val - e.val)| ≤ |(a.val - b.val) * (c.val - e.val)| * (13 / 2 ^ 26) + 1 / 2 ^ 150 ∧
        |((a - b) * (c - e)).val| ≤ 2 ^ 126 := by
    intro a b c e ha hb hc he
    obtain ⟨f1, g1, b1⟩ := sub32 ha hb (by norm_num)
    obtain ⟨f2, g2, b2⟩ := sub32 hc he (by norm_num)
    have m1 : |(a - b).val| ≤ 2 ^ 62 * (1 + 1 / 2 ^ 24) := by
      have := abs_sub_abs_le_abs_sub (a - b).val (a.val - b.val)
      norm_num at g1 b1 ⊢
      linarith
    have m2 : |(c - e).val| ≤ 2 ^ 62 * (1 + 1 / 2 ^ 24) := by
      have := abs_sub_abs_le_abs_sub (c - e).val (c.val - e.val)
      norm_num at g2 b2 ⊢
      linarith
    have m3 : |(a - b).val * (c - e).val| ≤ 2 ^ 125 := by
      rw [abs_mul]
      refine (mul_le_mul m1 m2 (abs_nonneg _) (by positivity)).trans ?_
      norm_num
    obtain ⟨f3, g3⟩ := mul32 f1 f2 m3 (by norm_num)
    refine ⟨f3, prod_close g1 g2 g3, ?_⟩
    have := abs_sub_abs_le_abs_sub ((a - b) * (c - e)).val ((a - b).val * (c - e).val)
    norm_num [-abs_mul] at m3 g3 ⊢
    linarith
  obtain ⟨f1, g1, b1⟩ := prod h2.1 h1.1 h3.2 h1.2
  obtain ⟨f2, g2, b2⟩ := prod h2.2 h1.2 h3.1 h1.1
  have hd : |((p2.1 - p1.1) * (p3.2 - p1.2)).val - ((p2.2 - p1.2) * (p3.1 - p1.1)).val| ≤ 2 ^ top Format.binary32 := by
    rw [top32]
    refine (abs_sub _ _).trans ?_
    norm_num at b1 b2 ⊢
    linarith
  have hs := sub_sign f1 f2 hd
  exact ⟨_, _, (sub_is f1 f2 hd).1, hs.1, hs.2.1, g1, g2⟩

theorem leftTurn_iff (p1 p2 p3 : V2f) : Geometry2.LeftTurn (pt p1) (pt p2) (pt p3) ↔
    (p2.2.val - p1.2.val) * (p3.1.val - p1.1.val) < (p2.1.val - p1.1.val) * (p3.2.val - p1.2.val) := by
  rw [← (Geometry2.C59_ccw (pt p1) (pt p2) (pt p3)).2.2.2]
  unfold Geometry2.ccw pt
  exact sub_pos

/-- C91, partial: the sign of `ccw` is the orientation when the two products of the determinant differ by more than 2^-22 of their magnitudes (the three points are not nearly
collinear); then the clockwise triples are recognised too. Missing: nearly collinear points, for which the sign is wrong. -/
theorem C91_sign_partial (p1 p2 p3 : V2f) (h1 : Within (2 ^ 61) p1) (h2 : Within (2 ^ 61) p2) (h3 : Within (2 ^ 61) p3)
    (hn : (|(p2.1.val - p1.1.val) * (p3.2.val - p1.2.val)| + |(p2.2.val - p1.2.val) * (p3.1.val - p1.1.val)|) / 2 ^ 22 + 1 / 2 ^ 148 <
      |(p2.1.val - p1.1.val) * (p3.2.val - p1.2.val) - (p2.2.val - p1.2.val) * (p3.1.val - p1.1.val)|) :
    (ccw p1 p2 p3).Fin ∧ (0 < (ccw p1 p2 p3).val ↔ Geometry2.LeftTurn (pt p1) (pt p2) (pt p3)) ∧ ((ccw p1 p2 p3).val < 0 ↔ Geometry2.LeftTurn (pt p1) (pt p3) (pt p2)) := by
  obtain ⟨P, Q, hf, hp, hn', g1, g2⟩ := ccw_close h1 h2 h3
  refine ⟨hf, ?_⟩
  rw [leftTurn_iff, leftTurn_iff, hp, hn', mul_comm (p3.2.val - p1.2.val), mul_comm (p3.1.val - p1.1.val)]
  generalize (p2.1.val - p1.1.val) * (p3.2.val - p1.2.val) = X at *
  generalize (p2.2.val - p1.2.val) * (p3.1.val - p1.1.val) = Y at *
  have hX := abs_nonneg X
  have hY := abs_nonneg Y
  rw [abs_le] at g1 g2
  norm_num at g1 g2 hn
  rcases lt_or_ge Y X with h | h
  · rw [abs_of_pos (by linarith : 0 < X - Y)] at hn
    exact ⟨⟨fun _ => h, fun _ => by linarith⟩, ⟨fun h' => by linarith, fun h' => by linarith⟩⟩
  · rw [abs_of_nonpos (by linarith : X - Y ≤ 0)] at hn
    exact ⟨⟨fun _ => by linarith, fun _ => by linarith⟩, ⟨fun h' => by linarith, fun h' => by linarith⟩⟩

theorem int_grid {z : ℝ} {n : ℤ} (h : z = n) (hb : |z| ≤ 2 ^ 24) : Grid .binary32 z := by
  rw [h]
  apply grid_int Fmt.good
  rw [← h, mb.2]
  exact_mod_cast hb

theorem subInt {a b : Flt} {M : ℝ} (ha : a.Fin ∧ |a.val| ≤ M) (hb : b.Fin ∧ |b.val| ≤ M) (hM : M ≤ 2 ^ 23) (ia : ∃ n : ℤ, a.val = n) (ib : ∃ n : ℤ, b.val = n) :
    (a - b).Fin ∧ (a - b).val = a.val - b.val ∧ |a.val - b.val| ≤ 2 * M := by
  obtain ⟨m, hm⟩ := ia
  obtain ⟨n, hn⟩ := ib
  have h1 : |a.val - b.val| ≤ 2 * M := by
    have := abs_sub a.val b.val
    linarith [ha.2, hb.2]
  have h2 : |a.val - b.val| ≤ 2 ^ 24 := h1.trans (by norm_num at hM ⊢; linarith)
  have := sub_exact ha.1 hb.1 (h2.trans (by rw [top32]; norm_num)) (int_grid (n := m - n) (by rw [hm, hn]; push_cast; ring) h2)
  exact ⟨this.1, this.2, h1⟩

theorem mulInt {a b : Flt} {m n : ℤ} (ha : a.Fin) (hb : b.Fin) (hm : a.val = m) (hn : b.val = n) (h : |a.val * b.val| ≤ 2 ^ 24) :
    (a * b).Fin ∧ (a * b).val = a.val * b.val :=
  mul_exact ha hb (h.trans (by rw [top32]; norm_num)) (int_grid (n := m * n) (by rw [hm, hn]; push_cast; ring) h)

/-- C91, partial: for points with integer coordinates up to 2^11 the sign of `ccw` is exact: positive, negative and zero are the left turns, the right turns and the collinear
points. Missing: other coordinates. -/
theorem C91_integers_partial (p1 p2 p3 : V2f) (h1 : Within (2 ^ 11) p1) (h2 : Within (2 ^ 11) p2) (h3 : Within (2 ^ 11) p3) (i1 : Integral p1) (i2 : Integral p2) (i3 : Integral p3) :
    (0 < (ccw p1 p2 p3).val ↔ Geometry2.LeftTurn (pt p1) (pt p2) (pt p3)) ∧ ((ccw p1 p2 p3).val < 0 ↔ Geometry2.LeftTurn (pt p1) (pt p3) (pt p2)) := by
  have prod : ∀ {a b c e : Flt}, (a.Fin ∧ |a.val| ≤ 2 ^ 11) → (b.Fin ∧ |b.val| ≤ 2 ^ 11) → (c.Fin ∧ |c.val| ≤ 2 ^ 11) → (e.Fin ∧ |e.val| ≤ 2 ^ 11) →
      (∃ n : ℤ, a.val = n) → (∃ n : ℤ, b.val = n) → (∃ n : ℤ, c.val = n) → (∃ n : ℤ, e.val = n) →
      ((a - b) * (c - e)).Fin ∧ ((a - b) * (c - e)).val = (a.val - b.val) * (c.val - e.val) ∧ |(a.val - b.val) * (c.val - e.val)| ≤ 2 ^ 24 := by
    intro a b c e ha hb hc he ia ib ic ie
    obtain ⟨f1, g1, b1⟩ := subInt ha hb (by norm_num) ia ib
    obtain ⟨f2, g2, b2⟩ := subInt hc he (by norm_num) ic ie
    obtain ⟨m, hm⟩ := ia
    obtain ⟨n, hn⟩ := ib
    obtain ⟨k, hk⟩ := ic
    obtain ⟨l, hl⟩ := ie
    have hb' : |(a.val - b.val) * (c.val - e.val)| ≤ 2 ^ 24 := by
      rw [abs_mul]
      refine (mul_le_mul b1 b2 (abs_nonneg _) (by norm_num)).trans (by norm_num)
    have := mulInt (m := m - n) (n := k - l) f1 f2 (by rw [g1, hm, hn]; push_cast; ring) (by rw [g2, hk, hl]; push_cast; ring) (by rw [g1, g2]; exact hb')
    rw [g1, g2] at this
    exact ⟨this.1, this.2, hb'⟩
  obtain ⟨f1, g1, b1⟩ := prod h2.1 h1.1 h3.2 h1.2 i2.1 i1.1 i3.2 i1.2
  obtain ⟨f2, g2, b2⟩ := prod h2.2 h1.2 h3.1 h1.1 i2.2 i1.2 i3.1 i1.1
  have hd : |((p2.1 - p1.1) * (p3.2 - p1.2)).val - ((p2.2 - p1.2) * (p3.1 - p1.1)).val| ≤ 2 ^ top Format.binary32 := by
    rw [top32, g1, g2]
    refine (abs_sub _ _).trans ?_
    norm_num at b1 b2 ⊢
    linarith
  have hs := sub_sign f1 f2 hd
  rw [g1, g2] at hs
  rw [leftTurn_iff, leftTurn_iff, mul_comm (p3.2.val - p1.2.val), mul_comm (p3.1.val - p1.1.val)]
  exact ⟨hs.1, hs.2.1⟩

/-- C91, partial: exchanging two points changes the sign of `ccw`, for all coordinates, also infinite ones: bit by bit the opposite, except that both may be the positive zero.
Missing: the cyclic exchange, which fails. -/
theorem C91_swap_partial (p1 p2 p3 : V2f) : (ccw p1 p3 p2 = -ccw p1 p2 p3 ∨ ((ccw p1 p2 p3).x = .zero .positive ∧ (ccw p1 p3 p2).x = .zero .positive)) ∧
    (ccw p1 p3 p2).val = -(ccw p1 p2 p3).val := by
  have e : ccw p1 p3 p2 = (p2.2 - p1.2) * (p3.1 - p1.1) - (p2.1 - p1.1) * (p3.2 - p1.2) := by
    unfold ccw
    rw [Fp.mul_comm (p3.1 - p1.1), Fp.mul_comm (p3.2 - p1.2)]
  have h := sub_swap ((p2.1 - p1.1) * (p3.2 - p1.2)) ((p2.2 - p1.2) * (p3.1 - p1.1))
  rw [← e] at h
  refine ⟨h, ?_⟩
  rcases h with h | ⟨ha, hb⟩
  · rw [h, neg_val]
    rfl
  · have hb' : (ccw p1 p2 p3).x = .zero .positive := ha
    unfold Fp.val
    rw [hb, hb']
    simp [Ieee.val]

/-- A number with one decimal. -/
abbrev num (m : ℕ) : Flt := f m 1

/-- Three nearly collinear points. -/
def w1 : V2f := (num 233, num 62)
def w2 : V2f := (num 596, num 135)
def w3 : V2f := (f 95899994 6, num 208)

/-- Three more. -/
def v1 : V2f := (num 797, num 453)
def v2 : V2f := (num 137, num 927)
def v3 : V2f := (-f 5229999542236328 14, f 14009999084472656 14)

theorem val_finite {a : Flt} {s : UnpackedFloat.Sign} {m : ℕ} {e : ℤ} {h : 0 < m} (hx : a.x = .finite s m e h) : a.Fin ∧ a.val = sgn s * (m * 2 ^ e) := by
  unfold Fp.Fin Fp.val
  rw [hx]
  exact ⟨trivial, rfl⟩

/-- C91 fails: for the points (23.3, 6.2), (59.6, 13.5), (95.899994, 20.8) `ccw` is positive, but they turn to the right. -/
theorem C91_sign_violated : Within (2 ^ 61) w1 ∧ Within (2 ^ 61) w2 ∧ Within (2 ^ 61) w3 ∧ 0 < (ccw w1 w2 w3).val ∧ ¬ Geometry2.LeftTurn (pt w1) (pt w2) (pt w3) ∧
    Geometry2.LeftTurn (pt w1) (pt w3) (pt w2) := by
  have a1 := val_finite (a := w1.1) (s := .positive) (m := 12215910) (e := -19) (h := by decide) (by decide +kernel)
  have a2 := val_finite (a := w1.2) (s := .positive) (m := 13002342) (e := -21) (h := by decide) (by decide +kernel)
  have b1 := val_finite (a := w2.1) (s := .positive) (m := 15623782) (e := -18) (h := by decide) (by decide +kernel)
  have b2 := val_finite (a := w2.2) (s := .positive) (m := 14155776) (e := -20) (h := by decide) (by decide +kernel)
  have c1 := val_finite (a := w3.1) (s := .positive) (m := 12569804) (e := -17) (h := by decide) (by decide +kernel)
  have c2 := val_finite (a := w3.2) (s := .positive) (m := 10905190) (e := -19) (h := by decide) (by decide +kernel)
  have r := val_finite (a := ccw w1 w2 w3) (s := .positive) (m := 8388608) (e := -37) (h := by decide) (by decide +kernel)
  simp only [leftTurn_iff, Within, a1.2, a2.2, b1.2, b2.2, c1.2, c2.2, r.2, a1.1, a2.1, b1.1, b2.1, c1.1, c2.1, sgn]
  norm_num

/-- C91 fails: the orientation depends on the point where one begins. -/
theorem C91_cyclic_violated : 0 < (ccw v1 v2 v3).val ∧ (ccw v2 v3 v1).val < 0 := by
  have r := val_finite (a := ccw v1 v2 v3) (s := .positive) (m := 8388608) (e := -34) (h := by decide) (by decide +kernel)
  have r' := val_finite (a := ccw v2 v3 v1) (s := .negative) (m := 8388608) (e := -35) (h := by decide) (by decide +kernel)
  rw [r.2, r'.2]
  norm_num [sgn]

theorem C91_violated : ¬ C91_statement := fun h => C91_sign_violated.2.2.2.2.1 ((h _ _ _ C91_sign_violated.1 C91_sign_violated.2.1 C91_sign_violated.2.2.1).1 C91_sign_violated.2.2.2.1)

-- an integer triangle and its sign
example : ccw (num 10, num 10) (num 40, num 20) (num 30, num 50) = num 100 := by decide +kernel

end Verif.Geometry2Fp
