import Verif.GisFp.Scale

/-!
The lengths of a degree in floating point arithmetic: their values and a lower bound.
-/
namespace Verif.GisFp
open Ieee Fp Float.Model FunctionsFp Geometry2Fp Real

/-- The length of a degree of latitude as a function of the angle in radians. -/
noncomputable def latLen (x : ℝ) : ℝ := 11113209 / 10 ^ 2 - 56605 / 10 ^ 2 * Real.cos (2 * x) + 120 / 10 ^ 2 * Real.cos (4 * x) - 2 / 10 ^ 3 * Real.cos (6 * x)

/-- The length of a degree of longitude as a function of the angle in radians. -/
noncomputable def lonLen (x : ℝ) : ℝ := 11141513 / 10 ^ 2 * Real.cos x - 9455 / 10 ^ 2 * Real.cos (3 * x) + 12 / 10 ^ 2 * Real.cos (5 * x)

theorem latLen_eq (lat : ℝ) : Gis.meterPerDegLat Functions.Spec.real lat = latLen (lat / 180 * π) := by
  unfold Gis.meterPerDegLat latLen Functions.Spec.real
  norm_num

theorem lonLen_eq (lon : ℝ) : Gis.meterPerDegLon Functions.Spec.real lon = lonLen (lon / 180 * π) := by
  unfold Gis.meterPerDegLon lonLen Functions.Spec.real
  norm_num

theorem cos_diff (n : ℕ) (a b : ℝ) : |Real.cos (n * a) - Real.cos (n * b)| ≤ n * |a - b| := by
  refine (cos_lip _ _).trans ?_
  rw [← mul_sub, abs_mul, abs_of_nonneg (by positivity : (0 : ℝ) ≤ n)]

theorem latLen_lip (a b : ℝ) : |latLen a - latLen b| ≤ 1138 * |a - b| := by
  have h2 := abs_le.1 (cos_diff 2 a b)
  have h4 := abs_le.1 (cos_diff 4 a b)
  have h6 := abs_le.1 (cos_diff 6 a b)
  push_cast at h2 h4 h6
  have := abs_nonneg (a - b)
  unfold latLen
  rw [abs_le]
  constructor <;> norm_num <;> linarith [h2.1, h2.2, h4.1, h4.2, h6.1, h6.2]

theorem lonLen_lip (a b : ℝ) : |lonLen a - lonLen b| ≤ 111700 * |a - b| := by
  have h1 := abs_le.1 (cos_lip a b)
  have h3 := abs_le.1 (cos_diff 3 a b)
  have h5 := abs_le.1 (cos_diff 5 a b)
  push_cast at h3 h5
  have := abs_nonneg (a - b)
  unfold lonLen
  rw [abs_le]
  constructor <;> norm_num <;> linarith [h1.1, h1.2, h3.1, h3.2, h5.1, h5.2]

theorem latLen_bounds (x : ℝ) : 110500 ≤ latLen x ∧ latLen x ≤ 111800 := by
  unfold latLen
  norm_num
  constructor <;> linarith [cos_le_one (2 * x), neg_one_le_cos (2 * x), cos_le_one (4 * x), neg_one_le_cos (4 * x), cos_le_one (6 * x), neg_one_le_cos (6 * x)]

theorem lonLen_factor (x : ℝ) : lonLen x = Real.cos x * (11169938 / 100 - 3806 / 10 * Real.cos x ^ 2 + 192 / 100 * Real.cos x ^ 4) := by
  unfold lonLen
  rw [cos_three_mul, Gis.cos_five]
  ring

theorem lonLen_bounds (x : ℝ) : 111300 * |Real.cos x| ≤ |lonLen x| ∧ |lonLen x| ≤ 111700 * |Real.cos x| := by
  have h1 : 0 ≤ Real.cos x ^ 2 := sq_nonneg _
  have h2 : Real.cos x ^ 2 ≤ 1 := cos_sq_le_one x
  have h4 : Real.cos x ^ 4 = (Real.cos x ^ 2) ^ 2 := by ring
  have ha := abs_nonneg (Real.cos x)
  rw [lonLen_factor, abs_mul, h4]
  generalize Real.cos x ^ 2 = t at *
  rw [abs_of_nonneg (show 0 ≤ 11169938 / 100 - 3806 / 10 * t + 192 / 100 * t ^ 2 by nlinarith)]
  constructor
  · rw [mul_comm]
    exact mul_le_mul_of_nonneg_left (by nlinarith) ha
  · rw [mul_comm]
    exact mul_le_mul_of_nonneg_right (by nlinarith) ha

/-- The length of a degree of latitude, from the rounded angle. -/
theorem lat_round {T : Trig} (hT : Accurate T) {a : Flt} (ha : a.Fin) (h : |a.val| ≤ 180) : Approx (meterPerDegLat T a) (latLen (rad a).val) (391 / 100000) := by
  obtain ⟨r1, r2⟩ := rad_bound ha h
  have c2 := cosmul hT r1 r2 (n := 2) (by norm_num) (by norm_num)
  have c4 := cosmul hT r1 r2 (n := 4) (by norm_num) (by norm_num)
  have c6 := cosmul hT r1 r2 (n := 6) (by norm_num) (by norm_num)
  push_cast at c2 c4 c6
  have p2 := coef (m := 56605) (k := 2) 10 c2 (abs_cos_le_one _) (by norm_num) (by norm_num) (by norm_num) (by norm_num) (by norm_num) (by norm_num) (by norm_num) (E := 2 / 10 ^ 9) (by norm_num)
  have p4 := coef (m := 120) (k := 2) 1 c4 (abs_cos_le_one _) (by norm_num) (by norm_num) (by norm_num) (by norm_num) (by norm_num) (by norm_num) (by norm_num) (E := 1 / 10 ^ 9) (by norm_num)
  have p6 := coef (m := 2) (k := 3) 0 c6 (abs_cos_le_one _) (by norm_num) (by norm_num) (by norm_num) (by norm_num) (by norm_num) (by norm_num) (by norm_num) (E := 1 / 10 ^ 9) (by norm_num)
  have l := approx_lit (spec := .binary64) (m := 11113209) (k := 2) 17 (by norm_num) (by norm_num) (by decide) (by decide) (by decide) (by norm_num)
  have b2 : |((56605 : ℕ) : ℝ) / 10 ^ 2 * Real.cos (2 * (rad a).val)| ≤ 567 := by
    rw [abs_mul, abs_of_nonneg (by positivity)]
    have := abs_cos_le_one (2 * (rad a).val)
    norm_num
    linarith
  have b4 : |((120 : ℕ) : ℝ) / 10 ^ 2 * Real.cos (4 * (rad a).val)| ≤ 2 := by
    rw [abs_mul, abs_of_nonneg (by positivity)]
    have := abs_cos_le_one (4 * (rad a).val)
    norm_num
    linarith
  have b6 : |((2 : ℕ) : ℝ) / 10 ^ 3 * Real.cos (6 * (rad a).val)| ≤ 1 := by
    rw [abs_mul, abs_of_nonneg (by positivity)]
    have := abs_cos_le_one (6 * (rad a).val)
    norm_num
    linarith
  have bl : |((11113209 : ℕ) : ℝ) / 10 ^ 2| ≤ 111133 := by rw [abs_of_nonneg (by positivity)]; norm_num
  have s1 := l.sub p2 17 (by decide) (by decide) bl b2 (E := 3 / 10 ^ 9) (by norm_num [mb]) (by norm_num [mb])
  have d1 : |((11113209 : ℕ) : ℝ) / 10 ^ 2 - ((56605 : ℕ) : ℝ) / 10 ^ 2 * Real.cos (2 * (rad a).val)| ≤ 111700 := by
    have := abs_le.1 bl
    have := abs_le.1 b2
    rw [abs_le]
    constructor <;> linarith
  have s2 := s1.add p4 17 (by decide) (by decide) d1 b4 (E := 5 / 10 ^ 9) (by norm_num [mb]) (by norm_num [mb])
  have d2 : |((11113209 : ℕ) : ℝ) / 10 ^ 2 - ((56605 : ℕ) : ℝ) / 10 ^ 2 * Real.cos (2 * (rad a).val) + ((120 : ℕ) : ℝ) / 10 ^ 2 * Real.cos (4 * (rad a).val)| ≤ 111702 := by
    have := abs_le.1 d1
    have := abs_le.1 b4
    rw [abs_le]
    constructor <;> linarith
  have s3 := s2.sub p6 17 (by decide) (by decide) d2 b6 (E := 8 / 10 ^ 9) (by norm_num [mb]) (by norm_num [mb])
  have d3 := latLen_bounds (rad a).val
  have s4 := s3.conv (spec := .binary32) 17 (by decide) (by decide) (V := 111800) (E := 391 / 100000) (by
    have e : ((11113209 : ℕ) : ℝ) / 10 ^ 2 - ((56605 : ℕ) : ℝ) / 10 ^ 2 * Real.cos (2 * (rad a).val) + ((120 : ℕ) : ℝ) / 10 ^ 2 * Real.cos (4 * (rad a).val) -
        ((2 : ℕ) : ℝ) / 10 ^ 3 * Real.cos (6 * (rad a).val) = latLen (rad a).val := by
      unfold latLen
      push_cast
      ring
    rw [e, abs_le]
    constructor <;> linarith) (by norm_num) (by norm_num [mb])
  refine ⟨s4.1, ?_⟩
  have := s4.2
  push_cast at this
  exact this

/-- The cosine of the longitude, in both variants. -/
theorem lon_cos {T : Trig} (hT : Accurate T) {r : Flt} (r1 : r.Fin) (r2 : |r.val| ≤ 316 / 100) :
    Approx (if T.dbl then T.cos (wide r) else wide (T.cosf r)) (Real.cos r.val) (|Real.cos r.val| / 2 ^ 23 + 1 / 2 ^ 100) := by
  have h0 := abs_nonneg (Real.cos r.val)
  split
  · obtain ⟨w1, w2⟩ := wide_is r1
    have := hT.cos _ w1 (by rw [w2]; linarith)
    rw [w2] at this
    refine this.weaken ?_
    have : |Real.cos r.val| / 2 ^ 40 ≤ |Real.cos r.val| / 2 ^ 23 := by gcongr <;> norm_num
    linarith
  · have := hT.cosf _ r1 (by linarith)
    obtain ⟨w1, w2⟩ := wide_is this.1
    exact ⟨w1, by rw [w2]; exact this.2⟩

/-- The value of the expression of `meterPerDegLon` before it is stored in a `float`. -/
theorem lon_dbl {T : Trig} (hT : Accurate T) {r : Flt} (r1 : r.Fin) (r2 : |r.val| ≤ 316 / 100) :
    Approx (d 11141513 2 * (if T.dbl then T.cos (wide r) else wide (T.cosf r)) - d 9455 2 * T.cos (d 30 1 * wide r) + d 12 2 * T.cos (d 50 1 * wide r))
      (lonLen r.val) (13282 / 10 ^ 6 * |Real.cos r.val| + 1 / 10 ^ 9) := by
  have h0 := abs_nonneg (Real.cos r.val)
  have h1 := abs_cos_le_one r.val
  have c1 := lon_cos hT r1 r2
  have c3 := cosmul hT r1 r2 (n := 3) (by norm_num) (by norm_num)
  have c5 := cosmul hT r1 r2 (n := 5) (by norm_num) (by norm_num)
  push_cast at c3 c5
  have p1 := coef (m := 11141513) (k := 2) 17 c1 h1 (by norm_num; linarith) (by norm_num) (by norm_num) (by norm_num) (by norm_num) (by norm_num) (by norm_num)
    (E := 132818 / 10 ^ 7 * |Real.cos r.val| + 1 / 10 ^ 10) (by norm_num; linarith)
  have p3 := coef (m := 9455) (k := 2) 7 c3 (abs_cos_le_one _) (by norm_num) (by norm_num) (by norm_num) (by norm_num) (by norm_num) (by norm_num) (by norm_num) (E := 2 / 10 ^ 10) (by norm_num)
  have p5 := coef (m := 12) (k := 2) 0 c5 (abs_cos_le_one _) (by norm_num) (by norm_num) (by norm_num) (by norm_num) (by norm_num) (by norm_num) (by norm_num) (E := 1 / 10 ^ 10) (by norm_num)
  have b1 : |((11141513 : ℕ) : ℝ) / 10 ^ 2 * Real.cos r.val| ≤ 111416 := by
    rw [abs_mul, abs_of_nonneg (by positivity)]
    norm_num
    linarith
  have b3 : |((9455 : ℕ) : ℝ) / 10 ^ 2 * Real.cos (3 * r.val)| ≤ 95 := by
    rw [abs_mul, abs_of_nonneg (by positivity)]
    have := abs_cos_le_one (3 * r.val)
    norm_num
    linarith
  have b5 : |((12 : ℕ) : ℝ) / 10 ^ 2 * Real.cos (5 * r.val)| ≤ 1 := by
    rw [abs_mul, abs_of_nonneg (by positivity)]
    have := abs_cos_le_one (5 * r.val)
    norm_num
    linarith
  have s1 := p1.sub p3 17 (by decide) (by decide) b1 b3 (E := 132818 / 10 ^ 7 * |Real.cos r.val| + 4 / 10 ^ 10) (by norm_num; linarith) (by norm_num [mb]; linarith)
  have d1 : |((11141513 : ℕ) : ℝ) / 10 ^ 2 * Real.cos r.val - ((9455 : ℕ) : ℝ) / 10 ^ 2 * Real.cos (3 * r.val)| ≤ 111511 := by
    have := abs_le.1 b1
    have := abs_le.1 b3
    rw [abs_le]
    constructor <;> linarith
  have s2 := s1.add p5 17 (by decide) (by decide) d1 b5 (E := 13282 / 10 ^ 6 * |Real.cos r.val| + 1 / 10 ^ 9) (by norm_num; linarith) (by norm_num [mb]; linarith)
  refine ⟨s2.1, ?_⟩
  have := s2.2
  push_cast at this
  exact this

/-- The length of a degree of longitude, from the rounded angle. -/
theorem lon_round {T : Trig} (hT : Accurate T) {a : Flt} (ha : a.Fin) (h : |a.val| ≤ 180) : Approx (meterPerDegLon T a) (lonLen (rad a).val) (172 / 10000) := by
  obtain ⟨r1, r2⟩ := rad_bound ha h
  have h1 := abs_cos_le_one (rad a).val
  have h2 := (lonLen_bounds (rad a).val).2
  exact (lon_dbl hT r1 r2).conv (spec := .binary32) 17 (by decide) (by decide) (V := 111700) (by linarith) (by norm_num; linarith) (by norm_num [mb]; linarith)

/-- The numbers from 1 to 2 in `float` are multiples of 2^-23. -/
theorem flt_multiple {y : Flt} (h1 : 1 ≤ |y.val|) : ∃ n : ℤ, y.val = n / 2 ^ 23 := by
  obtain ⟨q, u, hq, hu, he⟩ := y.grid
  have hP := two_pow_pos u
  rw [he, abs_mul, abs_of_pos hP] at h1
  rw [mb.2] at hq
  have hq' : |q| ≤ 2 ^ 24 := by
    have : ((|q| : ℤ) : ℝ) ≤ 2 ^ 24 := by
      push_cast
      exact hq.trans (by norm_num)
    exact_mod_cast this
  have hu' : -24 ≤ u := by
    by_contra hc
    have h3 : (2 : ℝ) ^ u ≤ 2 ^ (-25 : ℤ) := two_pow_le (by omega)
    have h4 : |(q : ℝ)| * 2 ^ u ≤ 2 ^ (24 : ℤ) * 2 ^ (-25 : ℤ) := mul_le_mul hq h3 hP.le (two_pow_pos _).le
    norm_num at h4
    linarith
  rcases eq_or_lt_of_le hu' with hu'' | hu''
  · subst hu''
    have h3 : (2 : ℝ) ^ 24 ≤ |(q : ℝ)| := by
      norm_num at h1 ⊢
      linarith
    have h4 : (2 : ℤ) ^ 24 ≤ |q| := by exact_mod_cast h3
    have h5 : |q| = 2 ^ 24 := le_antisymm hq' h4
    rcases abs_eq (by norm_num) |>.1 h5 with h6 | h6
    · exact ⟨2 ^ 23, by rw [he, h6]; norm_num⟩
    · exact ⟨-2 ^ 23, by rw [he, h6]; norm_num⟩
  · refine ⟨q * 2 ^ (u + 23).toNat, ?_⟩
    have e : (2 : ℝ) ^ u = 2 ^ (u + 23).toNat / 2 ^ 23 := by
      rw [← zpow_natCast, Int.toNat_of_nonneg (by omega), two_pow_add]
      norm_num
    rw [he, e]
    push_cast
    ring

/-- No `float` up to 3.16 is a zero of the cosine. -/
theorem cos_lower {y : Flt} (h : |y.val| ≤ 316 / 100) : 43 / 10 ^ 9 ≤ |Real.cos y.val| := by
  have p1 := pi_gt_d20
  have p2 := pi_lt_d20
  norm_num at p1 p2
  have hz := abs_nonneg y.val
  -- the distance from π / 2
  have hd : 437 / 10 ^ 10 ≤ |π / 2 - abs y.val| := by
    by_contra hc
    rw [not_le, abs_lt] at hc
    obtain ⟨n, hn⟩ := flt_multiple (y := y) (by norm_num at hc; linarith)
    have hm : ∃ m : ℤ, |y.val| = m / 2 ^ 23 := by
      rcases abs_choice y.val with h3 | h3
      · exact ⟨n, h3.trans hn⟩
      · exact ⟨-n, by rw [h3, hn]; push_cast; ring⟩
    obtain ⟨m, hm⟩ := hm
    rw [hm] at hc
    have e1 : (13176794 : ℝ) < m := by norm_num at hc ⊢; linarith
    have e2 : (m : ℝ) < 13176795 := by norm_num at hc ⊢; linarith
    have e1' : (13176794 : ℤ) < m := by exact_mod_cast e1
    have e2' : m < (13176795 : ℤ) := by exact_mod_cast e2
    omega
  rw [← cos_abs, ← sin_pi_div_two_sub]
  generalize |y.val| = z at *
  have hs : |Real.sin (π / 2 - z)| = Real.sin |π / 2 - z| := by
    rcases le_total 0 (π / 2 - z) with h4 | h4
    · rw [abs_of_nonneg h4, abs_of_nonneg]
      exact sin_nonneg_of_nonneg_of_le_pi h4 (by linarith)
    · rw [abs_of_nonpos h4, sin_neg, abs_of_nonpos]
      exact sin_nonpos_of_nonpos_of_neg_pi_le h4 (by linarith)
  rw [hs]
  have hu : |π / 2 - z| ≤ 16 / 10 := by
    rw [abs_le]
    constructor <;> linarith
  generalize |π / 2 - z| = t at *
  rcases le_total t 1 with h5 | h5
  · have := sin_gt_sub_cube (x := t) (by linarith)
    have h6 : t ^ 3 ≤ t * 1 := by
      have : t ^ 3 = t * t ^ 2 := by ring
      rw [this]
      exact mul_le_mul_of_nonneg_left (by nlinarith) (by linarith)
    rcases le_total t (1 / 100) with h7 | h7
    · have h8 : t ^ 3 ≤ t * (1 / 10000) := by
        have : t ^ 3 = t * t ^ 2 := by ring
        rw [this]
        exact mul_le_mul_of_nonneg_left (by nlinarith) (by linarith)
      norm_num at hd ⊢
      linarith
    · norm_num at hd ⊢
      linarith
  · have h6 : Real.sin 1 ≤ Real.sin t ∨ Real.sin (16 / 10) ≤ Real.sin t := by
      rcases le_total t (π / 2) with h8 | h8
      · exact Or.inl (sin_le_sin_of_le_of_le_pi_div_two (by linarith) h8 h5)
      · right
        have h9 := cos_le_cos_of_nonneg_of_le_pi (x := t - π / 2) (y := 16 / 10 - π / 2) (by linarith) (by linarith) (by linarith)
        rwa [cos_sub_pi_div_two, cos_sub_pi_div_two] at h9
    have h7 : 1 / 4 ≤ Real.sin 1 := by
      have := sin_gt_sub_cube (x := 1) (by norm_num)
      norm_num at this
      linarith
    have h8 : 1 / 4 ≤ Real.sin (16 / 10) := by
      have e : Real.sin (16 / 10) = Real.cos (16 / 10 - π / 2) := (cos_sub_pi_div_two _).symm
      rw [e]
      have := one_sub_sq_div_two_le_cos (x := 16 / 10 - π / 2)
      nlinarith
    norm_num
    rcases h6 with h6 | h6 <;> linarith

/-- The length of a degree of longitude is never zero in `float`. -/
theorem lon_lower {T : Trig} (hT : Accurate T) {a : Flt} (ha : a.Fin) (h : |a.val| ≤ 180) : 1 / 2 ^ 8 ≤ |(meterPerDegLon T a).val| := by
  obtain ⟨r1, r2⟩ := rad_bound ha h
  have h1 := lon_dbl hT r1 r2
  have h2 := cos_lower r2
  have h3 := (lonLen_bounds (rad a).val).1
  have h4 := (lonLen_bounds (rad a).val).2
  have h5 := abs_cos_le_one (rad a).val
  have hm : meterPerDegLon T a = narrow (d 11141513 2 * (if T.dbl then T.cos (wide (rad a)) else wide (T.cosf (rad a))) - d 9455 2 * T.cos (d 30 1 * wide (rad a)) +
    d 12 2 * T.cos (d 50 1 * wide (rad a))) := rfl
  rw [hm]
  generalize d 11141513 2 * (if T.dbl then T.cos (wide (rad a)) else wide (T.cosf (rad a))) - d 9455 2 * T.cos (d 30 1 * wide (rad a)) + d 12 2 * T.cos (d 50 1 * wide (rad a)) = V at *
  have h6 := h1.abs_le (V := 111700) (by linarith)
  have hc := conv_is (spec := .binary32) h1.1 (h6.trans ((show _ ≤ (2 : ℝ) ^ (17 : ℤ) by norm_num; linarith).trans (two_pow_le (by decide))))
  have h7 : 1 / 2 ^ 8 ≤ |V.val| := by
    have := abs_sub_abs_le_abs_sub (lonLen (rad a).val) V.val
    have h8 := h1.2
    rw [abs_sub_comm] at h8
    norm_num at h8 h2 ⊢
    linarith
  have g := grid_two_pow (spec := .binary32) (k := -8) (by decide)
  rw [show (2 : ℝ) ^ (-8 : ℤ) = 1 / 2 ^ 8 by norm_num] at g
  rcases le_abs'.1 h7 with h8 | h8
  · have := hc.2.mono_le g.neg h8
    exact le_abs'.2 (Or.inl this)
  · have := hc.2.mono_ge g h8
    exact le_abs'.2 (Or.inr this)

end Verif.GisFp
