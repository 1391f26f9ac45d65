import Verif.FunctionsFp.Atan

/-!
C85, C86, C89: the arc tangents in floating point arithmetic.
-/
namespace Verif.FunctionsFp
open Ieee Fp Float.Model Real

theorem fastAtan_approx {x : Dbl} (hx : x.Fin) (h1 : |x.val| ≤ 1) : Approx (fastAtan x) (Functions.fastAtan x.val) (14 / 2 ^ 54) := (fastAtan_core hx h1).1

theorem fastAtanf_approx {x : Flt} (hx : x.Fin) (h1 : |x.val| ≤ 1) : Approx (fastAtanf x) (Functions.fastAtan x.val) (14 / 2 ^ 25) := (fastAtanf_core hx h1).1

theorem fastAtan_nonneg {x : Dbl} (hx : x.Fin) (h0 : 0 ≤ x.val) (h1 : x.val ≤ 1) : 0 ≤ (fastAtan x).val := by
  obtain ⟨q, hq, q0, q1, q2⟩ := (fastAtan_core hx (by rwa [abs_of_nonneg h0])).2
  rw [hq]
  have hm := mul_nonneg h0 q1.le
  have hb : |x.val * q.val| ≤ 2 ^ (1 : ℤ) := by
    rw [abs_of_nonneg hm, zpow_one]
    nlinarith
  exact (mul_is hx q0 (hb.trans (two_pow_le (by decide)))).2.mono_ge grid_zero hm

theorem fastAtan_odd (v : ℝ) : Functions.fastAtan (-v) = -Functions.fastAtan v := by
  simp only [Functions.fastAtan]
  ring

theorem atan_real {v : ℝ} (h : |v| ≤ 1) : |Functions.fastAtan v - arctan v| < 2 / 100000 := by
  rcases le_total 0 v with h0 | h0
  · exact Functions.fastAtan_error h0 (abs_le.1 h).2
  · have := Functions.fastAtan_error (z := -v) (by linarith) (by linarith [(abs_le.1 h).1])
    rw [fastAtan_odd, arctan_neg, neg_sub_neg, abs_sub_comm] at this
    exact this

/-- C85, accuracy: for every `double` in [-1, 1] the result is finite and differs from the arc tangent by less than 2e-5 + 2^-50. -/
theorem C85_atan (x : Dbl) (hx : x.Fin) (h : |x.val| ≤ 1) : (fastAtan x).Fin ∧ |(fastAtan x).val - arctan x.val| < 2 / 100000 + 1 / 2 ^ 50 := by
  have h1 := (fastAtan_approx hx h).trans (atan_real h).le
  refine ⟨h1.1, h1.2.trans_lt ?_⟩
  norm_num

/-- C85, rounding: the result differs from the exact value of the polynomial by less than 2^-50. -/
theorem C85_atan_rounding (x : Dbl) (hx : x.Fin) (h : |x.val| ≤ 1) : |(fastAtan x).val - Functions.fastAtan x.val| < 1 / 2 ^ 50 :=
  (fastAtan_approx hx h).2.trans_lt (by norm_num)

/-- C85, oddness: for every `double`, infinite or NaN included, the result for the opposite number is the opposite, bit by bit. -/
theorem C85_atan_odd (x : Dbl) : fastAtan (-x) = -fastAtan x := by
  unfold fastAtan
  dsimp only
  rw [Fp.neg_mul x (-x), Fp.mul_neg, Fp.neg_neg, Fp.neg_mul]

-- one half: 0.46363..., the arc tangent is 0.46364...
example : (fastAtan (d 5 1)).x = .finite .positive 8352385970354549 (-54) (by decide) := by decide +kernel

/-- The angle of the vector (x, |y|). -/
theorem arg_upper {x y : ℝ} (h : x ≠ 0 ∨ y ≠ 0) :
    Complex.arg ⟨x, |y|⟩ = (if x < 0 then π - (if |x| < |y| then π / 2 - arctan (|x| / |y|) else arctan (|y| / |x|)) else
      (if |x| < |y| then π / 2 - arctan (|x| / |y|) else arctan (|y| / |x|))) := by
  obtain ⟨a, r, ha, hr, a0, a1, hx, hy⟩ : ∃ a r, a = (if |x| < |y| then π / 2 - arctan (|x| / |y|) else arctan (|y| / |x|)) ∧ 0 < r ∧ 0 ≤ a ∧ a ≤ π / 2 ∧
      |x| = r * cos a ∧ |y| = r * sin a := by
    by_cases hi : |x| < |y|
    · simp only [if_pos hi]
      have hy : 0 < |y| := lt_of_le_of_lt (abs_nonneg x) hi
      have z0 : 0 ≤ |x| / |y| := div_nonneg (abs_nonneg _) hy.le
      have c0 := cos_arctan_pos (|x| / |y|)
      have c1 := arctan_nonneg.2 z0
      refine ⟨_, |y| / cos (arctan (|x| / |y|)), rfl, div_pos hy c0, by linarith [arctan_lt_pi_div_two (|x| / |y|)], by linarith, ?_, ?_⟩
      · rw [cos_pi_div_two_sub, div_mul_eq_mul_div, mul_div_assoc, ← tan_eq_sin_div_cos, tan_arctan, mul_div_cancel₀ _ hy.ne']
      · rw [sin_pi_div_two_sub, div_mul_cancel₀ _ c0.ne']
    · simp only [if_neg hi]
      have hxy := not_lt.1 hi
      have hx : 0 < |x| := by
        rcases h with h | h
        · exact abs_pos.2 h
        · exact lt_of_lt_of_le (abs_pos.2 h) hxy
      have z0 : 0 ≤ |y| / |x| := div_nonneg (abs_nonneg _) hx.le
      have c0 := cos_arctan_pos (|y| / |x|)
      refine ⟨_, |x| / cos (arctan (|y| / |x|)), rfl, div_pos hx c0, arctan_nonneg.2 z0, (arctan_lt_pi_div_two _).le, ?_, ?_⟩
      · rw [div_mul_cancel₀ _ c0.ne']
      · rw [div_mul_eq_mul_div, mul_div_assoc, ← tan_eq_sin_div_cos, tan_arctan, mul_div_cancel₀ _ hx.ne']
  rw [← ha]
  have hp := pi_pos
  have harg : ∀ c : ℝ, -π < c → c ≤ π → x = r * cos c → |y| = r * sin c → Complex.arg ⟨x, |y|⟩ = c := by
    intro c h1 h2 h3 h4
    have e : (⟨x, |y|⟩ : ℂ) = r * (Complex.cos c + Complex.sin c * Complex.I) := by
      rw [← Complex.ofReal_cos, ← Complex.ofReal_sin]
      apply Complex.ext
      · simp [h3, -Complex.ofReal_cos, -Complex.ofReal_sin]
      · simp [h4, -Complex.ofReal_cos, -Complex.ofReal_sin]
    rw [e]
    exact Complex.arg_mul_cos_add_sin_mul_I hr ⟨h1, h2⟩
  split_ifs with hxn
  · apply harg (π - a) (by linarith) (by linarith)
    · rw [cos_pi_sub, mul_neg, ← hx, abs_of_neg hxn, neg_neg]
    · rw [sin_pi_sub, hy]
  · apply harg a (by linarith) (by linarith) _ hy
    rw [← hx, abs_of_nonneg (not_lt.1 hxn)]

theorem arctan_lipschitz (a b : ℝ) : |arctan a - arctan b| ≤ |a - b| := by
  have : LipschitzWith 1 arctan := lipschitzWith_of_nnnorm_deriv_le differentiable_arctan (fun x => by
    rw [← NNReal.coe_le_coe, coe_nnnorm, Real.norm_eq_abs, Real.deriv_arctan, abs_of_nonneg (by positivity), NNReal.coe_one, div_le_one (by positivity)]
    nlinarith [sq_nonneg x])
  simpa [Real.dist_eq] using this.dist_le_mul a b

theorem arctan_unit {z : ℝ} (h0 : 0 ≤ z) (h1 : z ≤ 1) : 0 ≤ arctan z ∧ arctan z ≤ 8 / 10 := by
  refine ⟨arctan_nonneg.2 h0, ?_⟩
  have := arctan_strictMono.monotone h1
  rw [arctan_one] at this
  linarith [pi_lt_d2]

theorem mPi2_approx : Approx mPi2 (π / 2) (3 / 2 ^ 54) := by
  have h := approx_lit (spec := .binary64) (m := 157079632679489661923) (k := 20) 1 (by decide) (by decide) (by decide) (by decide) (by decide) (by norm_num)
  have h1 := pi_gt_d20
  have h2 := pi_lt_d20
  have h3 := h.trans (w := π / 2) (e' := 1 / 2 ^ 60) (by rw [abs_le]; norm_num at h1 h2 ⊢; constructor <;> linarith)
  exact h3.weaken (by norm_num [mb])

theorem mPi_approx : Approx mPi π (5 / 2 ^ 54) := by
  have h := approx_lit (spec := .binary64) (m := 314159265358979323846) (k := 20) 2 (by decide) (by decide) (by decide) (by decide) (by decide) (by norm_num)
  have h1 := pi_gt_d20
  have h2 := pi_lt_d20
  have h3 := h.trans (w := π) (e' := 1 / 2 ^ 60) (by rw [abs_le]; norm_num at h1 h2 ⊢; constructor <;> linarith)
  exact h3.weaken (by norm_num [mb])

theorem pi_abs : |π / 2| ≤ 2 ∧ |π| ≤ 4 ∧ 0 ≤ π := by
  have := pi_lt_d2
  have := pi_pos
  refine ⟨?_, ?_, by linarith⟩ <;> rw [abs_le] <;> constructor <;> linarith

/-- The reference angle: `atan2(y, x)` of IEEE 754, the sign of a zero `y` included. -/
noncomputable def angle {spec : Format} [Fmt spec] (x y : Fp spec) : ℝ := sgn (sign y) * Complex.arg ⟨x.val, |y.val|⟩

theorem zero_fin {spec : Format} [Fmt spec] : (lit spec 0 0).Fin ∧ (lit spec 0 0).val = 0 := by
  have : lit spec 0 0 = ⟨.zero .positive, trivial⟩ := by
    show ofU spec (UnpackedFloat.ofScientific spec 0 0) = _
    rw [show UnpackedFloat.ofScientific spec 0 0 = .zero .positive from rfl]
    exact ofU_repr (y := .zero .positive) trivial
  rw [this]
  exact ⟨trivial, rfl⟩

theorem lt_zero {spec : Format} [Fmt spec] {x : Fp spec} (hx : x.Fin) : x < lit spec 0 0 ↔ x.val < 0 := by
  rw [lt_iff hx zero_fin.1, zero_fin.2]

theorem fastAtan_unit {z : Dbl} {r : ℝ} (hz : Approx z r (1 / 2 ^ 54)) (h0 : 0 ≤ z.val) (h1 : z.val ≤ 1) : Approx (fastAtan z) (arctan r) (2 / 100000 + 15 / 2 ^ 54) := by
  have ha : |z.val| ≤ 1 := by rw [abs_le]; constructor <;> linarith
  have := ((fastAtan_approx hz.1 ha).trans (atan_real ha).le).trans ((arctan_lipschitz z.val r).trans hz.2)
  exact this.weaken (by norm_num)

/-- C86, accuracy: for all finite `x` and `y`, not both zero, the result is finite and differs from the angle of the vector (x, y) by less than 2e-5 + 2^-48. -/
theorem C86_atan2 (x y : Dbl) (hx : x.Fin) (hy : y.Fin) (h : x.val ≠ 0 ∨ y.val ≠ 0) :
    (fastAtan2 x y).Fin ∧ |(fastAtan2 x y).val - angle x y| < 2 / 100000 + 1 / 2 ^ 48 := by
  have hp := pi_abs
  have hax : x.abs.Fin := abs_fin.2 hx
  have hay : y.abs.Fin := abs_fin.2 hy
  -- the first quadrant
  obtain ⟨a, ha, a0, a1, hth⟩ : ∃ a, a = (if |x.val| < |y.val| then π / 2 - arctan (|x.val| / |y.val|) else arctan (|y.val| / |x.val|)) ∧ 0 ≤ a ∧ a ≤ 2 ∧
      Approx (if x.abs < y.abs then mPi2 - fastAtan (x.abs / y.abs) else fastAtan (y.abs / x.abs)) a (2 / 100000 + 22 / 2 ^ 54) := by
    refine ⟨_, rfl, ?_⟩
    have hlt : x.abs < y.abs ↔ |x.val| < |y.val| := by rw [lt_iff hax hay, abs_val, abs_val]
    by_cases hi : |x.val| < |y.val|
    · rw [if_pos hi, if_pos (hlt.2 hi)]
      have hy0 : 0 < |y.val| := lt_of_le_of_lt (abs_nonneg _) hi
      have z0 : 0 ≤ |x.val| / |y.val| := div_nonneg (abs_nonneg _) hy0.le
      have z1 : |x.val| / |y.val| ≤ 1 := (div_le_one hy0).2 hi.le
      obtain ⟨t0, t1⟩ := arctan_unit z0 z1
      have hz := div_unit hax hay (by rw [abs_val]; exact abs_nonneg _) (by rwa [abs_val]) (by rw [abs_val, abs_val]; exact hi.le) (by decide) (by decide)
      rw [abs_val, abs_val] at hz
      have ht := fastAtan_unit (hz.1.weaken (by norm_num [mb])) hz.2.1 hz.2.2
      refine ⟨by linarith [arctan_lt_pi_div_two (|x.val| / |y.val|)], by linarith [(abs_le.1 hp.1).2], ?_⟩
      exact mPi2_approx.sub ht 2 (by decide) (by decide) hp.1 (W := 8 / 10) (by rw [abs_le]; constructor <;> linarith) (by norm_num) (by norm_num [mb])
    · rw [if_neg hi, if_neg (fun h => hi (hlt.1 h))]
      have hxy := not_lt.1 hi
      have hx0 : 0 < |x.val| := by
        rcases h with h | h
        · exact abs_pos.2 h
        · exact lt_of_lt_of_le (abs_pos.2 h) hxy
      have z0 : 0 ≤ |y.val| / |x.val| := div_nonneg (abs_nonneg _) hx0.le
      have z1 : |y.val| / |x.val| ≤ 1 := (div_le_one hx0).2 hxy
      obtain ⟨t0, t1⟩ := arctan_unit z0 z1
      have hz := div_unit hay hax (by rw [abs_val]; exact abs_nonneg _) (by rwa [abs_val]) (by rw [abs_val, abs_val]; exact hxy) (by decide) (by decide)
      rw [abs_val, abs_val] at hz
      have ht := fastAtan_unit (hz.1.weaken (by norm_num [mb])) hz.2.1 hz.2.2
      exact ⟨t0, by linarith, ht.weaken (by norm_num)⟩
  -- the upper half plane
  have hth2 : Approx (if x < lit _ 0 0 then mPi - (if x.abs < y.abs then mPi2 - fastAtan (x.abs / y.abs) else fastAtan (y.abs / x.abs)) else
      (if x.abs < y.abs then mPi2 - fastAtan (x.abs / y.abs) else fastAtan (y.abs / x.abs))) (Complex.arg ⟨x.val, |y.val|⟩) (2 / 100000 + 40 / 2 ^ 54) := by
    rw [arg_upper h, ← ha]
    by_cases hxn : x.val < 0
    · rw [if_pos hxn, if_pos ((lt_zero hx).2 hxn)]
      exact mPi_approx.sub hth 3 (by decide) (by decide) hp.2.1 (W := 2) (by rw [abs_le]; constructor <;> linarith) (by norm_num) (by norm_num [mb])
    · rw [if_neg hxn, if_neg (fun h => hxn ((lt_zero hx).1 h))]
      exact hth.weaken (by norm_num)
  have hth3 := hth2.copysign (b := y) (Complex.arg_nonneg_iff.2 (abs_nonneg _))
  have he : fastAtan2 x y = copysign (if x < lit _ 0 0 then mPi - (if x.abs < y.abs then mPi2 - fastAtan (x.abs / y.abs) else fastAtan (y.abs / x.abs)) else
      (if x.abs < y.abs then mPi2 - fastAtan (x.abs / y.abs) else fastAtan (y.abs / x.abs))) y := by
    unfold fastAtan2
    by_cases hi : x.abs < y.abs <;> simp [hi]
  rw [he]
  exact ⟨hth3.1, hth3.2.trans_lt (by norm_num)⟩

theorem angle_eq {spec : Format} [Fmt spec] {x y : Fp spec} (h : y.val ≠ 0 ∨ sign y = .positive) : angle x y = Complex.arg ⟨x.val, y.val⟩ := by
  unfold angle
  have hs : y.val = sgn (sign y) * |y.val| := by
    unfold Fp.val sign
    cases hy : y.x with
    | finite s m e hm =>
      dsimp only [Ieee.val]
      rw [abs_mul, sgn_abs, one_mul, abs_of_nonneg (mul_nonneg (Nat.cast_nonneg _) (two_pow_pos e).le)]
    | _ => simp [Ieee.val]
  cases hb : sign y with
  | positive =>
    rw [hb] at hs
    simp only [sgn, one_mul] at hs ⊢
    rw [← hs]
  | negative =>
    rw [hb] at hs
    have hy : y.val ≠ 0 := by
      rcases h with h | h
      · exact h
      · rw [h] at hb; cases hb
    have hpos : 0 < |y.val| := abs_pos.2 hy
    have hc : (⟨x.val, y.val⟩ : ℂ) = (starRingEnd ℂ) ⟨x.val, |y.val|⟩ := by
      apply Complex.ext
      · simp
      · simp only [Complex.conj_im]
        rw [hs]
        simp [sgn]
    rw [hc, Complex.arg_conj, if_neg, sgn]
    · ring
    · intro hpi
      have := (Complex.arg_eq_pi_iff.1 hpi).2
      simp at this
      exact hy this

/-- C86, accuracy with respect to the argument of the complex number: the vector is not on the negative half of the axis with a negative zero. -/
theorem C86_atan2_arg (x y : Dbl) (hx : x.Fin) (hy : y.Fin) (h : x.val ≠ 0 ∨ y.val ≠ 0) (hs : y.val ≠ 0 ∨ sign y = .positive) :
    |(fastAtan2 x y).val - Complex.arg ⟨x.val, y.val⟩| < 2 / 100000 + 1 / 2 ^ 48 := by
  rw [← angle_eq hs]
  exact (C86_atan2 x y hx hy h).2

/-- C86, symmetry: for all doubles, infinite or NaN included, mirroring the vector negates the result, bit by bit. -/
theorem C86_atan2_odd (x y : Dbl) : fastAtan2 x (-y) = -fastAtan2 x y := by
  by_cases hy : y.NaN
  · have hn : ∀ y : Dbl, y.NaN → (fastAtan2 x y).NaN := by
      intro y hy
      unfold fastAtan2
      dsimp only
      rw [NaN.copysign]
      have h1 : ¬ x.abs < y.abs := NaN.not_lt (Or.inr (NaN.abs.2 hy))
      have h2 : (fastAtan (y.abs / x.abs)).NaN := NaN.mul (Or.inl (NaN.div (Or.inl (NaN.abs.2 hy))))
      simp only [h1, decide_false, Bool.false_eq_true, if_false]
      split
      · exact NaN.sub (Or.inr h2)
      · exact h2
    exact NaN.eq (hn _ (NaN.neg.2 hy)) (NaN.neg.2 (hn _ hy))
  · unfold fastAtan2
    dsimp only
    rw [Fp.abs_neg, copysign_neg hy]

/-- C86: the zero vector gives NaN, whatever the signs of the zeros. -/
theorem C86_atan2_zero (x y : Dbl) (hx : x.Fin) (hy : y.Fin) (hx0 : x.val = 0) (hy0 : y.val = 0) : (fastAtan2 x y).NaN := by
  have hz : ∀ {a : Dbl}, a.Fin → a.val = 0 → a.abs.x = .zero .positive := by
    intro a ha h0
    rw [abs_x]
    unfold Fp.val at h0
    have : Ieee.Fin a.x := ha
    cases h : a.x with
    | zero s => rfl
    | finite s m e hm =>
      rw [h, Ieee.val] at h0
      have h1 : (m : ℝ) * 2 ^ e > 0 := mul_pos (by exact_mod_cast hm) (two_pow_pos e)
      cases s <;> simp only [sgn] at h0 <;> linarith
    | infinity s => rw [h] at this; cases this
    | notANumber => rw [h] at this; cases this
  have hi : ¬ x.abs < y.abs := by
    rw [lt_iff (abs_fin.2 hx) (abs_fin.2 hy), abs_val, abs_val, hx0, hy0]
    exact lt_irrefl _
  have hd : (y.abs / x.abs).NaN := by
    apply nan_ofU
    rw [hz hx hx0, hz hy hy0]
    rfl
  have h2 : (fastAtan (y.abs / x.abs)).NaN := NaN.mul (Or.inl hd)
  unfold fastAtan2
  dsimp only
  rw [NaN.copysign]
  simp only [hi, decide_false, Bool.false_eq_true, if_false]
  split
  · exact NaN.sub (Or.inr h2)
  · exact h2

theorem mPi_val : mPi.val = 884279719003555 / 2 ^ 48 ∧ mPi2.val = 884279719003555 / 2 ^ 49 := by
  have h1 : mPi.x = .finite .positive 7074237752028440 (-51) (by decide) := by decide +kernel
  have h2 : mPi2.x = .finite .positive 7074237752028440 (-52) (by decide) := by decide +kernel
  unfold Fp.val
  rw [h1, h2]
  simp only [Ieee.val, sgn]
  constructor <;> norm_num

/-- C86, range: the result has the sign of `y`, is at most M_PI (less than π), and at most or at least M_PI_2 according to the sign of `x`. -/
theorem C86_atan2_range (x y : Dbl) (hx : x.Fin) (hy : y.Fin) (h : x.val ≠ 0 ∨ y.val ≠ 0) :
    sign (fastAtan2 x y) = sign y ∧ |(fastAtan2 x y).val| ≤ mPi.val ∧ mPi.val < π ∧
    (0 ≤ x.val → |(fastAtan2 x y).val| ≤ mPi2.val) ∧ (x.val < 0 → mPi2.val ≤ |(fastAtan2 x y).val|) := by
  have hax : x.abs.Fin := abs_fin.2 hx
  have hay : y.abs.Fin := abs_fin.2 hy
  obtain ⟨p1, p2⟩ := mPi_val
  have hpp : mPi.val = 2 * mPi2.val := by rw [p1, p2]; norm_num
  have hp2 : 15 / 10 < mPi2.val ∧ mPi2.val < 16 / 10 := by rw [p2]; norm_num
  have hu : ∀ {a b : Dbl}, a.Fin → b.Fin → 0 ≤ a.val → 0 < b.val → a.val ≤ b.val → (fastAtan (a / b)).Fin ∧ 0 ≤ (fastAtan (a / b)).val ∧ (fastAtan (a / b)).val ≤ 1 := by
    intro a b ha hb h0 h1 h2
    have hz := div_unit ha hb h0 h1 h2 (by decide) (by decide)
    have ht := fastAtan_unit (hz.1.weaken (by norm_num [mb])) hz.2.1 hz.2.2
    refine ⟨ht.1, fastAtan_nonneg hz.1.1 hz.2.1 hz.2.2, ?_⟩
    have h3 := (arctan_unit (div_nonneg h0 h1.le) ((div_le_one h1).2 h2)).2
    have h4 := (abs_le.1 ht.2).2
    norm_num at h4
    linarith
  have hlt : x.abs < y.abs ↔ |x.val| < |y.val| := by rw [lt_iff hax hay, abs_val, abs_val]
  obtain ⟨t, ht, tf, t0, t1⟩ : ∃ t, t = (if x.abs < y.abs then mPi2 - fastAtan (x.abs / y.abs) else fastAtan (y.abs / x.abs)) ∧ t.Fin ∧ 0 ≤ t.val ∧ t.val ≤ mPi2.val := by
    refine ⟨_, rfl, ?_⟩
    by_cases hi : |x.val| < |y.val|
    · rw [if_pos (hlt.2 hi)]
      have hy0 : 0 < |y.val| := lt_of_le_of_lt (abs_nonneg _) hi
      obtain ⟨u0, u1, u2⟩ := hu hax hay (by rw [abs_val]; exact abs_nonneg _) (by rwa [abs_val]) (by rw [abs_val, abs_val]; exact hi.le)
      have hs := sub_is mPi2_approx.1 u0 (by
        refine le_trans ?_ (two_pow_le (j := 1) (by decide))
        rw [abs_le, zpow_one]
        constructor <;> linarith)
      refine ⟨hs.1, hs.2.mono_ge grid_zero (by linarith), hs.2.mono_le mPi2.grid (by linarith)⟩
    · rw [if_neg (fun h => hi (hlt.1 h))]
      have hxy := not_lt.1 hi
      have hx0 : 0 < |x.val| := by
        rcases h with h | h
        · exact abs_pos.2 h
        · exact lt_of_lt_of_le (abs_pos.2 h) hxy
      obtain ⟨u0, u1, u2⟩ := hu hay hax (by rw [abs_val]; exact abs_nonneg _) (by rwa [abs_val]) (by rw [abs_val, abs_val]; exact hxy)
      exact ⟨u0, u1, by linarith⟩
  obtain ⟨s, hs, sf, s0, s1, s2, s3⟩ : ∃ s, s = (if x < lit _ 0 0 then mPi - t else t) ∧ s.Fin ∧ 0 ≤ s.val ∧ s.val ≤ mPi.val ∧ (0 ≤ x.val → s.val ≤ mPi2.val) ∧
      (x.val < 0 → mPi2.val ≤ s.val) := by
    refine ⟨_, rfl, ?_⟩
    by_cases hxn : x.val < 0
    · rw [if_pos ((lt_zero hx).2 hxn)]
      have hs := sub_is mPi_approx.1 tf (by
        refine le_trans ?_ (two_pow_le (j := 2) (by decide))
        rw [abs_le]
        norm_num
        constructor <;> linarith)
      have h4 := hs.2.mono_ge mPi2.grid (by linarith)
      have h5 := hs.2.mono_le mPi.grid (by linarith)
      exact ⟨hs.1, le_trans (by linarith) h4, h5, fun h => absurd hxn (not_lt.2 h), fun _ => h4⟩
    · rw [if_neg (fun h => hxn ((lt_zero hx).1 h))]
      exact ⟨tf, t0, by linarith, fun _ => t1, fun h => absurd h hxn⟩
  have he : fastAtan2 x y = copysign s y := by
    rw [hs, ht]
    unfold fastAtan2
    by_cases hi : x.abs < y.abs <;> simp [hi]
  have hv : |(fastAtan2 x y).val| = s.val := by
    rw [he, copysign_val, abs_mul, sgn_abs, one_mul, abs_abs, abs_of_nonneg s0]
  rw [hv]
  refine ⟨?_, s1, ?_, s2, s3⟩
  · rw [he]
    have hsa : sign s.abs = .positive := by
      unfold sign
      rw [abs_x]
      cases s.x <;> rfl
    have hsn : ¬ s.abs.NaN := by
      rw [NaN.abs]
      intro h
      have : Ieee.Fin s.x := sf
      rw [show _ = _ from h] at this
      exact this
    unfold copysign
    cases hb : sign y
    · show sign (-s.abs) = _
      rw [sign_neg hsn, hsa]
      rfl
    · exact hsa
  · rw [p1]
    have := pi_gt_d20
    norm_num at this ⊢
    linarith

/-- Infinite. -/
def Inf {spec : Format} (a : Fp spec) : Prop := ∃ s, a.x = .infinity s

theorem abs_inf {a : Dbl} (h : Inf a) : a.abs.x = .infinity .positive := by
  obtain ⟨s, hs⟩ := h
  rw [abs_x, hs]
  rfl

theorem abs_cases {a : Dbl} (h : a.Fin) : a.abs.x = .zero .positive ∨ ∃ m e hm, a.abs.x = .finite .positive m e hm := by
  rw [abs_x]
  have : Ieee.Fin a.x := h
  cases h : a.x with
  | zero s => exact Or.inl rfl
  | finite s m e hm => exact Or.inr ⟨m, e, hm, rfl⟩
  | infinity s => rw [h] at this; cases this
  | notANumber => rw [h] at this; cases this

/-- C86: two infinite components give NaN. -/
theorem C86_atan2_inf (x y : Dbl) (hx : Inf x) (hy : Inf y) : (fastAtan2 x y).NaN := by
  have hi : ¬ x.abs < y.abs := by
    show ¬ (x.abs.x.lt y.abs.x = true)
    rw [abs_inf hx, abs_inf hy]
    decide
  have hd : (y.abs / x.abs).NaN := by
    apply nan_ofU
    rw [abs_inf hx, abs_inf hy]
    rfl
  have h2 : (fastAtan (y.abs / x.abs)).NaN := NaN.mul (Or.inl hd)
  unfold fastAtan2
  dsimp only
  rw [NaN.copysign]
  simp only [hi, decide_false, Bool.false_eq_true, if_false]
  split
  · exact NaN.sub (Or.inr h2)
  · exact h2

/-- C86: one infinite component gives the direction of its axis. -/
theorem C86_atan2_one_inf (x y : Dbl) : (Inf x → y.Fin → fastAtan2 x y = copysign (if sign x = .negative then mPi else d 0 1) y) ∧
    (x.Fin → Inf y → fastAtan2 x y = copysign mPi2 y) := by
  have hz : ∀ {a b : Dbl}, a.Fin → Inf b → a.abs / b.abs = ⟨.zero .positive, trivial⟩ := by
    intro a b ha hb
    apply ext
    show (ofU _ (UnpackedFloat.div _ a.abs.x b.abs.x)).x = _
    rw [abs_inf hb]
    rcases abs_cases ha with h | ⟨m, e, hm, h⟩ <;> rw [h]
    · exact congrArg Fp.x (ofU_repr (y := .zero .positive) trivial)
    · exact congrArg Fp.x (ofU_repr (y := .zero .positive) trivial)
  have h0 : fastAtan ⟨.zero .positive, trivial⟩ = ⟨.zero .positive, trivial⟩ := by decide +kernel
  constructor
  · intro hx hy
    have hi : ¬ x.abs < y.abs := by
      show ¬ (x.abs.x.lt y.abs.x = true)
      rw [abs_inf hx]
      rcases abs_cases hy with h | ⟨m, e, hm, h⟩ <;> rw [h] <;> simp [UnpackedFloat.lt, UnpackedFloat.compare]
    unfold fastAtan2
    dsimp only
    simp only [hi, decide_false, Bool.false_eq_true, if_false]
    rw [hz hy hx, h0]
    obtain ⟨s, hs⟩ := hx
    have h1 : x < lit _ 0 0 ↔ s = .negative := by
      have hl : lit Format.binary64 0 0 = ⟨.zero .positive, trivial⟩ := by decide +kernel
      rw [hl]
      show x.x.lt (.zero .positive) = true ↔ _
      rw [hs]
      cases s <;> simp [UnpackedFloat.lt, UnpackedFloat.compare]
    have h2 : sign x = s := by
      unfold sign
      rw [hs]
    have h3 : d 0 1 = ⟨.zero .positive, trivial⟩ := by decide +kernel
    have h4 : mPi - ⟨.zero .positive, trivial⟩ = mPi := by decide +kernel
    simp only [h1, h2, h3, h4]
  · intro hx hy
    have hi : x.abs < y.abs := by
      show x.abs.x.lt y.abs.x = true
      rw [abs_inf hy]
      rcases abs_cases hx with h | ⟨m, e, hm, h⟩ <;> rw [h] <;> rfl
    unfold fastAtan2
    dsimp only
    simp only [hi, decide_true, if_true]
    rw [hz hx hy, h0]
    have h4 : mPi2 - ⟨.zero .positive, trivial⟩ = mPi2 := by decide +kernel
    have h5 : mPi - mPi2 = mPi2 := by decide +kernel
    rw [h4, h5]
    congr 1
    split <;> rfl

/-- `fastAtan2` approximates `atan2` for all the doubles other than NaN. -/
def C86_statement : Prop := ∀ x y : Dbl, ¬ x.NaN → ¬ y.NaN → ¬ (fastAtan2 x y).NaN

/-- C86 fails at the zero vector and for two infinite components. -/
theorem C86_violated : ¬ C86_statement := by
  intro h
  exact h (d 0 1) (d 0 1) (by decide +kernel) (by decide +kernel) (by decide +kernel)

-- the vector (-3, -4): about -2.2143, against atan2(-4, -3) = -2.214297...
example : (fastAtan2 (-d 30 1) (-d 40 1)).x = .finite .negative 4986159296484632 (-51) (by decide) := by decide +kernel
-- a negative zero: -M_PI
example : fastAtan2 (-d 30 1) (-d 0 1) = -mPi := by decide +kernel
example : (d 30 1).Fin ∧ (fastAtan2 (d 0 1) (-d 0 1)).NaN := by decide +kernel

theorem fastAtanf_unit {z : Flt} {r : ℝ} (hz : Approx z r (1 / 2 ^ 25)) (h0 : 0 ≤ z.val) (h1 : z.val ≤ 1) : Approx (fastAtanf z) (arctan r) (2 / 100000 + 15 / 2 ^ 25) := by
  have ha : |z.val| ≤ 1 := by rw [abs_le]; constructor <;> linarith
  have := ((fastAtanf_approx hz.1 ha).trans (atan_real ha).le).trans ((arctan_lipschitz z.val r).trans hz.2)
  exact this.weaken (by norm_num)

/-- C89, accuracy: for all finite `float`s `x` and `y`, not both zero, the result is finite and differs from the angle of the vector (x, y) by less than 2.1e-5. -/
theorem C89_atan2f (x y : Flt) (hx : x.Fin) (hy : y.Fin) (h : x.val ≠ 0 ∨ y.val ≠ 0) :
    (fastAtan2f x y).Fin ∧ |(fastAtan2f x y).val - angle x y| < 21 / 1000000 := by
  have hp := pi_abs
  have hax : x.abs.Fin := abs_fin.2 hx
  have hay : y.abs.Fin := abs_fin.2 hy
  -- the first quadrant
  obtain ⟨a, ha, a0, a1, hth⟩ : ∃ a, a = (if |x.val| < |y.val| then π / 2 - arctan (|x.val| / |y.val|) else arctan (|y.val| / |x.val|)) ∧ 0 ≤ a ∧ a ≤ 2 ∧
      Approx (if x.abs < y.abs then conv (mPi2 - conv (fastAtanf (x.abs / y.abs))) else fastAtanf (y.abs / x.abs)) a (2 / 100000 + 18 / 2 ^ 25) := by
    refine ⟨_, rfl, ?_⟩
    have hlt : x.abs < y.abs ↔ |x.val| < |y.val| := by rw [lt_iff hax hay, abs_val, abs_val]
    by_cases hi : |x.val| < |y.val|
    · rw [if_pos hi, if_pos (hlt.2 hi)]
      have hy0 : 0 < |y.val| := lt_of_le_of_lt (abs_nonneg _) hi
      have z0 : 0 ≤ |x.val| / |y.val| := div_nonneg (abs_nonneg _) hy0.le
      have z1 : |x.val| / |y.val| ≤ 1 := (div_le_one hy0).2 hi.le
      obtain ⟨t0, t1⟩ := arctan_unit z0 z1
      have hz := div_unit hax hay (by rw [abs_val]; exact abs_nonneg _) (by rwa [abs_val]) (by rw [abs_val, abs_val]; exact hi.le) (by decide) (by decide)
      rw [abs_val, abs_val] at hz
      have ht := fastAtanf_unit (hz.1.weaken (by norm_num [mb])) hz.2.1 hz.2.2
      refine ⟨by linarith [arctan_lt_pi_div_two (|x.val| / |y.val|)], by linarith [(abs_le.1 hp.1).2], ?_⟩
      have ht' : Approx (conv (fastAtanf (x.abs / y.abs)) : Dbl) (arctan (|x.val| / |y.val|)) (2 / 100000 + 15 / 2 ^ 25 + 1 / 2 ^ 54) :=
        ht.conv 0 (by decide) (by decide) (V := 8 / 10) (by rw [abs_le]; constructor <;> linarith) (by norm_num) (by norm_num [mb])
      have hd := mPi2_approx.sub ht' (E := 2 / 100000 + 15 / 2 ^ 25 + 10 / 2 ^ 54) 2 (by decide) (by decide) hp.1 (W := 8 / 10)
        (by rw [abs_le]; constructor <;> linarith) (by norm_num) (by norm_num [mb])
      exact hd.conv 1 (by decide) (by decide) (V := 1571 / 1000) (by rw [abs_le]; constructor <;> linarith [pi_lt_d4, pi_gt_d4]) (by norm_num) (by norm_num [mb])
    · rw [if_neg hi, if_neg (fun h => hi (hlt.1 h))]
      have hxy := not_lt.1 hi
      have hx0 : 0 < |x.val| := by
        rcases h with h | h
        · exact abs_pos.2 h
        · exact lt_of_lt_of_le (abs_pos.2 h) hxy
      have z0 : 0 ≤ |y.val| / |x.val| := div_nonneg (abs_nonneg _) hx0.le
      have z1 : |y.val| / |x.val| ≤ 1 := (div_le_one hx0).2 hxy
      obtain ⟨t0, t1⟩ := arctan_unit z0 z1
      have hz := div_unit hay hax (by rw [abs_val]; exact abs_nonneg _) (by rwa [abs_val]) (by rw [abs_val, abs_val]; exact hxy) (by decide) (by decide)
      rw [abs_val, abs_val] at hz
      have ht := fastAtanf_unit (hz.1.weaken (by norm_num [mb])) hz.2.1 hz.2.2
      exact ⟨t0, by linarith, ht.weaken (by norm_num)⟩
  -- the upper half plane
  have hth2 : Approx (if x < lit _ 0 0 then conv (mPi - conv (if x.abs < y.abs then conv (mPi2 - conv (fastAtanf (x.abs / y.abs))) else fastAtanf (y.abs / x.abs))) else
      (if x.abs < y.abs then conv (mPi2 - conv (fastAtanf (x.abs / y.abs))) else fastAtanf (y.abs / x.abs))) (Complex.arg ⟨x.val, |y.val|⟩) (2 / 100000 + 23 / 2 ^ 25) := by
    rw [arg_upper h, ← ha]
    by_cases hxn : x.val < 0
    · rw [if_pos hxn, if_pos ((lt_zero hx).2 hxn)]
      have ht' := hth.conv (spec := .binary64) (E := 2 / 100000 + 18 / 2 ^ 25 + 4 / 2 ^ 54) 2 (by decide) (by decide) (V := 2) (by rw [abs_le]; constructor <;> linarith) (by norm_num)
        (by norm_num [mb])
      have hd := mPi_approx.sub ht' (E := 2 / 100000 + 18 / 2 ^ 25 + 20 / 2 ^ 54) 3 (by decide) (by decide) hp.2.1 (W := 2) (by rw [abs_le]; constructor <;> linarith)
        (by norm_num) (by norm_num [mb])
      exact hd.conv 2 (by decide) (by decide) (V := 32 / 10) (by rw [abs_le]; constructor <;> linarith [pi_lt_d4, pi_gt_d4]) (by norm_num) (by norm_num [mb])
    · rw [if_neg hxn, if_neg (fun h => hxn ((lt_zero hx).1 h))]
      exact hth.weaken (by norm_num)
  have hth3 := hth2.copysign (b := y) (Complex.arg_nonneg_iff.2 (abs_nonneg _))
  have he : fastAtan2f x y = copysign (if x < lit _ 0 0 then conv (mPi - conv (if x.abs < y.abs then conv (mPi2 - conv (fastAtanf (x.abs / y.abs))) else fastAtanf (y.abs / x.abs))) else
      (if x.abs < y.abs then conv (mPi2 - conv (fastAtanf (x.abs / y.abs))) else fastAtanf (y.abs / x.abs))) y := by
    unfold fastAtan2f
    by_cases hi : x.abs < y.abs <;> simp [hi]
  rw [he]
  exact ⟨hth3.1, hth3.2.trans_lt (by norm_num)⟩


/-- C89, accuracy of `fastAtanf`: less than 2.05e-5 for every `float` in [-1, 1]. -/
theorem C89_atanf (x : Flt) (hx : x.Fin) (h : |x.val| ≤ 1) : (fastAtanf x).Fin ∧ |(fastAtanf x).val - arctan x.val| < 205 / 10000000 := by
  have h1 := (fastAtanf_approx hx h).trans (atan_real h).le
  refine ⟨h1.1, h1.2.trans_lt ?_⟩
  norm_num

/-- C89, oddness of `fastAtanf`, bit by bit. -/
theorem C89_atanf_odd (x : Flt) : fastAtanf (-x) = -fastAtanf x := by
  unfold fastAtanf
  dsimp only
  rw [Fp.neg_mul x (-x), Fp.mul_neg, Fp.neg_neg, Fp.neg_mul]

/-- C89, range: at the vector (-1, 0) the result exceeds π, although the result is declared to be in [-M_PI, M_PI]. -/
theorem C89_range_violated : (fastAtan2f (-f 10 1) (f 0 1)).Fin ∧ π < (fastAtan2f (-f 10 1) (f 0 1)).val ∧ mPi.val < (fastAtan2f (-f 10 1) (f 0 1)).val := by
  have h1 : (fastAtan2f (-f 10 1) (f 0 1)).x = .finite .positive 13176795 (-22) (by decide) := by decide +kernel
  refine ⟨by unfold Fp.Fin; rw [h1]; trivial, ?_⟩
  rw [mPi_val.1]
  unfold Fp.val
  rw [h1]
  simp only [Ieee.val, sgn]
  have := pi_lt_d20
  norm_num at this ⊢
  linarith

-- the vector (-3, -4): about -2.21430...
example : (fastAtan2f (-f 30 1) (-f 40 1)).x = .finite .negative 9287445 (-22) (by decide) := by decide +kernel

end Verif.FunctionsFp
