import Verif.GisFp.Props
import Verif.FunctionsFp.LuCos

/-!
C118: `convertLatLonAltToECEF` of geometry/src/gis.cpp in `float` arithmetic.
-/
namespace Verif.GisFp
open Ieee Fp Float.Model FunctionsFp Geometry2Fp Real

theorem axisA_is : semiAxisA.Fin ∧ semiAxisA.val = 6378137 := by
  have h := val_finite (a := semiAxisA) (s := .positive) (m := 12756274) (e := -1) (h := by decide) (by decide +kernel)
  refine ⟨h.1, h.2.trans ?_⟩
  norm_num [sgn]

theorem ratio_is : axisRatio.Fin ∧ axisRatio.val = 16720965 / 16777216 := by
  have h := val_finite (a := axisRatio) (s := .positive) (m := 16720965) (e := -24) (h := by decide) (by decide +kernel)
  refine ⟨h.1, h.2.trans ?_⟩
  norm_num [sgn]

theorem ecc_is : eccentricity2.Fin ∧ eccentricity2.val = 1797009 / 268435456 := by
  have h := val_finite (a := eccentricity2) (s := .positive) (m := 14376072) (e := -31) (h := by decide) (by decide +kernel)
  refine ⟨h.1, h.2.trans ?_⟩
  norm_num [sgn]

theorem wide_approx {a : Flt} {v e : ℝ} (h : Approx a v e) : Approx (wide a) v e := by
  obtain ⟨w1, w2⟩ := wide_is h.1
  exact ⟨w1, by rw [w2]; exact h.2⟩

theorem sin_lip (a b : ℝ) : |Real.sin a - Real.sin b| ≤ |a - b| := abs_sin_sub_sin_le a b

/-- The trigonometric functions of the angles in degrees. -/
theorem trig_deg {T : Trig} (hT : Accurate T) {a : Flt} (ha : a.Fin) (h : |a.val| ≤ 180) :
    (Approx (T.cos (wide (rad a))) (Real.cos (a.val / 180 * π)) (1194 / 10 ^ 10) ∧ Approx (T.sin (wide (rad a))) (Real.sin (a.val / 180 * π)) (1194 / 10 ^ 10)) ∧
    Approx (T.cosf (rad a)) (Real.cos (a.val / 180 * π)) (2386 / 10 ^ 10) ∧ Approx (T.sinf (rad a)) (Real.sin (a.val / 180 * π)) (2386 / 10 ^ 10) := by
  obtain ⟨r1, r2⟩ := rad_bound ha h
  obtain ⟨w1, w2⟩ := wide_is r1
  have hr := (rad_is ha h).2
  have c := abs_cos_le_one (rad a).val
  have s := abs_sin_le_one (rad a).val
  have k1 := hT.cos _ w1 (by rw [w2]; linarith)
  have k2 := hT.sin _ w1 (by rw [w2]; linarith)
  rw [w2] at k1 k2
  have k3 := hT.cosf _ r1 (by linarith)
  have k4 := hT.sinf _ r1 (by linarith)
  refine ⟨⟨(k1.trans ((cos_lip _ _).trans hr)).weaken ?_, (k2.trans ((sin_lip _ _).trans hr)).weaken ?_⟩, (k3.trans ((cos_lip _ _).trans hr)).weaken ?_,
    (k4.trans ((sin_lip _ _).trans hr)).weaken ?_⟩ <;> norm_num <;> linarith

theorem sqrt_near {a v : ℝ} (ha : 1 / 2 ≤ a) (hv : 1 / 2 ≤ v) : |√a - √v| ≤ |a - v| := by
  have h1 : 1 / 2 ≤ √a := Real.le_sqrt_of_sq_le (by norm_num; linarith)
  have h2 : 1 / 2 ≤ √v := Real.le_sqrt_of_sq_le (by norm_num; linarith)
  have e : a - v = (√a - √v) * (√a + √v) := by
    have := Real.sq_sqrt (show 0 ≤ a by linarith)
    have := Real.sq_sqrt (show 0 ≤ v by linarith)
    nlinarith
  rw [e, abs_mul, abs_of_nonneg (show 0 ≤ √a + √v by linarith)]
  have := abs_nonneg (√a - √v)
  nlinarith

/-- The exact radius. -/
noncomputable def exactN (lat : ℝ) : ℝ := 6378137 / √(1 - 1797009 / 268435456 * Real.sin (lat / 180 * π) * Real.sin (lat / 180 * π))

theorem exactN_root (lat : ℝ) : let v := 1 - 1797009 / 268435456 * Real.sin (lat / 180 * π) * Real.sin (lat / 180 * π)
    993 / 1000 ≤ v ∧ v ≤ 1 ∧ 996 / 1000 ≤ √v ∧ √v ≤ 1 := by
  have h1 := sin_sq_le_one (lat / 180 * π)
  have h2 := sq_nonneg (Real.sin (lat / 180 * π))
  dsimp only
  have a1 : 993 / 1000 ≤ 1 - 1797009 / 268435456 * Real.sin (lat / 180 * π) * Real.sin (lat / 180 * π) := by nlinarith
  have a2 : 1 - 1797009 / 268435456 * Real.sin (lat / 180 * π) * Real.sin (lat / 180 * π) ≤ 1 := by nlinarith
  refine ⟨a1, a2, Real.le_sqrt_of_sq_le (by norm_num at a1 ⊢; linarith), ?_⟩
  rw [Real.sqrt_le_left (by norm_num)]
  norm_num at a2 ⊢
  linarith

theorem exactN_bounds (lat : ℝ) : 6378137 ≤ exactN lat ∧ exactN lat ≤ 6403800 := by
  obtain ⟨_, _, h3, h4⟩ := exactN_root lat
  unfold exactN
  generalize √(1 - 1797009 / 268435456 * Real.sin (lat / 180 * π) * Real.sin (lat / 180 * π)) = r at *
  constructor
  · rw [le_div_iff₀ (by linarith)]
    linarith
  · rw [div_le_iff₀ (by linarith)]
    linarith

/-- The radius `Nphi`. -/
theorem radius_is {T : Trig} (hT : Accurate T) {a : Flt} (ha : a.Fin) (h : |a.val| ≤ 180) : Approx (radius T (rad a)) (exactN a.val) (28 / 100) := by
  obtain ⟨⟨_, k2⟩, _, k4⟩ := trig_deg hT ha h
  have hs := abs_sin_le_one (a.val / 180 * π)
  obtain ⟨e1, e2⟩ := ecc_is
  have he : Approx (if T.dbl then wide eccentricity2 * T.sin (wide (rad a)) * T.sin (wide (rad a)) else wide (eccentricity2 * T.sinf (rad a) * T.sinf (rad a)))
      (1797009 / 268435456 * Real.sin (a.val / 180 * π) * Real.sin (a.val / 180 * π)) (4 / 10 ^ 9) := by
    have x0 := approx_self e1
    rw [e2] at x0
    have b0 : |(1797009 / 268435456 : ℝ)| ≤ 67 / 10 ^ 4 := by rw [abs_of_nonneg (by norm_num)]; norm_num
    have b1 : |1797009 / 268435456 * Real.sin (a.val / 180 * π)| ≤ 67 / 10 ^ 4 := by
      rw [abs_mul]
      have := abs_nonneg (Real.sin (a.val / 180 * π))
      calc _ ≤ 67 / 10 ^ 4 * (1 : ℝ) := mul_le_mul b0 hs this (by norm_num)
        _ = _ := by ring
    split
    · have x1 := (wide_approx x0).mul k2 (-7) (by decide) (by decide) b0 hs (E := 9 / 10 ^ 10) (by norm_num) (by norm_num [mb])
      exact x1.mul k2 (-7) (by decide) (by decide) b1 hs (E := 4 / 10 ^ 9) (by norm_num) (by norm_num [mb])
    · have x1 := x0.mul k4 (-7) (by decide) (by decide) b0 hs (E := 19 / 10 ^ 10) (by norm_num) (by norm_num [mb])
      exact wide_approx (x1.mul k4 (-7) (by decide) (by decide) b1 hs (E := 4 / 10 ^ 9) (by norm_num) (by norm_num [mb]))
  unfold radius
  dsimp only
  generalize (if T.dbl then wide eccentricity2 * T.sin (wide (rad a)) * T.sin (wide (rad a)) else wide (eccentricity2 * T.sinf (rad a) * T.sinf (rad a))) = e at *
  obtain ⟨v1, v2, v3, v4⟩ := exactN_root a.val
  have hN := exactN_bounds a.val
  unfold exactN at hN ⊢
  obtain ⟨o1, o2⟩ := one_is
  have x0 := approx_self o1
  rw [o2] at x0
  have x1 := x0.sub' he 1 (by decide) (by decide) (V := 1) (E := 41 / 10 ^ 10) (by
    rw [abs_le]
    constructor <;> linarith) (by norm_num) (by norm_num [mb])
  generalize 1 - 1797009 / 268435456 * Real.sin (a.val / 180 * π) * Real.sin (a.val / 180 * π) = v at *
  generalize d 10 1 - e = w at *
  have hw := abs_le.1 x1.2
  norm_num at hw
  have hw1 : 1 / 2 ≤ w.val := by linarith [hw.1]
  have hw2 : √w.val ≤ 2 := by
    rw [Real.sqrt_le_left (by norm_num)]
    linarith [hw.2]
  have hq := sqrt_is x1.1 (by linarith) (hw2.trans ((show (2 : ℝ) ≤ 2 ^ (1 : ℤ) by norm_num).trans (two_pow_le (by decide))))
  have x2 := hq.approx (v := √v) (e := 41 / 10 ^ 10) 1 (by decide) (by rw [abs_of_nonneg (Real.sqrt_nonneg _)]; norm_num; exact hw2) ((sqrt_near hw1 (by linarith)).trans x1.2)
  have x3 := x2.weaken (e' := 411 / 10 ^ 11) (by norm_num [mb])
  generalize Fp.sqrt w = r at *
  generalize √v = q at *
  have hr := abs_le.1 x3.2
  norm_num at hr
  have hr1 : 99 / 100 ≤ r.val := by linarith [hr.1]
  obtain ⟨A1, A2⟩ := axisA_is
  obtain ⟨W1, W2⟩ := wide_is A1
  rw [A2] at W2
  have hdiff : |6378137 / r.val - 6378137 / q| ≤ 27 / 1000 := by
    have : 6378137 / r.val - 6378137 / q = -(6378137 / (r.val * q)) * (r.val - q) := by
      have : r.val ≠ 0 := by linarith
      have : q ≠ 0 := by linarith
      field_simp
      ring
    rw [this, abs_mul, abs_neg, abs_of_nonneg (by apply div_nonneg (by norm_num) (mul_nonneg (by linarith) (by linarith)))]
    have h1 : 6378137 / (r.val * q) ≤ 6500000 := by
      rw [div_le_iff₀ (mul_pos (by linarith) (by linarith))]
      nlinarith
    calc _ ≤ 6500000 * (411 / 10 ^ 11 : ℝ) := mul_le_mul h1 x3.2 (abs_nonneg _) (by norm_num)
      _ ≤ _ := by norm_num
  have hd1 := abs_le.1 hdiff
  have hb : |6378137 / r.val| ≤ 2 ^ (23 : ℤ) := by
    rw [abs_le]
    norm_num
    constructor <;> linarith [hd1.1, hd1.2]
  have hd := div_is W1 x3.1 (by linarith) (by rw [W2]; exact hb.trans (two_pow_le (by decide)))
  rw [W2] at hd
  have x4 := hd.approx (v := 6378137 / q) (e := 27 / 1000) 23 (by decide) hb hdiff
  exact x4.conv (spec := .binary32) 23 (by decide) (by decide) (V := 6403800) (by rw [abs_le]; constructor <;> linarith [hN.1, hN.2]) (by norm_num [mb]) (by norm_num [mb])

/-- Full statement of C118: up to altitudes of 1000 km the coordinates differ from the exact ones (C78) by at most 5 m, and altitudes that differ by 10 cm have different
coordinates. -/
def C118_statement : Prop := ∀ T, Accurate T → ∀ lat lon alt alt' : Flt, lat.Fin → lon.Fin → alt.Fin → alt'.Fin → |lat.val| ≤ 180 → |lon.val| ≤ 180 → |alt.val| ≤ 1000000 →
  |alt'.val| ≤ 1000000 →
  (Approx (latLonAltToECEF T lat lon alt).1 (Gis.latLonAltToECEF Functions.Spec.real lat.val lon.val alt.val).1 5 ∧
    Approx (latLonAltToECEF T lat lon alt).2.1 (Gis.latLonAltToECEF Functions.Spec.real lat.val lon.val alt.val).2.1 5 ∧
    Approx (latLonAltToECEF T lat lon alt).2.2 (Gis.latLonAltToECEF Functions.Spec.real lat.val lon.val alt.val).2.2 5) ∧
  (1 / 10 ≤ |alt.val - alt'.val| → latLonAltToECEF T lat lon alt ≠ latLonAltToECEF T lat lon alt')

/-- C118, the part that holds: up to altitudes of 1000 km the coordinates differ from the exact ones (C78) by at most 5 m. -/
theorem C118_accuracy_partial {T : Trig} (hT : Accurate T) (lat lon alt : Flt) (h1 : lat.Fin) (h2 : lon.Fin) (h3 : alt.Fin) (b1 : |lat.val| ≤ 180) (b2 : |lon.val| ≤ 180)
    (b3 : |alt.val| ≤ 1000000) :
    Approx (latLonAltToECEF T lat lon alt).1 (Gis.latLonAltToECEF Functions.Spec.real lat.val lon.val alt.val).1 5 ∧
    Approx (latLonAltToECEF T lat lon alt).2.1 (Gis.latLonAltToECEF Functions.Spec.real lat.val lon.val alt.val).2.1 5 ∧
    Approx (latLonAltToECEF T lat lon alt).2.2 (Gis.latLonAltToECEF Functions.Spec.real lat.val lon.val alt.val).2.2 5 := by
  have hN := radius_is hT h1 b1
  have nb := exactN_bounds lat.val
  have hE : Gis.latLonAltToECEF Functions.Spec.real lat.val lon.val alt.val =
      ((exactN lat.val + alt.val) * Real.cos (lat.val / 180 * π) * Real.cos (lon.val / 180 * π), (exactN lat.val + alt.val) * Real.cos (lat.val / 180 * π) * Real.sin (lon.val / 180 * π),
        (16720965 / 16777216 * (16720965 / 16777216) * exactN lat.val + alt.val) * Real.sin (lat.val / 180 * π)) := by
    unfold Gis.latLonAltToECEF exactN Functions.Spec.real Gis.semiAxisA Gis.axisRatio Gis.eccentricity2
    rfl
  rw [hE]
  obtain ⟨⟨c1, s1⟩, c1f, s1f⟩ := trig_deg hT h1 b1
  obtain ⟨⟨c2, s2⟩, c2f, s2f⟩ := trig_deg hT h2 b2
  have ac1 := abs_cos_le_one (lat.val / 180 * π)
  have as1 := abs_sin_le_one (lat.val / 180 * π)
  have ac2 := abs_cos_le_one (lon.val / 180 * π)
  have as2 := abs_sin_le_one (lon.val / 180 * π)
  have aN : |exactN lat.val| ≤ 6403800 := by rw [abs_le]; constructor <;> linarith
  unfold latLonAltToECEF
  dsimp only
  generalize radius T (rad lat) = N at *
  generalize exactN lat.val = n at *
  -- the distance from the axis
  have p1 := hN.add (approx_self h3) 23 (by decide) (by decide) aN b3 (E := 54 / 100) (by norm_num) (by norm_num [mb])
  have ap1 : |n + alt.val| ≤ 7403800 := (abs_add_le _ _).trans (by linarith)
  -- the height
  have r0 := approx_self ratio_is.1
  rw [ratio_is.2] at r0
  have ar : |(16720965 / 16777216 : ℝ)| ≤ 997 / 1000 := by rw [abs_of_nonneg (by norm_num)]; norm_num
  have r1 := r0.mul r0 0 (by decide) (by decide) ar ar (E := 3 / 10 ^ 8) (by norm_num) (by norm_num [mb])
  have ar1 : |(16720965 / 16777216 * (16720965 / 16777216) : ℝ)| ≤ 994 / 1000 := by rw [abs_of_nonneg (by norm_num)]; norm_num
  have r2 := r1.mul hN 23 (by decide) (by decide) ar1 aN (E := 73 / 100) (by norm_num) (by norm_num [mb])
  have ar2 : |16720965 / 16777216 * (16720965 / 16777216) * n| ≤ 6400000 := by
    rw [abs_mul]
    calc _ ≤ 994 / 1000 * (6403800 : ℝ) := mul_le_mul ar1 aN (abs_nonneg _) (by norm_num)
      _ ≤ _ := by norm_num
  have r3 := r2.add (approx_self h3) 23 (by decide) (by decide) ar2 b3 (E := 99 / 100) (by norm_num) (by norm_num [mb])
  have ar3 : |16720965 / 16777216 * (16720965 / 16777216) * n + alt.val| ≤ 7403800 := (abs_add_le _ _).trans (by linarith)
  -- a product with a number up to 1
  have pr : ∀ {x y : ℝ}, |x| ≤ 7403800 → |y| ≤ 1 → |x * y| ≤ 7403800 := fun {x y} hx hy => by
    rw [abs_mul]
    calc _ ≤ 7403800 * (1 : ℝ) := mul_le_mul hx hy (abs_nonneg _) (by norm_num)
      _ = _ := by ring
  split
  · have q := (wide_approx p1).mul c1 23 (by decide) (by decide) ap1 ac1 (E := 15 / 10) (by norm_num) (by norm_num [mb])
    have qx := q.mul c2 23 (by decide) (by decide) (pr ap1 ac1) ac2 (E := 3) (by norm_num) (by norm_num [mb])
    have qy := q.mul s2 23 (by decide) (by decide) (pr ap1 ac1) as2 (E := 3) (by norm_num) (by norm_num [mb])
    have qz := (wide_approx r3).mul s1 23 (by decide) (by decide) ar3 as1 (E := 3) (by norm_num) (by norm_num [mb])
    exact ⟨qx.conv (spec := .binary32) 23 (by decide) (by decide) (pr (pr ap1 ac1) ac2) (by norm_num) (by norm_num [mb]),
      qy.conv (spec := .binary32) 23 (by decide) (by decide) (pr (pr ap1 ac1) as2) (by norm_num) (by norm_num [mb]),
      qz.conv (spec := .binary32) 23 (by decide) (by decide) (pr ar3 as1) (by norm_num) (by norm_num [mb])⟩
  · have q := p1.mul c1f 23 (by decide) (by decide) ap1 ac1 (E := 26 / 10) (by norm_num) (by norm_num [mb])
    exact ⟨q.mul c2f 23 (by decide) (by decide) (pr ap1 ac1) ac2 (by norm_num) (by norm_num [mb]), q.mul s2f 23 (by decide) (by decide) (pr ap1 ac1) as2 (by norm_num) (by norm_num [mb]),
      r3.mul s1f 23 (by decide) (by decide) ar3 as1 (by norm_num) (by norm_num [mb])⟩

/-- Positive numbers with the same value are equal. -/
theorem eq_of_val {a b : Flt} (h0 : 0 < a.val) (h : a.val = b.val) : a = b := by
  have ca := a.canon
  have cb := b.canon
  have hb0 : 0 < b.val := h ▸ h0
  apply Fp.ext
  unfold Fp.val at *
  generalize a.x = x at *
  generalize b.x = y at *
  have pos : ∀ {z : UnpackedFloat}, 0 < Ieee.val z → ∃ m e hm, z = .finite .positive m e hm := by
    intro z hz
    cases z with
    | finite s m e hm =>
      cases s with
      | positive => exact ⟨m, e, hm, rfl⟩
      | negative =>
        exfalso
        simp only [Ieee.val, sgn] at hz
        have : (0 : ℝ) ≤ m * 2 ^ e := mul_nonneg (by positivity) (two_pow_pos e).le
        linarith
    | zero s => exact absurd hz (by simp [Ieee.val])
    | infinity s => exact absurd hz (by simp [Ieee.val])
    | notANumber => exact absurd hz (by simp [Ieee.val])
  obtain ⟨m, e, hm, rfl⟩ := pos h0
  obtain ⟨m', e', hm', rfl⟩ := pos hb0
  have hc := mag_compare ca cb
  have hv : (m : ℝ) * 2 ^ e = m' * 2 ^ e' := by simpa [Ieee.val, sgn] using h
  rw [hv, compare_eq_iff_eq.2 rfl] at hc
  rw [Ordering.then_eq_eq, compare_eq_iff_eq, compare_eq_iff_eq] at hc
  obtain ⟨rfl, rfl⟩ := hc
  rfl

/-- From 2^22 on the numbers in `float` are multiples of 1/2. -/
theorem half_multiple {y : Flt} (h1 : 2 ^ 22 ≤ y.val) : ∃ n : ℤ, y.val = n / 2 := by
  obtain ⟨q, u, hq, hu, he⟩ := y.grid
  have hP := two_pow_pos u
  rw [mb.2] at hq
  rw [he] at h1
  have hu' : -2 ≤ u := by
    by_contra hc
    have h3 : (2 : ℝ) ^ u ≤ 2 ^ (-3 : ℤ) := two_pow_le (by omega)
    have h4 : (q : ℝ) * 2 ^ u ≤ 2 ^ (24 : ℤ) * 2 ^ (-3 : ℤ) := mul_le_mul ((le_abs_self _).trans hq) h3 hP.le (two_pow_pos _).le
    norm_num at h4 h1
    linarith
  rcases eq_or_lt_of_le hu' with hu'' | hu''
  · subst hu''
    have h3 : (2 : ℝ) ^ 24 ≤ (q : ℝ) := by
      norm_num at h1 ⊢
      linarith
    have h4 : (q : ℝ) = 2 ^ 24 := le_antisymm ((le_abs_self _).trans (hq.trans (by norm_num))) h3
    exact ⟨2 ^ 23, by rw [he, h4]; norm_num⟩
  · refine ⟨q * 2 ^ (u + 1).toNat, ?_⟩
    have e : (2 : ℝ) ^ u = 2 ^ (u + 1).toNat / 2 := by
      rw [← zpow_natCast, Int.toNat_of_nonneg (by omega), two_pow_add]
      norm_num
    rw [he, e]
    push_cast
    ring

/-- The sum of a large and a small number. -/
theorem absorb {a b : Flt} (ha : a.Fin) (hb : b.Fin) (h1 : 5000000 ≤ a.val) (h2 : a.val ≤ 8000000) (h : |b.val| < 1 / 4) : a + b = a := by
  have hb' := abs_lt.1 h
  have hs := add_is ha hb (by
    refine le_trans (?_ : _ ≤ (2 : ℝ) ^ (24 : ℤ)) (two_pow_le (by decide))
    rw [abs_le]
    norm_num
    constructor <;> linarith)
  have hn : |(a + b).val - (a.val + b.val)| ≤ |a.val - (a.val + b.val)| := hs.2.nearest Fmt.good a.grid
  rw [show a.val - (a.val + b.val) = -b.val by ring, abs_neg] at hn
  have hn' := abs_le.1 hn
  have h3 : |(a + b).val - a.val| < 1 / 2 := by
    rw [abs_lt]
    constructor <;> linarith
  have h3' := abs_lt.1 h3
  obtain ⟨m, hm⟩ := half_multiple (y := a) (by norm_num; linarith)
  obtain ⟨n, hn⟩ := half_multiple (y := a + b) (by norm_num; linarith)
  have hmn : n = m := by
    rw [hm, hn] at h3'
    have e1 : (n : ℝ) < m + 1 := by linarith
    have e2 : (m : ℝ) < n + 1 := by linarith
    have e1' : n < m + 1 := by exact_mod_cast e1
    have e2' : m < n + 1 := by exact_mod_cast e2
    omega
  refine eq_of_val (by linarith) ?_
  rw [hm, hn, hmn]

/-- Altitudes below 0.25 m in absolute value have no effect, at all latitudes and longitudes. -/
theorem C118_altitude_violated {T : Trig} (hT : Accurate T) (lat lon alt alt' : Flt) (h1 : lat.Fin) (b1 : |lat.val| ≤ 180) (h3 : alt.Fin) (h3' : alt'.Fin) (b3 : |alt.val| < 1 / 4)
    (b3' : |alt'.val| < 1 / 4) : latLonAltToECEF T lat lon alt = latLonAltToECEF T lat lon alt' := by
  have hN := radius_is hT h1 b1
  have nb := exactN_bounds lat.val
  have hv := abs_le.1 hN.2
  have aN : |exactN lat.val| ≤ 6403800 := by rw [abs_le]; constructor <;> linarith
  have r0 := approx_self ratio_is.1
  rw [ratio_is.2] at r0
  have ar : |(16720965 / 16777216 : ℝ)| ≤ 997 / 1000 := by rw [abs_of_nonneg (by norm_num)]; norm_num
  have r1 := r0.mul r0 0 (by decide) (by decide) ar ar (E := 3 / 10 ^ 8) (by norm_num) (by norm_num [mb])
  have ar1 : |(16720965 / 16777216 * (16720965 / 16777216) : ℝ)| ≤ 994 / 1000 := by rw [abs_of_nonneg (by norm_num)]; norm_num
  have r2 := r1.mul hN 23 (by decide) (by decide) ar1 aN (E := 73 / 100) (by norm_num) (by norm_num [mb])
  have hr := abs_le.1 r2.2
  unfold latLonAltToECEF
  dsimp only
  generalize radius T (rad lat) = N at *
  have e : ∀ c : Flt, c.Fin → |c.val| < 1 / 4 → N + c = N ∧ axisRatio * axisRatio * N + c = axisRatio * axisRatio * N := by
    intro c hc hc'
    refine ⟨absorb hN.1 hc (by linarith) (by linarith) hc', absorb r2.1 hc ?_ ?_ hc'⟩
    · norm_num at hr ⊢
      linarith
    · norm_num at hr ⊢
      linarith
  rw [(e alt h3 b3).1, (e alt h3 b3).2, (e alt' h3' b3').1, (e alt' h3' b3').2]

theorem fifth_is : Approx (f 2 1) (1 / 5) (1 / 10 ^ 3) := by
  have := approx_lit (spec := .binary32) (m := 2) (k := 1) 0 (by norm_num) (by norm_num) (by decide) (by decide) (by decide) (by norm_num)
  norm_num [mb] at this
  exact this.weaken (by norm_num)

theorem C118_violated : ¬ C118_statement := by
  intro h
  obtain ⟨T, _, hT⟩ := accurate_exists true
  have h5 := abs_le.1 fifth_is.2
  norm_num at h5
  have z : ((0 : Flt)).Fin ∧ ((0 : Flt)).val = 0 := zero_is
  refine (h T hT 0 0 0 (f 2 1) z.1 z.1 z.1 fifth_is.1 ?_ ?_ ?_ ?_).2 ?_ ?_
  any_goals rw [z.2, abs_zero]; norm_num
  · rw [abs_le]
    constructor <;> linarith
  · rw [z.2, zero_sub, abs_neg]
    exact (by linarith : (1 / 10 : ℝ) ≤ _).trans (le_abs_self _)
  · refine C118_altitude_violated hT 0 0 0 (f 2 1) z.1 ?_ z.1 fifth_is.1 ?_ ?_
    · rw [z.2, abs_zero]; norm_num
    · rw [z.2, abs_zero]; norm_num
    · rw [abs_lt]
      constructor <;> linarith

-- the point of latitude 45 and longitude 9 at sea level, with any accurate library: the exact coordinates are 4461971.83…, 706706.91…, 4487348.31…
example {T : Trig} (hT : Accurate T) : Approx (latLonAltToECEF T (f 450 1) (f 90 1) (f 0 1)).2.2 (6378137 * (16720965 / 16777216) ^ 2 / √(1 - 1797009 / 268435456 / 2) * (√2 / 2)) 5 := by
  have v1 : (f 450 1).Fin ∧ (f 450 1).val = 45 := by
    have h := val_finite (a := f 450 1) (s := .positive) (m := 11796480) (e := -18) (h := by decide) (by decide +kernel)
    exact ⟨h.1, h.2.trans (by norm_num [sgn])⟩
  have v2 : (f 90 1).Fin ∧ (f 90 1).val = 9 := by
    have h := val_finite (a := f 90 1) (s := .positive) (m := 9437184) (e := -20) (h := by decide) (by decide +kernel)
    exact ⟨h.1, h.2.trans (by norm_num [sgn])⟩
  have z : (f 0 1).Fin ∧ (f 0 1).val = 0 := ⟨by decide +kernel, by rw [show f 0 1 = 0 by decide +kernel]; rfl⟩
  have h := (C118_accuracy_partial hT (f 450 1) (f 90 1) (f 0 1) v1.1 v2.1 z.1 (by rw [v1.2, abs_of_pos] <;> norm_num) (by rw [v2.2, abs_of_pos] <;> norm_num)
    (by rw [z.2, abs_zero]; norm_num)).2.2
  have e : (Gis.latLonAltToECEF Functions.Spec.real (f 450 1).val (f 90 1).val (f 0 1).val).2.2 =
      6378137 * (16720965 / 16777216) ^ 2 / √(1 - 1797009 / 268435456 / 2) * (√2 / 2) := by
    rw [v1.2, z.2]
    unfold Gis.latLonAltToECEF Functions.Spec.real Gis.semiAxisA Gis.axisRatio Gis.eccentricity2
    dsimp only
    rw [show (45 : ℝ) / 180 * π = π / 4 by ring, sin_pi_div_four]
    have : (1797009 / 268435456 : ℝ) * (√2 / 2) * (√2 / 2) = 1797009 / 268435456 / 2 := by
      have := Real.mul_self_sqrt (show (0 : ℝ) ≤ 2 by norm_num)
      linear_combination (1797009 / 268435456 / 4) * this
    rw [this]
    ring
  rwa [e] at h

end Verif.GisFp
