import Verif.FunctionsFp.LutValues

/-! One iteration of the loop of `init` of the look-up table in `double` arithmetic. -/
namespace Verif.FunctionsFp
open Verif Ieee Fp Float.Model

attribute [local irreducible] derivMax

/-! ### Real numbers -/

/-- From 3.75 on, a step of 7e-8 of the argument makes the function drop by 1e-8 of its value. -/
theorem drop_far {x x' : ℝ} (h0 : 15 / 4 ≤ x) (h : x * (1 + 7 / 100000000) ≤ x') : 1 / 100000000 * Bessel.pnebi 0 x ≤ Bessel.pnebi 0 x - Bessel.pnebi 0 x' := by
  obtain ⟨z, hz⟩ : ∃ z, z = x * (1 + 7 / 100000000) := ⟨_, rfl⟩
  rw [← hz] at h
  have hxz : x ≤ z := by rw [hz]; linarith
  have a := (Bessel.pnebi_drop hxz).1
  have b := Bessel.slope_lower (h0.trans hxz)
  have c := Bessel.pnebi_zero_anti (by linarith) h
  have hzp : 0 < z := by linarith
  have p := Bessel.pnebi_pos 0 hzp
  have e : Bessel.pnebi 0 z * (3 / 100000000) ≤ Bessel.pnebi 0 z / (2 * z) * (z - x) := by
    rw [div_mul_eq_mul_div, le_div_iff₀ (by linarith)]
    have : 3 / 100000000 * (2 * z) ≤ z - x := by rw [hz]; linarith
    calc Bessel.pnebi 0 z * (3 / 100000000) * (2 * z) = Bessel.pnebi 0 z * (3 / 100000000 * (2 * z)) := by ring
      _ ≤ _ := mul_le_mul_of_nonneg_left this p.le
  have f := mul_le_mul_of_nonneg_right b (show 0 ≤ z - x by linarith)
  linarith

/-- The drop of the computed values is nearly at least the one of the exact function. -/
theorem drop_values {x x' D tol δ u v : ℝ} (h0 : 0 ≤ x) (ht : 2 / 1000000 ≤ tol) (hD : D * δ = tol) (hδ : 0 < δ) (hδ2 : δ ≤ 201 / 100) (hp : δ * x ≤ 25)
    (hx : |x' - x - D| ≤ 1 / 100000000 * D) (hup : 3 ≤ x → x ≤ 15 / 4 → δ ≤ 1 / 10) (hu : |u - poly x| ≤ 3 / 10 ^ 12 * poly x) (hv : |v - poly x'| ≤ 3 / 10 ^ 12 * poly x') :
    983 / 1000 * (Bessel.pnebi 0 x - Bessel.pnebi 0 x') ≤ u - v := by
  have D0 : 0 < D := by
    by_contra hc
    have : D * δ ≤ 0 := mul_nonpos_of_nonpos_of_nonneg (not_lt.1 hc) hδ.le
    linarith
  have x1 := abs_le.1 hx
  have hxx : x ≤ x' := by linarith
  have hx'0 : 0 ≤ x' := by linarith
  have Dl : 99 / 100000000 ≤ D := by nlinarith
  obtain ⟨d1, d2⟩ := Bessel.poly_drop h0 hxx
  have d1' : 999 / 1000 * (Bessel.pnebi 0 x - Bessel.pnebi 0 x') - 1 / 100000000 ≤ poly x - poly x' := d1
  have a1 := abs_le.1 (poly_exact h0)
  have a2 := abs_le.1 (poly_exact hx'0)
  have f1 := Bessel.pnebi_zero_anti h0 hxx
  have f2 := Bessel.pnebi_zero_le h0
  have u1 := abs_le.1 hu
  have v1 := abs_le.1 hv
  have noise : poly x - poly x' - 7 / 10 ^ 12 * Bessel.pnebi 0 x ≤ u - v := by
    norm_num at u1 v1 ⊢
    linarith
  by_cases hc : 15 / 4 ≤ x
  · have d3 : 999 / 1000 * (Bessel.pnebi 0 x - Bessel.pnebi 0 x') ≤ poly x - poly x' := d2 (Or.inr hc)
    have hstep : x * (1 + 7 / 100000000) ≤ x' := by
      have h1 : δ * x ≤ 12500000 * (D * δ) := by rw [hD]; linarith
      have h2 : x ≤ 12500000 * D := by
        by_contra h3
        have := mul_lt_mul_of_pos_left (not_le.1 h3) hδ
        linarith
      linarith
    have := drop_far hc hstep
    norm_num at noise
    linarith
  · rw [not_le] at hc
    rcases lt_or_ge x' (15 / 4) with h1 | h1
    · have d3 : 999 / 1000 * (Bessel.pnebi 0 x - Bessel.pnebi 0 x') ≤ poly x - poly x' := d2 (Or.inl h1)
      have a := (Bessel.pnebi_drop hxx).1
      have b := Bessel.slope_start.trans (Bessel.pnebi_slope_anti h1.le)
      have : 6 / 100 * (9 / 10000000) ≤ (Bessel.pnebi 0 x' - Bessel.pnebi 1 x') * (x' - x) := mul_le_mul b (by linarith) (by norm_num) (by linarith)
      norm_num at noise
      linarith
    · have key : 9 / 10000000 ≤ Bessel.pnebi 0 x - Bessel.pnebi 0 x' := by
        rcases lt_or_ge x 3 with h3 | h3
        · have a := (Bessel.pnebi_drop hc.le).1
          have b := Bessel.pnebi_zero_anti (by norm_num) h1
          have c := Bessel.slope_start
          nlinarith
        · have hu := hup h3 hc.le
          have hD2 : 19 / 1000000 ≤ x' - x := by nlinarith
          have a := (Bessel.pnebi_drop (show x ≤ x + 19 / 1000000 by linarith)).1
          have b := Bessel.pnebi_zero_anti (x := x + 19 / 1000000) (y := x') (by linarith) (by linarith)
          have c := Bessel.slope_four.trans (Bessel.pnebi_slope_anti (show x + 19 / 1000000 ≤ 4 by linarith))
          rw [add_sub_cancel_left] at a
          linarith
      norm_num at noise
      linarith

/-- The drop of the computed values, from above. -/
theorem drop_upper {x x' D tol δ u v : ℝ} (h0 : 0 ≤ x) (ht : 2 / 1000000 ≤ tol) (hD : D * δ = tol) (hδ : 0 < δ) (hδ2 : δ ≤ 201 / 100) (hp : δ * x ≤ 25)
    (hx : |x' - x - D| ≤ 1 / 100000000 * D) (h10 : 10 ≤ x') (hu : |u - poly x| ≤ 3 / 10 ^ 12 * poly x) (hv : |v - poly x'| ≤ 3 / 10 ^ 12 * poly x') : (u - v) * x' ≤ 20 * D := by
  have D0 : 0 < D := by
    by_contra hc
    have : D * δ ≤ 0 := mul_nonpos_of_nonpos_of_nonneg (not_lt.1 hc) hδ.le
    linarith
  have x1 := abs_le.1 hx
  have hxx : x ≤ x' := by linarith
  have hx'0 : 0 ≤ x' := by linarith
  have a1 := abs_le.1 (poly_exact h0)
  have a2 := abs_le.1 (poly_exact hx'0)
  have f1 := Bessel.pnebi_zero_anti h0 hxx
  have f2 := Bessel.pnebi_zero_le h0
  have p' := Bessel.pnebi_pos 0 (show 0 < x' by linarith)
  have u1 := abs_le.1 hu
  have v1 := abs_le.1 hv
  have noise : u - v ≤ Bessel.pnebi 0 x - Bessel.pnebi 0 x' + 102 / 100000000 * Bessel.pnebi 0 x := by
    norm_num at u1 v1 ⊢
    linarith
  rcases le_or_gt (2 * x) x' with h | h
  · have h1 : x' ≤ 201 / 100 * D := by linarith
    have h2 : u - v ≤ 201 / 100 := by linarith
    rcases le_or_gt (u - v) 0 with h3 | h3
    · have := mul_nonpos_of_nonpos_of_nonneg h3 hx'0
      linarith
    · have := mul_le_mul h2 h1 hx'0 (by norm_num)
      linarith
  · have hx5 : 5 ≤ x := by linarith
    have h2 : x ≤ 12500000 * D := by
      have h1 : δ * x ≤ 12500000 * (D * δ) := by rw [hD]; linarith
      by_contra h3
      have := mul_lt_mul_of_pos_left (not_le.1 h3) hδ
      linarith
    have g1 : Bessel.pnebi 0 x ≤ 416 / 1000 := by
      refine (Bessel.pnebi_zero_anti (by norm_num) hx5).trans ?_
      rw [Bessel.pnebi_gB (by norm_num)]
      have hg := Bessel.gB_le (x := 5) (by norm_num)
      have hs : 2 ≤ √(5 : ℝ) := by
        rw [show (2 : ℝ) = √4 by rw [show (4 : ℝ) = 2 ^ 2 by norm_num]; exact (Real.sqrt_sq (by norm_num)).symm]
        exact Real.sqrt_le_sqrt (by norm_num)
      rw [div_le_iff₀ (by linarith)]
      linarith
    have s1 := (Bessel.pnebi_drop h0).1
    have s2 := (Bessel.pnebi_drop hxx).2
    have s0 := Bessel.pnebi_slope_nonneg x
    rw [Bessel.pnebi_at_zero, if_pos rfl, sub_zero] at s1
    have px := Bessel.pnebi_pos 0 (show 0 < x by linarith)
    have k1 : (Bessel.pnebi 0 x - Bessel.pnebi 1 x) * (x' - x) * x' ≤ 41 / 10 * D := by
      have b1 : (Bessel.pnebi 0 x - Bessel.pnebi 1 x) * x' ≤ 4 := by nlinarith
      have b2 : (Bessel.pnebi 0 x - Bessel.pnebi 1 x) * (x' - x) * x' = (Bessel.pnebi 0 x - Bessel.pnebi 1 x) * x' * (x' - x) := by ring
      rw [b2]
      have := mul_le_mul_of_nonneg_right b1 (show 0 ≤ x' - x by linarith)
      linarith
    have k2 : 102 / 100000000 * Bessel.pnebi 0 x * x' ≤ 11 * D := by
      have := mul_le_mul (show 102 / 100000000 * Bessel.pnebi 0 x ≤ 102 / 100000000 * (416 / 1000) by linarith) (show x' ≤ 25000000 * D by linarith) hx'0 (by norm_num)
      linarith
    have k3 := mul_le_mul_of_nonneg_right (noise.trans (add_le_add_left s2 _)) hx'0
    rw [add_mul] at k3
    linarith

/-! ### Floating point numbers -/

/-- The absolute value of the limit of the derivative. -/
noncomputable def cap : ℝ := 10 * 2 ^ (-1022 : ℤ)

/-- Half the smallest positive number. -/
noncomputable def halfMin : ℝ := 2 ^ (-1075 : ℤ)

theorem cap_pos : 0 < cap := by unfold cap; positivity
theorem halfMin_pos : 0 < halfMin := by unfold halfMin; positivity

theorem cap_small : cap ≤ 1 / 1000000 := by
  unfold cap
  have : (2 : ℝ) ^ (-1022 : ℤ) ≤ 2 ^ (-30 : ℤ) := two_pow_le (by norm_num)
  calc (10 : ℝ) * 2 ^ (-1022 : ℤ) ≤ 10 * 2 ^ (-30 : ℤ) := by linarith
    _ ≤ _ := by norm_num

theorem tiny_le : halfMin ≤ 1 / 10 ^ 12 * cap := by
  unfold cap halfMin
  calc (2 : ℝ) ^ (-1075 : ℤ) ≤ 2 ^ (-50 + -1022 : ℤ) := two_pow_le (by norm_num)
    _ = 2 ^ (-50 : ℤ) * 2 ^ (-1022 : ℤ) := two_pow_add _ _
    _ ≤ 1 / 10 ^ 12 * 2 ^ (-1022 : ℤ) := mul_le_mul_of_nonneg_right (by norm_num) (two_pow_pos _).le
    _ ≤ _ := mul_le_mul_of_nonneg_left (by have := two_pow_pos (-1022); linarith) (by norm_num)

theorem cap_top {v : ℝ} (h0 : 0 ≤ v) (h : cap * v ≤ 20) : |v| ≤ 2 ^ top Format.binary64 := by
  rw [abs_of_nonneg h0, show top Format.binary64 = 1 - (-1022) from rfl, two_pow_sub, zpow_one, le_div_iff₀ (two_pow_pos _)]
  unfold cap at h
  nlinarith

theorem round_err {a : Dbl} {b : ℝ} (h : a.Is b) : |a.val - b| ≤ ulp * |b| + halfMin := by
  have hu := ulp_pos
  have ht := halfMin_pos
  rcases h.2.rel with h1 | h1
  · rw [mb.1] at h1
    have e : |b| / 2 ^ (53 : ℤ) = ulp * |b| := by
      unfold ulp
      rw [show (2 : ℝ) ^ (53 : ℤ) = 2 ^ 53 by norm_cast]
      ring
    rw [e] at h1
    exact (le_of_eq_of_le rfl h1).trans (by linarith)
  · have e : (2 : ℝ) ^ (Format.binary64.minExponent - 1) = halfMin := rfl
    rw [e] at h1
    have : 0 ≤ ulp * |b| := by positivity
    exact (le_of_eq_of_le rfl h1).trans (by linarith)

theorem limit_is : derivMax.Fin ∧ derivMax.val = -cap := by
  unfold cap
  exact derivMax_is

theorem stdMax_is {a b : Dbl} (ha : a.Fin) (hb : b.Fin) : (stdMax a b).Fin ∧ (stdMax a b).val = max a.val b.val := by
  unfold stdMax
  split_ifs with h
  · rw [lt_iff ha hb] at h
    exact ⟨hb, (max_eq_right h.le).symm⟩
  · rw [lt_iff ha hb, not_lt] at h
    exact ⟨ha, (max_eq_left h).symm⟩

theorem stdMin_is {a b : Dbl} (ha : a.Fin) (hb : b.Fin) : (stdMin a b).Fin ∧ (stdMin a b).val = min a.val b.val := by
  unfold stdMin
  split_ifs with h
  · rw [lt_iff hb ha] at h
    exact ⟨hb, (min_eq_right h.le).symm⟩
  · rw [lt_iff hb ha, not_lt] at h
    exact ⟨ha, (min_eq_left h).symm⟩

/-- What the loop of `init` maintains after `i` iterations: the derivative is nearly at least the slope at the last point, not too large before 3.75, and not too large for the point; the
points are not too large. -/
structure LInv (tol : ℝ) (i : ℕ) (x dv y0 : Dbl) : Prop where
  xfin : x.Fin
  dfin : dv.Fin
  yfin : y0.Fin
  start : (x.val = 0 ∧ dv.val = -2) ∨ (d 1 6).val ≤ x.val
  zero : |y0.val - poly x.val| ≤ 3 / 10 ^ 12 * poly x.val
  least : cap ≤ -dv.val
  size : -dv.val ≤ 201 / 100
  prod : -dv.val * x.val ≤ 25
  far : cap * x.val ≤ i * tol * (1 + 1 / 100000000)
  lower : 98 / 100 * slope x.val ≤ -dv.val
  upper : 3 ≤ x.val → x.val ≤ 15 / 4 → -dv.val ≤ 1 / 10

theorem LInv.nonneg {tol : ℝ} {i : ℕ} {x dv y0 : Dbl} (h : LInv tol i x dv y0) : 0 ≤ x.val := by
  rcases h.start with ⟨h, -⟩ | h
  · rw [h]
  · exact le_trans (by norm_num) (micro_is.2.1.trans h)

/-- The next point. -/
theorem LInv.move {tol : Dbl} (htf : tol.Fin) (ht : 2 / 1000000 ≤ tol.val) (ht1 : tol.val ≤ 1 / 2) {i : ℕ} (hi : (i + 1) * tol.val ≤ 13) {x dv y0 : Dbl} (h : LInv tol.val i x dv y0) {D : ℝ}
    (hD : D * -dv.val = tol.val) : (x - tol / dv).Fin ∧ |(x - tol / dv).val - x.val - D| ≤ 1 / 100000000 * D ∧ (d 1 6).val ≤ (x - tol / dv).val ∧
      cap * (x - tol / dv).val ≤ ((i + 1 : ℕ) : ℝ) * tol.val * (1 + 1 / 100000000) := by
  have hc := cap_pos
  have δ0 : 0 < -dv.val := hc.trans_le h.least
  have hx0 := h.nonneg
  have D0 : 0 < D := by
    by_contra h1
    have : D * -dv.val ≤ 0 := mul_nonpos_of_nonpos_of_nonneg (not_lt.1 h1) δ0.le
    linarith
  have hs := h.size
  have Dl : 99 / 100000000 ≤ D := by nlinarith
  have Dc : cap * D ≤ tol.val := by
    have := mul_le_mul_of_nonneg_left h.least D0.le
    linarith
  have hxD : x.val ≤ 12500000 * D := by
    have h1 := h.prod
    have h2 : -dv.val * x.val ≤ 12500000 * (D * -dv.val) := by rw [hD]; linarith
    by_contra h3
    have := mul_lt_mul_of_pos_left (not_le.1 h3) δ0
    linarith
  have e : tol.val / dv.val = -D := by
    rw [div_eq_iff (by linarith)]
    linarith
  have q := div_is htf h.dfin (by linarith) (by
    rw [e, abs_neg]
    exact cap_top D0.le (by linarith))
  rw [e] at q
  have hu := ulp_pos
  have hul : ulp ≤ 12 / 10 ^ 17 := by unfold ulp; norm_num
  have htn := tiny_le
  have hcs := cap_small
  have q1 := round_err q
  rw [abs_neg, abs_of_pos D0] at q1
  have uD : ulp * D ≤ 12 / 10 ^ 17 * D := mul_le_mul_of_nonneg_right hul D0.le
  have q2 := abs_le.1 q1
  have q3 : |(tol / dv).val + D| ≤ 1 / 10 ^ 10 * D := by
    rw [abs_le]
    norm_num at htn uD ⊢
    constructor <;> linarith
  have q4 := abs_le.1 q3
  have hfar := h.far
  have hsum : 0 ≤ x.val - (tol / dv).val := by norm_num at q4; linarith
  have hcs2 : cap * (x.val - (tol / dv).val) ≤ 20 := by
    have h1 : x.val - (tol / dv).val ≤ x.val + 2 * D := by norm_num at q4; linarith
    have h2 := mul_le_mul_of_nonneg_left h1 hc.le
    have h3 : (i : ℝ) * tol.val ≤ 13 := by linarith
    nlinarith
  have s := sub_is h.xfin q.1 (cap_top hsum hcs2)
  have s1 := round_err s
  rw [abs_of_nonneg hsum] at s1
  have uS : ulp * (x.val - (tol / dv).val) ≤ 12 / 10 ^ 17 * (12500002 * D) := mul_le_mul hul (by norm_num at q4; linarith) hsum (by norm_num)
  have s2 := abs_le.1 s1
  have res : |(x - tol / dv).val - x.val - D| ≤ 1 / 100000000 * D := by
    rw [abs_le]
    norm_num at uS htn q4 ⊢
    constructor <;> linarith
  have r1 := abs_le.1 res
  refine ⟨s.1, res, ?_, ?_⟩
  · rcases h.start with ⟨z1, z2⟩ | z
    · have hDt : D = tol.val / 2 := by rw [z2] at hD; linarith
      have m1 : -(d 1 6).val ≥ (tol / dv).val := by
        rw [← neg_val]
        refine q.2.mono_le (-d 1 6).grid ?_
        rw [neg_val, hDt]
        have := micro_is.2.2
        linarith
      refine s.2.mono_ge (d 1 6).grid ?_
      rw [z1]
      linarith
    · linarith
  · have h1 := mul_le_mul_of_nonneg_left (show (x - tol / dv).val ≤ x.val + (1 + 1 / 100000000) * D by linarith) hc.le
    push_cast
    nlinarith

/-- The quotient of the drop of the values and the step. -/
theorem ratio_is {tol dv a b : Dbl} (htf : tol.Fin) (ht : 2 / 1000000 ≤ tol.val) (hd : dv.Fin) (δ0 : 0 < -dv.val) (hs : -dv.val ≤ 201 / 100) (ha : a.Fin) (hb : b.Fin) {D W : ℝ} (hD : D * -dv.val = tol.val)
    (hW : W * D = a.val - b.val) (h0 : 0 ≤ a.val - b.val) (h1 : a.val - b.val ≤ 21 / 10) :
    (dv * (a - b) / tol).Fin ∧ |-(dv * (a - b) / tol).val - W| ≤ 1 / 10 ^ 15 * W + 1 / 1000000 * cap := by
  have D0 : 0 < D := by
    by_contra h1
    have : D * -dv.val ≤ 0 := mul_nonpos_of_nonpos_of_nonneg (not_lt.1 h1) δ0.le
    linarith
  have hu := ulp_pos
  have hul : ulp ≤ 12 / 10 ^ 17 := by unfold ulp; norm_num
  have htp := halfMin_pos
  have htn := tiny_le
  have hcs := cap_small
  have htol : 0 < tol.val := by linarith
  have W0 : 0 ≤ W := by
    by_contra h1
    have := mul_neg_of_neg_of_pos (not_le.1 h1) D0
    linarith
  have e := sub_rel ha hb (by rw [abs_of_nonneg h0]; exact dbl_top' h0 (h1.trans (by norm_num)) |> fun h => by rwa [abs_of_nonneg h0] at h)
  rw [abs_of_nonneg h0, mb.1] at e
  obtain ⟨ef, e1⟩ := e
  have eu : (a.val - b.val) / 2 ^ (53 : ℤ) = ulp * (a.val - b.val) := by
    unfold ulp
    rw [show (2 : ℝ) ^ (53 : ℤ) = 2 ^ 53 by norm_cast]
    ring
  rw [eu, ← hW] at e1
  generalize a - b = c at *
  obtain ⟨Z, hZ⟩ : ∃ Z, Z * D = c.val := ⟨c.val / D, div_mul_cancel₀ _ D0.ne'⟩
  have hZW : |Z - W| ≤ ulp * W := by
    rw [← hZ, ← sub_mul, abs_mul, abs_of_pos D0, ← mul_assoc] at e1
    exact le_of_mul_le_mul_right e1 D0
  have uW : ulp * W ≤ 12 / 10 ^ 17 * W := mul_le_mul_of_nonneg_right hul W0
  have z1 := abs_le.1 hZW
  have Z0 : 0 ≤ Z := by norm_num at uW; linarith
  have ZW : Z ≤ 2 * W := by norm_num at uW; linarith
  have hDl : 99 / 100000000 ≤ D := by nlinarith
  have Wl : W ≤ 3000000 := by
    by_contra h3
    have := mul_lt_mul_of_pos_right (not_le.1 h3) D0
    linarith
  have pe : dv.val * c.val = -(Z * tol.val) := by rw [← hZ, ← hD]; ring
  have p0 : 0 ≤ Z * tol.val := by positivity
  have hDs : Z * tol.val ≤ 10 := by
    have : Z * tol.val = Z * D * -dv.val := by rw [← hD]; ring
    rw [this, hZ]
    have c1 : c.val ≤ 22 / 10 := by
      have k1 := (abs_le.1 e1).2
      rw [hW] at k1
      have : ulp * (a.val - b.val) ≤ 12 / 10 ^ 17 * (21 / 10) := mul_le_mul hul h1 h0 (by norm_num)
      norm_num at this
      linarith
    have c0 : 0 ≤ c.val := by rw [← hZ]; positivity
    nlinarith
  have p := mul_is hd ef (by rw [pe, abs_neg]; exact dbl_top' p0 (hDs.trans (by norm_num)))
  rw [pe] at p
  have p1 := round_err p
  rw [abs_neg, abs_of_nonneg p0] at p1
  have pf := p.1
  generalize dv * c = w at *
  have hq : |-(w.val / tol.val) - Z| ≤ ulp * Z + 500000 * halfMin := by
    have k1 : -(w.val / tol.val) - Z = -(w.val - -(Z * tol.val)) / tol.val := by field_simp; ring
    rw [k1, abs_div, abs_neg, abs_of_pos htol, div_le_iff₀ htol]
    refine p1.trans ?_
    have : halfMin * (2 / 1000000) ≤ halfMin * tol.val := mul_le_mul_of_nonneg_left ht htp.le
    nlinarith
  have uZ : ulp * Z ≤ 12 / 10 ^ 17 * (2 * W) := mul_le_mul hul ZW Z0 (by norm_num)
  have q1 := abs_le.1 hq
  have qa : |w.val / tol.val| ≤ 3 * W + 500000 * halfMin := by
    rw [abs_le]
    norm_num at uZ
    constructor <;> linarith
  have qt : |w.val / tol.val| ≤ 10000000 := by
    norm_num at htn
    linarith
  have s := div_is pf htf htol.ne' (by
    rw [← abs_abs]
    exact dbl_top' (abs_nonneg _) (qt.trans (by norm_num)))
  have s1 := round_err s
  have uq : ulp * |w.val / tol.val| ≤ 12 / 10 ^ 17 * (3 * W + 500000 * halfMin) := mul_le_mul hul qa (abs_nonneg _) (by norm_num)
  have s2 := abs_le.1 s1
  refine ⟨s.1, ?_⟩
  rw [abs_le]
  norm_num at uW uZ uq htn ⊢
  constructor <;> linarith

/-- The next derivative. -/
theorem LInv.step {tol : Dbl} (htf : tol.Fin) (ht : 2 / 1000000 ≤ tol.val) (ht1 : tol.val ≤ 1 / 2) {i : ℕ} (hi : (i + 1) * tol.val ≤ 13) {x dv y0 : Dbl} (h : LInv tol.val i x dv y0)
    {n : ℕ} (hn : 1 ≤ n) {r : Vec Dbl} (g : Good n (x - tol / dv).val r) :
    LInv tol.val (i + 1) (x - tol / dv) (stdMin (stdMax (r.val 1 - r.val 0) (dv * (y0 - r.val 0) / tol)) derivMax) (r.val 0) := by
  have hc := cap_pos
  have δ0 : 0 < -dv.val := hc.trans_le h.least
  have hx0 := h.nonneg
  obtain ⟨D, hD⟩ : ∃ D, D * -dv.val = tol.val := ⟨tol.val / -dv.val, div_mul_cancel₀ _ δ0.ne'⟩
  have D0 : 0 < D := by
    by_contra h1
    have : D * -dv.val ≤ 0 := mul_nonpos_of_nonpos_of_nonneg (not_lt.1 h1) δ0.le
    linarith
  obtain ⟨x1, x2, x3, x4⟩ := h.move htf ht ht1 hi hD
  generalize x - tol / dv = x' at *
  have hx'0 : 0 < x'.val := lt_of_lt_of_le (by norm_num) (micro_is.2.1.trans x3)
  have low := drop_values hx0 ht hD δ0 h.size h.prod x2 h.upper h.zero g.zero
  have xb := abs_le.1 x2
  have hxx : x.val ≤ x'.val := by linarith
  have a1 := abs_le.1 (poly_exact hx0)
  have a2 := abs_le.1 (poly_exact hx'0.le)
  have f1 := Bessel.pnebi_zero_anti hx0 hxx
  have f2 := Bessel.pnebi_zero_le hx0
  have f0 := Bessel.pnebi_pos 0 hx'0
  have z1 := abs_le.1 h.zero
  have z2 := abs_le.1 g.zero
  have fin0 := g.fin 0 (Nat.zero_le n)
  have fin1 := g.fin 1 hn
  have sl0 : 0 ≤ slope x'.val := Bessel.pnebi_slope_nonneg x'.val
  have hul : ulp ≤ 12 / 10 ^ 17 := by unfold ulp; norm_num
  have hcs := cap_small
  have gl := g.lower
  have gu := g.upper
  -- the difference of the two values
  have sn : 0 ≤ (r.val 0).val - (r.val 1).val := by linarith
  have sa := sub_rel fin1 fin0 (by rw [abs_sub_comm]; exact dbl_top' sn (gu.trans (by norm_num)))
  rw [abs_sub_comm (r.val 1).val, abs_of_nonneg sn, mb.1, show (2 : ℝ) ^ (53 : ℤ) = 2 ^ 53 by norm_cast] at sa
  obtain ⟨sf, s1⟩ := sa
  have s2 := abs_le.1 s1
  generalize r.val 1 - r.val 0 = α at *
  have α1 : 9899 / 10000 * slope x'.val ≤ -α.val := by norm_num at s2; linarith
  have α2 : -α.val ≤ 2006 / 1000 := by norm_num at s2; linarith
  have α3 : x'.val ≤ 5 → -α.val ≤ slope x'.val + 6 / 1000000 := fun h5 => by
    have := g.near h5
    norm_num at s2
    linarith
  -- the ratio
  have Δ0 : 0 ≤ y0.val - (r.val 0).val := by linarith
  have Δ1 : y0.val - (r.val 0).val ≤ 21 / 10 := by norm_num at z1 z2; linarith
  obtain ⟨W, hW⟩ : ∃ W, W * D = y0.val - (r.val 0).val := ⟨(y0.val - (r.val 0).val) / D, div_mul_cancel₀ _ D0.ne'⟩
  obtain ⟨rf, r1⟩ := ratio_is htf ht h.dfin δ0 h.size h.yfin fin0 hD hW Δ0 Δ1
  generalize dv * (y0 - r.val 0) / tol = ρ at *
  have r2 := abs_le.1 r1
  have W0 : 0 ≤ W := by
    by_contra h1
    have := mul_neg_of_neg_of_pos (not_le.1 h1) D0
    linarith
  have W1 : 982 / 1000 * slope x'.val ≤ W := by
    have k1 := (Bessel.pnebi_drop hxx).1
    have k2 : slope x'.val * ((1 - 1 / 100000000) * D) ≤ (Bessel.pnebi 0 x'.val - Bessel.pnebi 1 x'.val) * (x'.val - x.val) :=
      mul_le_mul_of_nonneg_left (by linarith) sl0
    have k3 : 982 / 1000 * slope x'.val * D ≤ W * D := by
      rw [hW]
      have := mul_nonneg sl0 D0.le
      linarith
    exact le_of_mul_le_mul_right k3 D0
  have W2 : 10 ≤ x'.val → W * x'.val ≤ 20 := fun h10 => by
    have k := drop_upper hx0 ht hD δ0 h.size h.prod x2 h10 h.zero g.zero
    rw [← hW] at k
    have k' : W * x'.val * D ≤ 20 * D := by linarith
    exact le_of_mul_le_mul_right k' D0
  -- the new derivative
  obtain ⟨m1, m2⟩ := stdMax_is sf rf
  obtain ⟨n1, n2⟩ := stdMin_is (b := derivMax) m1 limit_is.1
  rw [m2, limit_is.2] at n2
  generalize stdMin (stdMax α ρ) derivMax = β at *
  have β1 : cap ≤ -β.val := by rw [n2, le_neg]; exact min_le_right _ _
  have β2 : -β.val ≤ max (-α.val) cap := by
    rw [n2]
    rcases le_total (max α.val ρ.val) (-cap) with h1 | h1
    · rw [min_eq_left h1]
      exact le_max_of_le_left (neg_le_neg (le_max_left _ _))
    · rw [min_eq_right h1, neg_neg]
      exact le_max_right _ _
  have β3 : -β.val ≤ max (-ρ.val) cap := by
    rw [n2]
    rcases le_total (max α.val ρ.val) (-cap) with h1 | h1
    · rw [min_eq_left h1]
      exact le_max_of_le_left (neg_le_neg (le_max_right _ _))
    · rw [min_eq_right h1, neg_neg]
      exact le_max_right _ _
  have β4 : min (-α.val) (-ρ.val) ≤ -β.val := by
    rw [n2, min_neg_neg]
    exact neg_le_neg (min_le_left _ _)
  have hcx : cap * x'.val ≤ 14 := by
    refine x4.trans ?_
    push_cast
    linarith
  have ρ2 : 10 ≤ x'.val → -ρ.val * x'.val ≤ 21 := fun h10 => by
    have k := W2 h10
    have k2 : -ρ.val ≤ (1 + 1 / 10 ^ 15) * W + 1 / 1000000 * cap := by linarith
    have k3 := mul_le_mul_of_nonneg_right k2 hx'0.le
    norm_num at k3
    linarith
  refine ⟨x1, n1, fin0, Or.inr x3, g.zero, β1, ?_, ?_, x4, ?_, fun h3 h4 => ?_⟩
  · exact β2.trans (max_le (by linarith) (by linarith))
  · rcases le_or_gt x'.val 10 with h10 | h10
    · rcases le_max_iff.1 β2 with k | k
      · have := mul_le_mul_of_nonneg_right (k.trans α2) hx'0.le
        linarith
      · have := mul_le_mul_of_nonneg_right k hx'0.le
        linarith
    · rcases le_max_iff.1 β3 with k | k
      · have := mul_le_mul_of_nonneg_right k hx'0.le
        have := ρ2 h10.le
        linarith
      · have := mul_le_mul_of_nonneg_right k hx'0.le
        linarith
  · rcases le_total (98 / 100 * slope x'.val) cap with k | k
    · exact k.trans β1
    · refine le_trans (le_min ?_ ?_) β4
      · linarith
      · norm_num at r2
        linarith
  · have k1 := α3 (by linarith)
    have k2 := Bessel.slope_three
    have k3 : slope x'.val ≤ _ := Bessel.pnebi_slope_anti h3
    exact β2.trans (max_le (by linarith) (by linarith))

/-- The drop of the exact function up to the next point. -/
theorem LInv.close {tol : Dbl} (htf : tol.Fin) (ht : 2 / 1000000 ≤ tol.val) (ht1 : tol.val ≤ 1 / 2) {i : ℕ} (hi : (i + 1) * tol.val ≤ 13) {x dv y0 : Dbl} (h : LInv tol.val i x dv y0) :
    x.val < (x - tol / dv).val ∧ Bessel.pnebi 0 x.val - Bessel.pnebi 0 (x - tol / dv).val ≤ 1021 / 1000 * tol.val := by
  have δ0 : 0 < -dv.val := cap_pos.trans_le h.least
  obtain ⟨D, hD⟩ : ∃ D, D * -dv.val = tol.val := ⟨tol.val / -dv.val, div_mul_cancel₀ _ δ0.ne'⟩
  have D0 : 0 < D := by
    by_contra h1
    have : D * -dv.val ≤ 0 := mul_nonpos_of_nonpos_of_nonneg (not_lt.1 h1) δ0.le
    linarith
  obtain ⟨x1, x2, x3, x4⟩ := h.move htf ht ht1 hi hD
  have xb := abs_le.1 x2
  have hxx : x.val < (x - tol / dv).val := by linarith
  refine ⟨hxx, (Bessel.pnebi_drop hxx.le).2.trans ?_⟩
  have k1 : slope x.val * ((x - tol / dv).val - x.val) ≤ slope x.val * ((1 + 1 / 100000000) * D) := mul_le_mul_of_nonneg_left (by linarith) (Bessel.pnebi_slope_nonneg x.val)
  have k2 := mul_le_mul_of_nonneg_right h.lower D0.le
  rw [slope] at k1 k2
  linarith

end Verif.FunctionsFp
