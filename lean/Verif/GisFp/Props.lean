import Verif.GisFp.Local
import Verif.Ieee.Cast

/-! Property theorems C116, C117 (see properties.jsonl): the local coordinates of geometry/src/gis.cpp in `float` arithmetic. -/
namespace Verif.GisFp
open Ieee Fp Float.Model FunctionsFp Geometry2Fp Real

/-- The limits of a product of a difference by a length. -/
theorem diff_mul {m a o : Flt} (hm : m.Fin) (h2 : |m.val| ≤ 112000) (ha : a.Fin) (ho : o.Fin) (ha' : |a.val| ≤ 180) (ho' : |o.val| ≤ 180) :
    (a - o).Fin ∧ |(a - o).val - (a.val - o.val)| ≤ |a.val - o.val| / 2 ^ 24 ∧ |(a - o).val| ≤ |a.val - o.val| * (1 + 1 / 2 ^ 24) ∧ |(a - o).val * m.val| ≤ 112000 * |(a - o).val| ∧
      ((a - o) * m).Fin ∧ |((a - o) * m).val - (a - o).val * m.val| ≤ |(a - o).val * m.val| / 2 ^ 24 + 2 ^ (-150 : ℤ) := by
  have hD : |a.val - o.val| ≤ 360 := by
    have := abs_sub a.val o.val
    linarith
  obtain ⟨s1, s2⟩ := sub_rel ha ho (hD.trans ((show (360 : ℝ) ≤ 2 ^ (9 : ℤ) by norm_num).trans (two_pow_le (by decide))))
  have s2' : |(a - o).val - (a.val - o.val)| ≤ |a.val - o.val| / 2 ^ 24 := s2
  have s3 : |(a - o).val| ≤ |a.val - o.val| * (1 + 1 / 2 ^ 24) := by
    have := abs_sub_abs_le_abs_sub (a - o).val (a.val - o.val)
    linarith
  have s4 : |(a - o).val * m.val| ≤ 112000 * |(a - o).val| := by
    rw [abs_mul, mul_comm]
    exact mul_le_mul_of_nonneg_right h2 (abs_nonneg _)
  obtain ⟨p1, p2⟩ := mul_rel s1 hm (by
    refine s4.trans (le_trans ?_ ((show (10 : ℝ) ^ 8 ≤ 2 ^ (27 : ℤ) by norm_num).trans (two_pow_le (by decide))))
    norm_num at s3 ⊢
    linarith)
  exact ⟨s1, s2', s3, s4, p1, p2⟩

/-- The round trip of one coordinate. -/
theorem round_trip {m a o : Flt} (hm : m.Fin) (h1 : 1 / 2 ^ 8 ≤ |m.val|) (h2 : |m.val| ≤ 112000) (ha : a.Fin) (ho : o.Fin) (ha' : |a.val| ≤ 180) (ho' : |o.val| ≤ 180) :
    ((a - o) * m / m + o).Fin ∧ |((a - o) * m / m + o).val - a.val| ≤ |a.val - o.val| / 2 ^ 22 + |a.val| / 2 ^ 24 + 1 / 2 ^ 130 := by
  obtain ⟨s1, s2, s3, s4, p1, p2⟩ := diff_mul hm h2 ha ho ha' ho'
  have hD : |a.val - o.val| ≤ 360 := by
    have := abs_sub a.val o.val
    linarith
  have hm0 : 0 < |m.val| := lt_of_lt_of_le (by norm_num) h1
  have hmz : m.val ≠ 0 := abs_pos.1 hm0
  generalize hX : (a - o) * m = X at *
  generalize hDv : (a - o).val = D at *
  have q1 : |X.val / m.val - D| ≤ |D| / 2 ^ 24 + 1 / 2 ^ 142 := by
    rw [show X.val / m.val - D = (X.val - D * m.val) / m.val by field_simp, abs_div, div_le_iff₀ hm0]
    refine p2.trans ?_
    rw [abs_mul]
    have : (2 : ℝ) ^ (-150 : ℤ) = 1 / 2 ^ 142 * (1 / 2 ^ 8) := by norm_num
    rw [this]
    have h3 : (1 : ℝ) / 2 ^ 142 * (1 / 2 ^ 8) ≤ 1 / 2 ^ 142 * |m.val| := mul_le_mul_of_nonneg_left h1 (by positivity)
    calc |D| * |m.val| / 2 ^ 24 + 1 / 2 ^ 142 * (1 / 2 ^ 8) ≤ |D| * |m.val| / 2 ^ 24 + 1 / 2 ^ 142 * |m.val| := by linarith
      _ = _ := by ring
  have q2 : |X.val / m.val| ≤ |D| * (1 + 1 / 2 ^ 24) + 1 / 2 ^ 142 := by
    have := abs_sub_abs_le_abs_sub (X.val / m.val) D
    linarith
  have hq := div_is p1 hm hmz (by
    refine q2.trans (le_trans ?_ ((show (1000 : ℝ) ≤ 2 ^ (10 : ℤ) by norm_num).trans (two_pow_le (by decide))))
    norm_num at s3 ⊢
    linarith)
  have q3 : |(X / m).val - X.val / m.val| ≤ |X.val / m.val| / 2 ^ 24 + 1 / 2 ^ 142 := by
    have h0 := abs_nonneg (X.val / m.val)
    rcases hq.2.rel with h3 | h3
    · have h4 : |(X / m).val - X.val / m.val| ≤ |X.val / m.val| / 2 ^ 24 := h3
      have : (0 : ℝ) ≤ 1 / 2 ^ 142 := by positivity
      linarith
    · have h4 : |(X / m).val - X.val / m.val| ≤ 2 ^ (-150 : ℤ) := h3
      have h5 : (2 : ℝ) ^ (-150 : ℤ) ≤ 1 / 2 ^ 142 := by norm_num
      have : 0 ≤ |X.val / m.val| / 2 ^ 24 := by positivity
      linarith
  generalize X.val / m.val = q at *
  have q4 : |(X / m).val - (a.val - o.val)| ≤ |a.val - o.val| * (31 / 10 / 2 ^ 24) + 3 / 2 ^ 142 := by
    have t1 := abs_sub_le (X / m).val q (a.val - o.val)
    have t2 := abs_sub_le q D (a.val - o.val)
    norm_num at *
    linarith [abs_nonneg (a.val - o.val)]
  have q5 : |(X / m).val + o.val - a.val| ≤ |a.val - o.val| * (31 / 10 / 2 ^ 24) + 3 / 2 ^ 142 := by
    rwa [show (X / m).val + o.val - a.val = (X / m).val - (a.val - o.val) by ring]
  have q6 : |(X / m).val + o.val| ≤ |a.val| + (|a.val - o.val| * (31 / 10 / 2 ^ 24) + 3 / 2 ^ 142) := by
    have := abs_sub_abs_le_abs_sub ((X / m).val + o.val) a.val
    linarith
  have hs := add_is hq.1 ho (by
    refine q6.trans (le_trans ?_ ((show (1000 : ℝ) ≤ 2 ^ (10 : ℤ) by norm_num).trans (two_pow_le (by decide))))
    norm_num
    linarith)
  have q7 : |(X / m + o).val - ((X / m).val + o.val)| ≤ |(X / m).val + o.val| / 2 ^ 24 := hs.2.rel_multiple (multiple_add _ _)
  refine ⟨hs.1, ?_⟩
  have t1 := abs_sub_le (X / m + o).val ((X / m).val + o.val) a.val
  norm_num at *
  linarith [abs_nonneg (a.val - o.val)]

/-- C116: the conversions to the local coordinates and back, of points with latitudes and longitudes up to 180 degrees, return them up to the rounding errors; also for the origins
of longitude ±90, as no number in `float` is a zero of the cosine. -/
theorem C116_roundtrip {T : Trig} (hT : Accurate T) (latOrg lonOrg lat lon : Flt) (h1 : latOrg.Fin) (h2 : lonOrg.Fin) (h3 : lat.Fin) (h4 : lon.Fin) (b1 : |latOrg.val| ≤ 180)
    (b2 : |lonOrg.val| ≤ 180) (b3 : |lat.val| ≤ 180) (b4 : |lon.val| ≤ 180) :
    let p := latLonToLocalXY T latOrg lonOrg lat lon
    let q := localXYToLatLon T latOrg lonOrg p.1 p.2
    Approx q.1 lat.val (|lat.val - latOrg.val| / 2 ^ 22 + |lat.val| / 2 ^ 24 + 1 / 2 ^ 130) ∧
    Approx q.2 lon.val (|lon.val - lonOrg.val| / 2 ^ 22 + |lon.val| / 2 ^ 24 + 1 / 2 ^ 130) := by
  have m1 := lat_round hT h1 b1
  have m2 := lon_round hT h2 b2
  have e1 := latLen_bounds (rad latOrg).val
  have e2 := lonLen_bounds (rad lonOrg).val
  have c1 := abs_cos_le_one (rad lonOrg).val
  have v1 := abs_le.1 m1.2
  refine ⟨round_trip m1.1 (le_abs_self _ |>.trans' ?_) ((m1.abs_le (V := 111800) ?_).trans (by norm_num)) h3 h1 b3 b1,
    round_trip m2.1 (lon_lower hT h2 b2) ((m2.abs_le (V := 111700) ?_).trans (by norm_num)) h4 h2 b4 b2⟩
  · norm_num at v1 ⊢
    linarith [v1.1]
  · rw [abs_le]
    constructor <;> linarith
  · linarith [e2.2]

/-- One local coordinate. -/
theorem local_coord {m a o : Flt} {L μ : ℝ} (hm : Approx m L μ) (hL : |L| ≤ 111800) (hμ : μ ≤ 1) (ha : a.Fin) (ho : o.Fin) (ha' : |a.val| ≤ 180) (ho' : |o.val| ≤ 180) :
    Approx ((a - o) * m) ((a.val - o.val) * L) (|a.val - o.val| * (μ + 13329 / 10 ^ 6) + 2 ^ (-150 : ℤ)) := by
  have h2 : |m.val| ≤ 111801 := (hm.abs_le hL).trans (by linarith)
  obtain ⟨s1, s2, s3, s4, p1, p2⟩ := diff_mul hm.1 (h2.trans (by norm_num)) ha ho ha' ho'
  refine ⟨p1, ?_⟩
  have k1 : |(a - o).val * m.val| ≤ |a.val - o.val| * (1 + 1 / 2 ^ 24) * 111801 := by
    rw [abs_mul]
    exact mul_le_mul s3 h2 (abs_nonneg _) (by positivity)
  have k2 : |((a - o).val - (a.val - o.val)) * m.val| ≤ |a.val - o.val| / 2 ^ 24 * 111801 := by
    rw [abs_mul]
    exact mul_le_mul s2 h2 (abs_nonneg _) (by positivity)
  have k3 : |(a.val - o.val) * (m.val - L)| ≤ |a.val - o.val| * μ := by
    rw [abs_mul]
    exact mul_le_mul_of_nonneg_left hm.2 (abs_nonneg _)
  have e : ((a - o) * m).val - (a.val - o.val) * L = (((a - o) * m).val - (a - o).val * m.val) + ((a - o).val - (a.val - o.val)) * m.val + (a.val - o.val) * (m.val - L) := by ring
  rw [e]
  refine (abs_add_le _ _).trans (le_trans (add_le_add ((abs_add_le _ _).trans (add_le_add p2 k2)) k3) ?_)
  have := abs_nonneg (a.val - o.val)
  rw [mul_add]
  generalize (2 : ℝ) ^ (-150 : ℤ) = t at *
  generalize |a.val - o.val| * μ = u at *
  generalize |(a - o).val * m.val| = w at *
  norm_num at *
  linarith

/-- C117: the lengths of a degree differ from the exact ones by at most 0.0305 m (longitude) and 0.0041 m (latitude), and the local coordinates from the exact ones (C58) by 45 mm
and 18 mm per degree from the origin. -/
theorem C117_accuracy {T : Trig} (hT : Accurate T) (latOrg lonOrg lat lon : Flt) (h1 : latOrg.Fin) (h2 : lonOrg.Fin) (h3 : lat.Fin) (h4 : lon.Fin) (b1 : |latOrg.val| ≤ 180)
    (b2 : |lonOrg.val| ≤ 180) (b3 : |lat.val| ≤ 180) (b4 : |lon.val| ≤ 180) :
    Approx (meterPerDegLat T latOrg) (Gis.meterPerDegLat Functions.Spec.real latOrg.val) (41 / 10000) ∧
    Approx (meterPerDegLon T lonOrg) (Gis.meterPerDegLon Functions.Spec.real lonOrg.val) (306 / 10000) ∧
    Approx (latLonToLocalXY T latOrg lonOrg lat lon).1 (Gis.latLonToLocalXY Functions.Spec.real latOrg.val lonOrg.val lat.val lon.val).1
      (|lon.val - lonOrg.val| * (45 / 1000) + 2 ^ (-150 : ℤ)) ∧
    Approx (latLonToLocalXY T latOrg lonOrg lat lon).2 (Gis.latLonToLocalXY Functions.Spec.real latOrg.val lonOrg.val lat.val lon.val).2
      (|lat.val - latOrg.val| * (18 / 1000) + 2 ^ (-150 : ℤ)) := by
  have m1 : Approx (meterPerDegLat T latOrg) (Gis.meterPerDegLat Functions.Spec.real latOrg.val) (41 / 10000) := by
    rw [latLen_eq]
    refine ((lat_round hT h1 b1).trans ((latLen_lip _ _).trans (mul_le_mul_of_nonneg_left (rad_is h1 b1).2 (by norm_num)))).weaken (by norm_num)
  have m2 : Approx (meterPerDegLon T lonOrg) (Gis.meterPerDegLon Functions.Spec.real lonOrg.val) (306 / 10000) := by
    rw [lonLen_eq]
    refine ((lon_round hT h2 b2).trans ((lonLen_lip _ _).trans (mul_le_mul_of_nonneg_left (rad_is h2 b2).2 (by norm_num)))).weaken (by norm_num)
  have l1 : |Gis.meterPerDegLat Functions.Spec.real latOrg.val| ≤ 111800 := by
    have := latLen_bounds (latOrg.val / 180 * π)
    rw [latLen_eq, abs_le]
    constructor <;> linarith
  have l2 : |Gis.meterPerDegLon Functions.Spec.real lonOrg.val| ≤ 111800 := by
    have := (lonLen_bounds (lonOrg.val / 180 * π)).2
    have := abs_cos_le_one (lonOrg.val / 180 * π)
    rw [lonLen_eq]
    linarith
  refine ⟨m1, m2, (local_coord m2 l2 (by norm_num) h4 h2 b4 b2).weaken ?_, (local_coord m1 l1 (by norm_num) h3 h1 b3 b1).weaken ?_⟩
  · have := mul_le_mul_of_nonneg_left (show (306 / 10000 + 13329 / 10 ^ 6 : ℝ) ≤ 45 / 1000 by norm_num) (abs_nonneg (lon.val - lonOrg.val))
    linarith
  · have := mul_le_mul_of_nonneg_left (show (41 / 10000 + 13329 / 10 ^ 6 : ℝ) ≤ 18 / 1000 by norm_num) (abs_nonneg (lat.val - latOrg.val))
    linarith

/-- There are libraries as required. -/
theorem near_exists {spec : Format} [Fmt spec] (hk : (40 : ℤ) ≤ 2 ^ spec.exponentBits) (hmin : spec.minExponent ≤ -120) (htop : 0 ≤ top spec) {v : ℝ} (hv : |v| ≤ 1) :
    ∃ a : Fp spec, Approx a v (|v| / 2 ^ (spec.mantissaBits : ℤ) + 1 / 2 ^ 100) := by
  -- a number not below zero
  have key : ∀ w : ℝ, 0 ≤ w → w ≤ 1 → ∃ a : Fp spec, Approx a w (w / 2 ^ (spec.mantissaBits : ℤ) + 1 / 2 ^ 100) := by
    intro w h0 h1
    have f1 := Nat.floor_le (show 0 ≤ w * 10 ^ 40 by positivity)
    have f2 := Nat.lt_floor_add_one (w * 10 ^ 40)
    rcases Nat.eq_zero_or_pos ⌊w * 10 ^ 40⌋₊ with hz | hp
    · refine ⟨0, zero_is.1, ?_⟩
      rw [hz] at f2
      rw [zero_is.2, zero_sub, abs_neg, abs_of_nonneg h0]
      have : 0 ≤ w / 2 ^ (spec.mantissaBits : ℤ) := by positivity
      have hw : w ≤ 1 / 2 ^ 100 := by
        norm_num at f2 ⊢
        linarith
      linarith
    · generalize ⌊w * 10 ^ 40⌋₊ = n at *
      have hn : (n : ℝ) / 10 ^ 40 ≤ w := by rw [div_le_iff₀ (by positivity)]; exact f1
      have hn' : w - 1 / 10 ^ 40 ≤ (n : ℝ) / 10 ^ 40 := by
        rw [le_div_iff₀ (by positivity), sub_mul]
        norm_num at f2 ⊢
        linarith
      have hn0 : 0 ≤ (n : ℝ) / 10 ^ 40 := by positivity
      have hl := lit_is (spec := spec) (m := n) (k := 40) hp.ne' (by norm_num) (by exact_mod_cast hk) ((hn.trans h1).trans (by rw [← zpow_zero (2 : ℝ)]; exact two_pow_le htop))
      refine ⟨_, hl.1, ?_⟩
      generalize lit spec n _ = a at *
      have hP := two_pow_pos (spec.mantissaBits : ℤ)
      have e1 : (n : ℝ) / 10 ^ 40 / 2 ^ (spec.mantissaBits : ℤ) ≤ w / 2 ^ (spec.mantissaBits : ℤ) := div_le_div_of_nonneg_right hn hP.le
      have e2 : (2 : ℝ) ^ (spec.minExponent - 1) ≤ 2 ^ (-121 : ℤ) := two_pow_le (by omega)
      have e0 : 0 ≤ w / 2 ^ (spec.mantissaBits : ℤ) := by positivity
      have e3 : |a.val - n / 10 ^ 40| ≤ w / 2 ^ (spec.mantissaBits : ℤ) + 1 / 2 ^ 121 := by
        rcases hl.2.rel with h3 | h3
        · rw [abs_of_nonneg hn0] at h3
          have h4 : |a.val - n / 10 ^ 40| ≤ (n : ℝ) / 10 ^ 40 / 2 ^ (spec.mantissaBits : ℤ) := h3
          have : (0 : ℝ) ≤ 1 / 2 ^ 121 := by positivity
          linarith
        · have h4 : |a.val - n / 10 ^ 40| ≤ 2 ^ (spec.minExponent - 1) := h3
          have e4 : (2 : ℝ) ^ (-121 : ℤ) = 1 / 2 ^ 121 := by norm_num
          rw [e4] at e2
          exact h4.trans (e2.trans (by linarith))
      have e5 := abs_sub_le a.val (n / 10 ^ 40) w
      have e6 : |(n : ℝ) / 10 ^ 40 - w| ≤ 1 / 10 ^ 40 := by
        rw [abs_le]
        constructor <;> linarith
      norm_num at *
      linarith
  rcases le_total 0 v with h | h
  · rw [abs_of_nonneg h] at hv ⊢
    exact key v h hv
  · rw [abs_of_nonpos h] at hv ⊢
    obtain ⟨a, ha⟩ := key (-v) (by linarith) hv
    refine ⟨-a, ?_⟩
    have := ha.neg
    rwa [neg_neg] at this

theorem accurate_exists (dbl : Bool) : ∃ T : Trig, T.dbl = dbl ∧ Accurate T := by
  have kd : ∀ v : ℝ, ∃ a : Dbl, |v| ≤ 1 → Approx a v (|v| / 2 ^ 40 + 1 / 2 ^ 100) := fun v => by
    by_cases h : |v| ≤ 1
    · obtain ⟨a, ha⟩ := near_exists (spec := .binary64) (by decide) (by decide) (by decide) h
      refine ⟨a, fun _ => ha.weaken ?_⟩
      have : |v| / 2 ^ (Format.binary64.mantissaBits : ℤ) ≤ |v| / 2 ^ 40 := by
        rw [mb.1]
        exact div_le_div_of_nonneg_left (abs_nonneg v) (by norm_num) (by norm_num)
      linarith
    · exact ⟨0, fun h' => absurd h' h⟩
  have kf : ∀ v : ℝ, ∃ a : Flt, |v| ≤ 1 → Approx a v (|v| / 2 ^ 23 + 1 / 2 ^ 100) := fun v => by
    by_cases h : |v| ≤ 1
    · obtain ⟨a, ha⟩ := near_exists (spec := .binary32) (by decide) (by decide) (by decide) h
      refine ⟨a, fun _ => ha.weaken ?_⟩
      have : |v| / 2 ^ (Format.binary32.mantissaBits : ℤ) ≤ |v| / 2 ^ 23 := by
        rw [mb.2]
        exact div_le_div_of_nonneg_left (abs_nonneg v) (by norm_num) (by norm_num)
      linarith
    · exact ⟨0, fun h' => absurd h' h⟩
  choose gd hd using kd
  choose gf hf using kf
  exact ⟨⟨dbl, fun y => gd (Real.cos y.val), fun y => gd (Real.sin y.val), fun y => gf (Real.cos y.val), fun y => gf (Real.sin y.val)⟩, rfl,
    fun _ _ _ => hd _ (abs_cos_le_one _), fun _ _ _ => hd _ (abs_sin_le_one _), fun _ _ _ => hf _ (abs_cos_le_one _), fun _ _ _ => hf _ (abs_sin_le_one _)⟩

-- the round trip at the origin of longitude 90, where it fails in exact arithmetic (C58): the longitude 91 is recovered up to 3e-5 degrees
example {T : Trig} (hT : Accurate T) : Approx (localXYToLatLon T (f 450 1) (f 900 1) (latLonToLocalXY T (f 450 1) (f 900 1) (f 460 1) (f 910 1)).1
    (latLonToLocalXY T (f 450 1) (f 900 1) (f 460 1) (f 910 1)).2).2 91 (3 / 10 ^ 5) := by
  have v1 : (f 450 1).Fin ∧ (f 450 1).val = 45 := by
    have h := val_finite (a := f 450 1) (s := .positive) (m := 11796480) (e := -18) (h := by decide) (by decide +kernel)
    exact ⟨h.1, h.2.trans (by norm_num [sgn])⟩
  have v2 : (f 460 1).Fin ∧ (f 460 1).val = 46 := by
    have h := val_finite (a := f 460 1) (s := .positive) (m := 12058624) (e := -18) (h := by decide) (by decide +kernel)
    exact ⟨h.1, h.2.trans (by norm_num [sgn])⟩
  have v3 : (f 900 1).Fin ∧ (f 900 1).val = 90 := by
    have h := val_finite (a := f 900 1) (s := .positive) (m := 11796480) (e := -17) (h := by decide) (by decide +kernel)
    exact ⟨h.1, h.2.trans (by norm_num [sgn])⟩
  have v4 : (f 910 1).Fin ∧ (f 910 1).val = 91 := by
    have h := val_finite (a := f 910 1) (s := .positive) (m := 11927552) (e := -17) (h := by decide) (by decide +kernel)
    exact ⟨h.1, h.2.trans (by norm_num [sgn])⟩
  have h := (C116_roundtrip hT (f 450 1) (f 900 1) (f 460 1) (f 910 1) v1.1 v3.1 v2.1 v4.1 (by rw [v1.2, abs_of_pos] <;> norm_num) (by rw [v3.2, abs_of_pos] <;> norm_num)
    (by rw [v2.2, abs_of_pos] <;> norm_num) (by rw [v4.2, abs_of_pos] <;> norm_num)).2
  rw [v3.2, v4.2] at h
  refine h.weaken ?_
  norm_num

end Verif.GisFp
