import Verif.HoughFp.InitModel
import Verif.HoughFp.Props
import Verif.GisFp.Scale

/-! Lemmas for C119: the normals of the plane detector in floating point. -/
namespace Verif.HoughFp
open Verif Hough Ieee Fp Interval Interval.Spec Float.Model FunctionsFp GisFp Geometry2Fp Real

/-- The conversion of an integer is rounded. -/
theorem ofInt_round {spec : Format} [Fmt spec] {n : ℤ} (h : |(n : ℝ)| ≤ 2 ^ top spec) : (TlsFp.ofInt spec n).Is n := by
  have := normalize_spec (Fmt.good (spec := spec)) n 0 .positive
  rw [zpow_zero, mul_one] at this
  exact ofU_spec' this h

/-- The relative error of a result that is not too small. -/
theorem rel_normal {spec : Format} [Fmt spec] {a : Fp spec} {x : ℝ} (h : a.Is x) (hs : spec.minExponent ≤ -100 - spec.mantissaBits) (hx : 2 ^ (-100 : ℤ) ≤ x) :
    |a.val - x| ≤ x / 2 ^ (spec.mantissaBits : ℤ) := by
  have h0 : 0 < x := (two_pow_pos _).trans_le hx
  rcases h.2.rel with h1 | h1
  · rwa [abs_of_pos h0] at h1
  · refine h1.trans ?_
    rw [le_div_iff₀ (two_pow_pos _), ← two_pow_add]
    exact (two_pow_le (by omega)).trans hx

/-- The angle of a cell, in units of the resolution. -/
theorem res_is {N : Dbl} {c : ℝ} (hN : Approx N c (1 / 2 ^ 49)) (c1 : 1 ≤ c) (c2 : c ≤ 7) {n : ℤ} (n0 : 0 < n) (n1 : n ≤ 2147483647) :
    (narrow (N / TlsFp.ofInt .binary64 n)).Fin ∧ |(narrow (N / TlsFp.ofInt .binary64 n)).val - c / n| ≤ c / n * (1 / 2 ^ 24 + 1 / 2 ^ 46) := by
  have a0 : (1 : ℝ) ≤ n := by exact_mod_cast n0
  have a1 : (n : ℝ) ≤ 2147483647 := by exact_mod_cast n1
  have a2 : |(n : ℝ)| ≤ 2 ^ (31 : ℤ) := by rw [abs_of_pos (by linarith)]; norm_num; linarith
  obtain ⟨d1, d2⟩ := TlsFp.ofInt_is (spec := .binary64) (n := n) (a2.trans (two_pow_le (by decide))) (a2.trans (two_pow_le (by decide)))
  generalize TlsFp.ofInt .binary64 n = D at *
  obtain ⟨N1, N2⟩ := hN
  have N3 := abs_le.1 N2
  have hX : 1 / 2147483647 ≤ c / n := by
    rw [le_div_iff₀ (by linarith)]
    nlinarith
  have hX2 : c / n ≤ 7 := (div_le_self (by linarith) a0).trans c2
  have hu : |N.val / n - c / n| ≤ c / n / 2 ^ 49 := by
    rw [← sub_div, abs_div, abs_of_pos (show (0 : ℝ) < n by linarith), div_div, mul_comm (n : ℝ), ← div_div]
    refine div_le_div_of_nonneg_right (N2.trans ?_) (by linarith)
    exact div_le_div_of_nonneg_right c1 (by norm_num)
  have hu' := abs_le.1 hu
  have hq := div_is (a := N) (b := D) N1 d1 (by rw [d2]; linarith) (by
    rw [d2]
    refine le_trans ?_ (two_pow_le (show (4 : ℤ) ≤ top .binary64 by decide))
    rw [abs_of_nonneg (by norm_num at *; linarith)]
    norm_num at *
    linarith)
  rw [d2] at hq
  have hq' := rel_normal hq (by decide) (by norm_num at *; linarith)
  rw [mb.1] at hq'
  generalize N / D = Q at *
  generalize N.val / n = u at *
  generalize c / n = X at *
  have hq2 := abs_le.1 hq'
  have hr : (conv Q : Flt).Is Q.val := conv_is hq.1 (by
    refine le_trans ?_ (two_pow_le (show (4 : ℤ) ≤ top .binary32 by decide))
    rw [abs_of_nonneg (by norm_num at *; linarith)]
    norm_num at *
    linarith)
  have hr' := rel_normal hr (by decide) (by norm_num at *; linarith)
  rw [mb.2] at hr'
  have hr2 := abs_le.1 hr'
  refine ⟨hr.1, abs_le.2 ?_⟩
  show _ ≤ (conv Q : Flt).val - X ∧ (conv Q : Flt).val - X ≤ _
  constructor
  · norm_num at *
    linarith
  · norm_num at *
    linarith

/-- The angle of a cell. -/
theorem angle_is {R z : Flt} {c : ℝ} (c0 : 1 ≤ c) (c2 : c ≤ 7) {n i : ℤ} (n1 : n ≤ 2147483647) (i0 : 0 ≤ i) (i1 : i < n) (hR : R.Fin)
    (hR' : |R.val - c / n| ≤ c / n * (1 / 2 ^ 24 + 1 / 2 ^ 46)) (hz : z.Fin) (hz' : z.val = 0) :
    Approx (R * TlsFp.ofInt .binary32 i + z) (c * i / n) (c * (3 / 2 ^ 24 + 1 / 2 ^ 40)) := by
  have a0 : (1 : ℝ) ≤ n := by exact_mod_cast (by omega : 1 ≤ n)
  have b0 : (0 : ℝ) ≤ i := by exact_mod_cast i0
  have b1 : (i : ℝ) ≤ n := by exact_mod_cast i1.le
  have b2 : (n : ℝ) ≤ 2147483647 := by exact_mod_cast n1
  have hi : (TlsFp.ofInt .binary32 i).Is i := ofInt_round (by
    rw [abs_of_nonneg b0]
    refine le_trans ?_ (two_pow_le (show (31 : ℤ) ≤ top .binary32 by decide))
    norm_num
    linarith)
  have hi' := hi.2.rel_multiple ⟨i * 2 ^ 149, by
    push_cast
    rw [show Format.binary32.minExponent = -149 by decide]
    norm_num
    ring⟩
  rw [mb.2, abs_of_nonneg b0] at hi'
  have hi'' : |(TlsFp.ofInt .binary32 i).val - i| ≤ i / 2 ^ (24 : ℤ) := hi'
  have hF := hi.1
  generalize TlsFp.ofInt .binary32 i = F at *
  have hq : c * i / n = c / n * i := by ring
  have hX : 0 ≤ c / n := by positivity
  have hq1 : c / n * i ≤ c := by
    rw [← hq, div_le_iff₀ (by linarith)]
    exact mul_le_mul_of_nonneg_left b1 (by linarith)
  rw [hq]
  have hq0 : 0 ≤ c / n * i := by positivity
  have r := abs_le.1 hR'
  have s := abs_le.1 hi''
  have hF0 : 0 ≤ F.val := by norm_num at *; linarith
  have hR0 : 0 ≤ R.val := by norm_num at *; linarith
  have up : R.val * F.val ≤ (c / n * (1 + (1 / 2 ^ 24 + 1 / 2 ^ 46))) * (i * (1 + 1 / 2 ^ 24)) :=
    mul_le_mul (by linarith) (by norm_num at *; linarith) hF0 (by positivity)
  have lo : (c / n * (1 - (1 / 2 ^ 24 + 1 / 2 ^ 46))) * (i * (1 - 1 / 2 ^ 24)) ≤ R.val * F.val :=
    mul_le_mul (by linarith) (by norm_num at *; linarith) (by norm_num at *; linarith) hR0
  have up' : R.val * F.val ≤ (c / n * i) * ((1 + (1 / 2 ^ 24 + 1 / 2 ^ 46)) * (1 + 1 / 2 ^ 24)) := up.trans (le_of_eq (by ring))
  have lo' : (c / n * i) * ((1 - (1 / 2 ^ 24 + 1 / 2 ^ 46)) * (1 - 1 / 2 ^ 24)) ≤ R.val * F.val := le_trans (le_of_eq (by ring)) lo
  generalize c / n * i = q at *
  have hp0 : 0 ≤ R.val * F.val := mul_nonneg hR0 hF0
  have hm := mul_rel (a := R) (b := F) hR hF (by
    refine le_trans ?_ (two_pow_le (show (4 : ℤ) ≤ top .binary32 by decide))
    rw [abs_of_nonneg hp0]
    norm_num at *
    linarith)
  rw [abs_of_nonneg hp0, mb.2, show Format.binary32.minExponent = -149 by decide] at hm
  obtain ⟨p1, p2⟩ := hm
  have pg := (R * F).grid
  generalize R * F = P at *
  generalize R.val * F.val = rf at *
  have p3 := abs_le.1 p2
  have hs := add_is (a := P) (b := z) p1 hz (by
    rw [hz', add_zero]
    refine le_trans ?_ (two_pow_le (show (4 : ℤ) ≤ top .binary32 by decide))
    rw [abs_le]
    constructor <;> norm_num at * <;> linarith)
  rw [hz', add_zero] at hs
  refine ⟨hs.1, ?_⟩
  have e : (P + z).val = P.val := hs.2.exact pg
  rw [e, abs_le]
  constructor <;> norm_num at * <;> linarith

/-- What is asked of the library besides the accuracy: the results are between -1 and 1. -/
structure Bounded (T : Trig) : Prop where
  cos : ∀ y : Dbl, y.Fin → |y.val| ≤ 32 → |(T.cos y).val| ≤ 1
  sin : ∀ y : Dbl, y.Fin → |y.val| ≤ 32 → |(T.sin y).val| ≤ 1
  cosf : ∀ y : Flt, y.Fin → |y.val| ≤ 32 → |(T.cosf y).val| ≤ 1
  sinf : ∀ y : Flt, y.Fin → |y.val| ≤ 32 → |(T.sinf y).val| ≤ 1

/-- A function of the library at an approximate argument. -/
theorem lib_is {s s' : Format} {a : Fp s} {y : Fp s'} {f : ℝ → ℝ} {v e : ℝ} {m : ℕ} (hl : ∀ a b, |f a - f b| ≤ |a - b|) (hb : ∀ a, |f a| ≤ 1) (hy : |y.val - v| ≤ e)
    (h : Approx a (f y.val) (|f y.val| / 2 ^ m + 1 / 2 ^ 100)) : Approx a (f v) (e + 1 / 2 ^ m + 1 / 2 ^ 100) := by
  refine (h.trans ((hl _ _).trans hy)).weaken ?_
  have : |f y.val| / 2 ^ m ≤ 1 / 2 ^ m := div_le_div_of_nonneg_right (hb _) (by positivity)
  linarith

/-- A product of two numbers up to one, rounded to `float`. -/
theorem unit_mul {s : Format} [Fmt s] {a b : Fp s} {v w e f E : ℝ} (hs : s.minExponent + s.mantissaBits ≤ 0) (ht : 0 ≤ top s) (ha : Approx a v e) (hb : Approx b w f) (ha1 : |a.val| ≤ 1)
    (hv : |v| ≤ 1) (hb1 : |b.val| ≤ 1) (hE : (2 : ℝ) ^ (-(s.mantissaBits : ℤ) - 1) + (f + e) ≤ E) : Approx (a * b) (v * w) E ∧ |(a * b).val| ≤ 1 := by
  have h1 : |a.val * b.val| ≤ 2 ^ (0 : ℤ) := by
    rw [abs_mul, zpow_zero]
    exact mul_le_one₀ ha1 (abs_nonneg _) hb1
  have h := mul_is ha.1 hb.1 (h1.trans (two_pow_le ht))
  have h2 : |a.val * b.val - v * w| ≤ f + e := by
    rw [show a.val * b.val - v * w = v * (b.val - w) + (a.val - v) * b.val by ring]
    refine (abs_add_le _ _).trans (add_le_add ?_ ?_)
    · rw [abs_mul]
      calc _ ≤ 1 * f := mul_le_mul hv hb.2 (abs_nonneg _) (by norm_num)
        _ = _ := one_mul _
    · rw [abs_mul]
      calc _ ≤ e * 1 := mul_le_mul ha.2 hb1 (abs_nonneg _) ((abs_nonneg _).trans ha.2)
        _ = _ := mul_one _
  refine ⟨(h.approx 0 (by omega) h1 h2).weaken ?_, ?_⟩
  · rwa [zero_sub]
  · have := h.2.abs_le (k := 0) (by omega) h1
    rwa [zpow_zero] at this

/-- A number up to one in `double` converted to `float`. -/
theorem unit_conv {a : Dbl} {v e E : ℝ} (ha : Approx a v e) (ha1 : |a.val| ≤ 1) (hE : 1 / 2 ^ 25 + e ≤ E) : Approx (narrow a) v E ∧ |(narrow a).val| ≤ 1 := by
  have h1 : |a.val| ≤ 2 ^ (0 : ℤ) := by rwa [zpow_zero]
  have h : (conv a : Flt).Is a.val := conv_is ha.1 (h1.trans (two_pow_le (by decide)))
  refine ⟨(h.approx 0 (by decide) h1 ha.2).weaken (by norm_num [mb] at *; linarith), ?_⟩
  have := h.2.abs_le (k := 0) (by decide) h1
  rwa [zpow_zero] at this

/-- The unit vector of two angles. -/
noncomputable def dir (theta phi : ℝ) : ℝ × ℝ × ℝ := (cos theta * cos phi, cos theta * sin phi, sin theta)

/-- A vector with components up to one, near a vector. -/
def NearUnit (n : V3 Flt) (u : ℝ × ℝ × ℝ) (e : ℝ) : Prop :=
  (Approx n.1 u.1 e ∧ |n.1.val| ≤ 1) ∧ (Approx n.2.1 u.2.1 e ∧ |n.2.1.val| ≤ 1) ∧ (Approx n.2.2 u.2.2 e ∧ |n.2.2.val| ≤ 1)

/-- The normal at approximate angles. -/
theorem normal_is {T : Trig} (hT : Accurate T) (hB : Bounded T) {R S z : Flt} {i j : ℤ} {th ph : ℝ} (h1 : Approx (R * TlsFp.ofInt .binary32 i + z) th (3 / 10 ^ 7))
    (h2 : Approx (S * TlsFp.ofInt .binary32 j + z) ph (113 / 10 ^ 8)) (t1 : |th| ≤ 7) (t2 : |ph| ≤ 7) : NearUnit (normal T z z R S i j) (dir th ph) (1 / 2 ^ 19) := by
  unfold normal
  simp only
  generalize R * TlsFp.ofInt .binary32 i + z = x at *
  generalize S * TlsFp.ofInt .binary32 j + z = y at *
  have x1 : |x.val| ≤ 32 := (h1.abs_le t1).trans (by norm_num)
  have y1 : |y.val| ≤ 32 := (h2.abs_le t2).trans (by norm_num)
  have C : ∀ a b, |cos a - cos b| ≤ |a - b| := fun a b => abs_cos_sub_cos_le a b
  have S' : ∀ a b, |sin a - sin b| ≤ |a - b| := fun a b => abs_sin_sub_sin_le a b
  have c1 := abs_cos_le_one th
  unfold dir NearUnit
  by_cases hd : T.dbl
  · rw [if_pos hd]
    obtain ⟨wx1, wx2⟩ := wide_is h1.1
    obtain ⟨wy1, wy2⟩ := wide_is h2.1
    have ct := lib_is (e := 3 / 10 ^ 7) (v := th) C abs_cos_le_one (by rw [wx2]; exact h1.2) (hT.cos (wide x) wx1 (by rwa [wx2]))
    have st := lib_is (e := 3 / 10 ^ 7) (v := th) S' abs_sin_le_one (by rw [wx2]; exact h1.2) (hT.sin (wide x) wx1 (by rwa [wx2]))
    have cp := lib_is (e := 113 / 10 ^ 8) (v := ph) C abs_cos_le_one (by rw [wy2]; exact h2.2) (hT.cos (wide y) wy1 (by rwa [wy2]))
    have sp := lib_is (e := 113 / 10 ^ 8) (v := ph) S' abs_sin_le_one (by rw [wy2]; exact h2.2) (hT.sin (wide y) wy1 (by rwa [wy2]))
    have ct' := unit_conv (E := 34 / 10 ^ 8) ct (hB.cos _ wx1 (by rwa [wx2])) (by norm_num)
    have st' := unit_conv (E := 34 / 10 ^ 8) st (hB.sin _ wx1 (by rwa [wx2])) (by norm_num)
    have bc := hB.cos _ wy1 (by rwa [wy2])
    have bs := hB.sin _ wy1 (by rwa [wy2])
    obtain ⟨ww1, ww2⟩ := wide_is ct'.1.1
    have cw : Approx (wide (narrow (T.cos (wide x)))) (cos th) (34 / 10 ^ 8) := ⟨ww1, by rw [ww2]; exact ct'.1.2⟩
    have p1 := unit_mul (E := 15 / 10 ^ 7) (by decide) (by decide) cw cp (by rw [ww2]; exact ct'.2) c1 bc (by norm_num [mb])
    have p2 := unit_mul (E := 15 / 10 ^ 7) (by decide) (by decide) cw sp (by rw [ww2]; exact ct'.2) c1 bs (by norm_num [mb])
    exact ⟨unit_conv p1.1 p1.2 (by norm_num), unit_conv p2.1 p2.2 (by norm_num), st'.1.weaken (by norm_num), st'.2⟩
  · rw [if_neg hd]
    have ct := lib_is (e := 3 / 10 ^ 7) (v := th) C abs_cos_le_one h1.2 (hT.cosf x h1.1 x1)
    have st := lib_is (e := 3 / 10 ^ 7) (v := th) S' abs_sin_le_one h1.2 (hT.sinf x h1.1 x1)
    have cp := lib_is (e := 113 / 10 ^ 8) (v := ph) C abs_cos_le_one h2.2 (hT.cosf y h2.1 y1)
    have sp := lib_is (e := 113 / 10 ^ 8) (v := ph) S' abs_sin_le_one h2.2 (hT.sinf y h2.1 y1)
    have bt := hB.cosf x h1.1 x1
    have bc := hB.cosf y h2.1 y1
    have bs := hB.sinf y h2.1 y1
    exact ⟨unit_mul (by decide) (by decide) ct cp bt c1 bc (by norm_num [mb]), unit_mul (by decide) (by decide) ct sp bt c1 bs (by norm_num [mb]),
      st.weaken (by norm_num), hB.sinf x h1.1 x1⟩

/-- The constants of the resolutions. -/
theorem halfPi_is : Approx (FunctionsFp.d 5 1 * mPi) (π / 2) (1 / 2 ^ 49) := by
  have h := approx_lit (spec := .binary64) (m := 5) (k := 1) (-1) (by decide) (by decide) (by decide) (by decide) (by decide) (by norm_num)
  have h' := h.mul mPi_approx 1 (E := 1 / 2 ^ 49) (V := 1 / 2) (W := 315 / 100) (by decide) (by decide) (by norm_num [abs_le]) (by rw [abs_of_pos pi_pos]; linarith [pi_lt_d2])
    (by norm_num [mb]) (by norm_num [mb])
  have e : ((5 : ℕ) : ℝ) / 10 ^ 1 * π = π / 2 := by norm_num; ring
  rw [e] at h'
  exact h'

theorem twoPi_is : Approx (FunctionsFp.d 20 1 * mPi) (2 * π) (1 / 2 ^ 49) := by
  obtain ⟨a, b⟩ := int_lit (n := 2) (by norm_num) (by norm_num)
  have b' : (FunctionsFp.d 20 1).val = 2 := b.trans (by norm_num)
  have h : Approx (FunctionsFp.d 20 1) 2 0 := ⟨a, by rw [b']; norm_num⟩
  exact h.mul mPi_approx 3 (E := 1 / 2 ^ 49) (V := 2) (W := 315 / 100) (by decide) (by decide) (by norm_num) (by rw [abs_of_pos pi_pos]; linarith [pi_lt_d2])
    (by norm_num [mb]) (by norm_num [mb])

theorem zero_lit : (narrow (FunctionsFp.d 0 1)).Fin ∧ (narrow (FunctionsFp.d 0 1)).val = 0 := by
  have : (narrow (FunctionsFp.d 0 1)).x = .zero .positive := by decide +kernel
  unfold Fp.Fin Fp.val
  rw [this]
  exact ⟨trivial, rfl⟩

end Verif.HoughFp
