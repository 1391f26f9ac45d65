import Verif.Geometry2Fp.Cone

/-!
C92: the normalisation of angles and the angle intervals in floating point arithmetic.
-/
namespace Verif.Geometry2Fp
open Ieee Fp Float.Model FunctionsFp Real

theorem k2pif_val : k2pif.Fin ∧ k2pif.val = 13176795 / 2 ^ 21 := by
  have h := val_finite (a := k2pif) (s := .positive) (m := 13176795) (e := -21) (h := by decide) (by decide +kernel)
  refine ⟨h.1, h.2.trans ?_⟩
  norm_num [sgn]

/-- The conversion of a `float` to `double` is exact. -/
theorem wide_is {a : Flt} (ha : a.Fin) : (wide a).Fin ∧ (wide a).val = a.val := by
  have h1 : |a.val| ≤ 2 ^ top Format.binary64 := (val_lt a).le.trans (two_pow_le (by decide))
  have h2 := conv_is (spec := .binary64) ha h1
  refine ⟨h2.1, h2.2.exact ?_⟩
  obtain ⟨q, u, hq, hu, he⟩ := a.grid
  exact ⟨q, u, hq.trans (two_pow_le (by decide)), le_trans (by decide) hu, he⟩

/-- The quotient and its floor, in both variants. -/
theorem quot {a : Flt} (ha : a.Fin) {k : ℤ} (hk : 3 ≤ k) (hk' : k ≤ 21) (hb : |a.val| ≤ 2 ^ k) :
    ∃ n : ℤ, ((floor (a / k2pif)).Fin ∧ (floor (a / k2pif)).val = n) ∧ ((floor (wide (a / k2pif))).Fin ∧ (floor (wide (a / k2pif))).val = n) ∧ |(n : ℝ)| ≤ 2 ^ k ∧
      -(7 * (2 ^ k / 2 ^ 26)) ≤ a.val - n * k2pif.val ∧ a.val - n * k2pif.val ≤ k2pif.val + 7 * (2 ^ k / 2 ^ 26) := by
  obtain ⟨hT, hTv⟩ := k2pif_val
  have h3 : 3 ≤ k2pif.val := by rw [hTv]; norm_num
  have h7 : k2pif.val ≤ 7 := by rw [hTv]; norm_num
  have hT0 : 0 < k2pif.val := by linarith
  obtain ⟨P, hP⟩ : ∃ P : ℝ, P = 2 ^ k := ⟨_, rfl⟩
  have hP8 : 8 ≤ P := by
    have := two_pow_le hk
    rw [← hP] at this
    norm_num at this
    exact this
  have e1 : (2 : ℝ) ^ (k - 1) = P / 2 := by rw [two_pow_sub, zpow_one, hP]
  have e2 : (2 : ℝ) ^ (k - 1 - (Format.binary32.mantissaBits : ℤ) - 1) = P / 2 ^ 26 := by
    rw [two_pow_sub, two_pow_sub, e1, mb.2]
    norm_num
    ring
  have htop : top Format.binary32 = 127 := by decide
  have htop' : top Format.binary64 = 1023 := by decide
  have hmin : Format.binary32.minExponent + Format.binary32.mantissaBits = -125 := by decide
  rw [← hP] at hb ⊢
  have hq1 : |a.val / k2pif.val| ≤ 2 ^ (k - 1) := by
    rw [abs_div, abs_of_pos hT0, div_le_iff₀ hT0, e1]
    nlinarith
  have hq := div_is ha hT hT0.ne' (hq1.trans (two_pow_le (by omega)))
  have hqe := hq.2.err (k := k - 1) (by omega) hq1
  rw [e2] at hqe
  have hqa := hq.2.abs_le (k := k - 1) (by rw [min32]; omega) hq1
  have hw := wide_is hq.1
  change |(a / k2pif).val - a.val / k2pif.val| ≤ _ at hqe
  change |(a / k2pif).val| ≤ _ at hqa
  obtain ⟨q, hqq⟩ : ∃ q, q = (a / k2pif).val := ⟨_, rfl⟩
  rw [← hqq] at hqe hqa hw
  rw [e1] at hqa
  have hf0 : |(⌊q⌋ : ℝ)| ≤ P := by
    have h1 := Int.floor_le q
    have h2 := Int.lt_floor_add_one q
    rw [abs_le] at hqa ⊢
    constructor <;> linarith
  have hf := floor_is hq.1 (by rw [← hqq]; exact hf0.trans (by rw [hP]; exact two_pow_le (by omega)))
  have hf' := floor_is hw.1 (by rw [hw.2]; exact hf0.trans (by rw [hP]; exact two_pow_le (by omega)))
  rw [hw.2] at hf'
  rw [← hqq] at hf
  refine ⟨⌊q⌋, hf, hf', hf0, ?_⟩
  have n1 : (⌊q⌋ : ℝ) ≤ q := Int.floor_le q
  have n2 : q < ⌊q⌋ + 1 := Int.lt_floor_add_one q
  obtain ⟨r, hr⟩ : ∃ r, r = a.val / k2pif.val := ⟨_, rfl⟩
  have hrT : a.val = r * k2pif.val := by rw [hr]; field_simp
  rw [← hr, abs_le] at hqe
  have hrn1 : -(P / 2 ^ 26) ≤ r - ⌊q⌋ := by linarith
  have hrn2 : r - ⌊q⌋ ≤ 1 + P / 2 ^ 26 := by linarith
  have hPp : 0 ≤ P / 2 ^ 26 := by positivity
  constructor
  · rw [hrT, ← sub_mul]
    nlinarith
  · rw [hrT, ← sub_mul]
    nlinarith

/-- C92, partial: for angles up to 2^k, k ≤ 21, and both forms of `floor`, the result is, up to 2^k/2^22, in [0, K_2PI], and differs from the angle, up to 2^k/2^23, by a multiple
of K_2PI. Missing: the exact interval, which fails, and larger angles. -/
theorem C92_normalize_partial (dbl : Bool) (a : Flt) (ha : a.Fin) {k : ℤ} (hk : 3 ≤ k) (hk' : k ≤ 21) (hb : |a.val| ≤ 2 ^ k) :
    (normalizeAngle2Pi dbl a).Fin ∧ (∃ n : ℤ, |(normalizeAngle2Pi dbl a).val - (a.val - n * k2pif.val)| ≤ 2 ^ k / 2 ^ 23) ∧
      -(2 ^ k / 2 ^ 22) ≤ (normalizeAngle2Pi dbl a).val ∧ (normalizeAngle2Pi dbl a).val ≤ k2pif.val + 2 ^ k / 2 ^ 22 := by
  obtain ⟨n, hf, hf', hn, d1, d2⟩ := quot ha hk hk' hb
  obtain ⟨hT, hTv⟩ := k2pif_val
  have h7 : k2pif.val ≤ 7 := by rw [hTv]; norm_num
  have h3 : 3 ≤ k2pif.val := by rw [hTv]; norm_num
  obtain ⟨P, hP⟩ : ∃ P : ℝ, P = 2 ^ k := ⟨_, rfl⟩
  have hP8 : 8 ≤ P := by
    have := two_pow_le hk
    rw [← hP] at this
    norm_num at this
    exact this
  have hP21 : P ≤ 2 ^ 21 := by
    have := two_pow_le hk'
    rw [← hP] at this
    norm_num at this ⊢
    exact this
  have e3 : (2 : ℝ) ^ (k + 1) = P * 2 := by rw [two_pow_add, zpow_one, hP]
  have e4 : (2 : ℝ) ^ (k + 1 - (Format.binary32.mantissaBits : ℤ) - 1) = P / 2 ^ 24 := by
    rw [two_pow_sub, two_pow_sub, e3, mb.2]
    norm_num
    ring
  have htop : top Format.binary32 = 127 := by decide
  have htop' : top Format.binary64 = 1023 := by decide
  have hmin : Format.binary32.minExponent + Format.binary32.mantissaBits = -125 := by decide
  rw [← hP] at hb hn d1 d2 ⊢
  have hPs : P / 2 ^ 26 ≤ 1 / 32 := by
    rw [div_le_iff₀ (by norm_num)]
    norm_num at hP21 ⊢
    linarith
  have e5 : P / 2 ^ 24 = 4 * (P / 2 ^ 26) := by norm_num; ring
  have e6 : P / 2 ^ 23 = 8 * (P / 2 ^ 26) := by norm_num; ring
  have e7 : P / 2 ^ 22 = 16 * (P / 2 ^ 26) := by norm_num; ring
  have e8 : (1 / 2 ^ 22 : ℝ) ≤ 2 * (P / 2 ^ 26) := by norm_num; linarith
  have hm1 : |k2pif.val * n| ≤ 2 ^ (k + 1) := by
    rw [e3]
    rw [abs_le] at hb ⊢
    constructor <;> linarith
  rw [e6, e7]
  cases dbl with
  | false =>
    have hm := mul_is hT hf.1 (by rw [hf.2]; exact hm1.trans (two_pow_le (by omega)))
    rw [hf.2] at hm
    have hme := hm.2.err (k := k + 1) (by omega) hm1
    rw [e4] at hme
    change |(k2pif * floor (a / k2pif)).val - _| ≤ _ at hme
    obtain ⟨w, hw⟩ : ∃ w, w = (k2pif * floor (a / k2pif)).val := ⟨_, rfl⟩
    rw [← hw, abs_le, e5] at hme
    have hs1 : |a.val - w| ≤ 2 ^ (3 : ℤ) := by
      rw [show (2 : ℝ) ^ (3 : ℤ) = 8 by norm_num, abs_le]
      constructor <;> linarith
    have hs := sub_is ha hm.1 (by rw [← hw]; exact hs1.trans (two_pow_le (by decide)))
    rw [← hw] at hs
    have hse := hs.2.err (k := 3) (by decide) hs1
    rw [show (2 : ℝ) ^ (3 - (Format.binary32.mantissaBits : ℤ) - 1) = 1 / 2 ^ 22 by rw [mb.2]; norm_num] at hse
    change |(normalizeAngle2Pi false a).val - (a.val - w)| ≤ _ at hse
    rw [abs_le] at hse
    refine ⟨hs.1, ⟨n, ?_⟩, ?_, ?_⟩
    · rw [abs_le]
      constructor <;> linarith
    · linarith
    · linarith
  | true =>
    have wa := wide_is ha
    have wT := wide_is hT
    have hm1' : |(wide k2pif).val * (floor (wide (a / k2pif))).val| ≤ 2 ^ (k + 1) := by rw [wT.2, hf'.2]; exact hm1
    have hm := mul_exact wT.1 hf'.1 (hm1'.trans (two_pow_le (by omega))) (by
      rw [wT.2, hf'.2, hTv]
      refine ⟨13176795 * n, -21, ?_, by decide, ?_⟩
      · rw [mb.1]
        push_cast
        rw [abs_mul]
        norm_num at hP21 ⊢
        linarith
      · push_cast
        norm_num
        ring)
    rw [wT.2, hf'.2] at hm
    have hs1 : |(wide a).val - (wide k2pif * floor (wide (a / k2pif))).val| ≤ 2 ^ (3 : ℤ) := by
      rw [wa.2, hm.2, show (2 : ℝ) ^ (3 : ℤ) = 8 by norm_num, abs_le]
      constructor <;> linarith
    have hs := sub_is wa.1 hm.1 (hs1.trans (two_pow_le (by decide)))
    have hse := hs.2.err (k := 3) (by decide) hs1
    have hsa := hs.2.abs_le (k := 3) (by decide) hs1
    change |(wide a - wide k2pif * floor (wide (a / k2pif))).val| ≤ _ at hsa
    change |(wide a - wide k2pif * floor (wide (a / k2pif))).val - _| ≤ _ at hse
    rw [show (2 : ℝ) ^ (3 - (Format.binary64.mantissaBits : ℤ) - 1) = 1 / 2 ^ 51 by rw [mb.1]; norm_num, wa.2, hm.2, abs_le] at hse
    have hc := conv_is (spec := .binary32) hs.1 (hsa.trans (two_pow_le (by decide)))
    have hce := hc.2.err (k := 3) (by decide) hsa
    rw [show (2 : ℝ) ^ (3 - (Format.binary32.mantissaBits : ℤ) - 1) = 1 / 2 ^ 22 by rw [mb.2]; norm_num] at hce
    change |(normalizeAngle2Pi true a).val - _| ≤ _ at hce
    rw [abs_le] at hce
    have e9 : (1 / 2 ^ 51 : ℝ) ≤ P / 2 ^ 26 := by
      norm_num
      linarith
    refine ⟨hc.1, ⟨n, ?_⟩, ?_, ?_⟩
    · rw [abs_le]
      constructor <;> linarith
    · linarith
    · linarith

/-- C92, partial: an angle equal to α up to turns, for α not too near to 0 and 2π, is normalised to α up to 2^k/2^21. The turns here are exact, 2π. -/
theorem C92_angle_partial (dbl : Bool) (a : Flt) (ha : a.Fin) {k : ℤ} (hk : 3 ≤ k) (hk' : k ≤ 21) (hb : |a.val| ≤ 2 ^ k) {δ α : ℝ} {m : ℤ} (hδ : δ ≤ 2 ^ k / 2 ^ 25)
    (hα : |a.val - (α + 2 * π * m)| ≤ δ) (h0 : 2 ^ k / 2 ^ 21 ≤ α) (h1 : α ≤ 2 * π - 2 ^ k / 2 ^ 21) :
    (normalizeAngle2Pi dbl a).Fin ∧ |(normalizeAngle2Pi dbl a).val - α| ≤ 3 * 2 ^ k / 2 ^ 24 + δ := by
  obtain ⟨hf, ⟨n, hn⟩, hlo, hhi⟩ := C92_normalize_partial dbl a ha hk hk' hb
  obtain ⟨hT, hTv⟩ := k2pif_val
  obtain ⟨P, hP⟩ : ∃ P : ℝ, P = 2 ^ k := ⟨_, rfl⟩
  have hP8 : 8 ≤ P := by
    have := two_pow_le hk
    rw [← hP] at this
    norm_num at this
    exact this
  have hP21 : P ≤ 2 ^ 21 := by
    have := two_pow_le hk'
    rw [← hP] at this
    norm_num at this ⊢
    exact this
  rw [← hP] at hb hδ h0 h1 hn hlo hhi ⊢
  refine ⟨hf, ?_⟩
  obtain ⟨T, hTT⟩ : ∃ T, T = k2pif.val := ⟨_, rfl⟩
  rw [← hTT] at hn hhi hTv
  obtain ⟨r, hr⟩ : ∃ r, r = (normalizeAngle2Pi dbl a).val := ⟨_, rfl⟩
  rw [← hr] at hn hlo hhi ⊢
  have p1 := pi_gt_d20
  have p2 := pi_lt_d20
  -- the turn of the code
  have t1 : 0 ≤ T - 2 * π := by rw [hTv]; norm_num at p2 ⊢; linarith
  have t2 : T - 2 * π ≤ 3 / 4 / 2 ^ 22 := by rw [hTv]; norm_num at p1 ⊢; linarith
  obtain ⟨ε, hε⟩ : ∃ ε, ε = T - 2 * π := ⟨_, rfl⟩
  have hTe : T = 2 * π + ε := by rw [hε]; ring
  rw [← hε] at t1 t2
  -- the number of turns
  have hm : |(m : ℝ)| ≤ 3 / 10 * P := by
    rw [abs_le] at hα hb ⊢
    norm_num at hδ h0 h1 p1
    constructor
    · by_contra hc
      have : 2 * π * m ≤ 2 * π * (-(3 / 10 * P)) := by apply mul_le_mul_of_nonneg_left _ (by linarith); linarith
      nlinarith
    · by_contra hc
      have : 2 * π * (3 / 10 * P) ≤ 2 * π * m := by apply mul_le_mul_of_nonneg_left _ (by linarith); linarith
      nlinarith
  have hmε : |m * ε| ≤ P / 2 ^ 24 := by
    rw [abs_mul, abs_of_nonneg t1]
    have := mul_le_mul hm t2 t1 (by positivity)
    norm_num at this ⊢
    linarith
  have key : r - α = (r - (a.val - n * T)) + (a.val - (α + 2 * π * m)) + ((m - n : ℤ) : ℝ) * T - m * ε := by
    rw [hTe]
    push_cast
    ring
  have hj : m - n = 0 := by
    have hT6 : 6 ≤ T := by rw [hTv]; norm_num
    rw [abs_le] at hn hα hmε
    norm_num at hδ h0 h1 hn hmε hlo hhi hP21
    by_contra hc
    rcases lt_or_gt_of_ne hc with h | h
    · have h2 : ((m - n : ℤ) : ℝ) ≤ -1 := by
        have : m - n ≤ -1 := by omega
        exact_mod_cast this
      have h3 : ((m - n : ℤ) : ℝ) * T ≤ -T := by nlinarith
      linarith
    · have h2 : (1 : ℝ) ≤ ((m - n : ℤ) : ℝ) := by
        have : 1 ≤ m - n := by omega
        exact_mod_cast this
      have h3 : T ≤ ((m - n : ℤ) : ℝ) * T := by nlinarith
      linarith
  rw [key, hj]
  rw [abs_le] at hn hα hmε ⊢
  norm_num at hn hmε ⊢
  constructor <;> linarith

/-- C92, partial: whether an angle is in an interval is decided right, when the angle and the end are not too near to the begin, nor to each other; α and ω are the exact angles
from the begin, up to exact turns 2π. Missing: angles near the ends, for which the test is wrong. -/
theorem C92_interval_partial (dbl : Bool) (a b e : Flt) {k : ℤ} (hk : 3 ≤ k) (hk' : k ≤ 20) (ha : a.Fin ∧ |a.val| ≤ 2 ^ k) (hb : b.Fin ∧ |b.val| ≤ 2 ^ k) (he : e.Fin ∧ |e.val| ≤ 2 ^ k)
    {α ω : ℝ} {m n : ℤ} (hα : a.val - b.val = α + 2 * π * m) (hω : e.val - b.val = ω + 2 * π * n) (α0 : 2 ^ k / 2 ^ 20 ≤ α) (α1 : α ≤ 2 * π - 2 ^ k / 2 ^ 20)
    (ω0 : 2 ^ k / 2 ^ 20 ≤ ω) (ω1 : ω ≤ 2 * π - 2 ^ k / 2 ^ 20) (hs : 2 ^ k / 2 ^ 20 < |α - ω|) :
    (insideAngleInterval dbl a b e = true ↔ α < ω) ∧ (insideAngleIntervalEq dbl a b e = true ↔ α < ω) := by
  have e1 : (2 : ℝ) ^ (k + 1) = 2 * 2 ^ k := by rw [two_pow_add, zpow_one, mul_comm]
  have e2 : (2 : ℝ) ^ (k + 1 - (Format.binary32.mantissaBits : ℤ) - 1) = 2 ^ k / 2 ^ 24 := by
    rw [two_pow_sub, two_pow_sub, e1, mb.2]
    norm_num
    ring
  have diff : ∀ {c : Flt} {γ : ℝ} {j : ℤ}, c.Fin ∧ |c.val| ≤ 2 ^ k → c.val - b.val = γ + 2 * π * j → 2 ^ k / 2 ^ 20 ≤ γ → γ ≤ 2 * π - 2 ^ k / 2 ^ 20 →
      (normalizeAngle2Pi dbl (c - b)).Fin ∧ |(normalizeAngle2Pi dbl (c - b)).val - γ| ≤ 7 * 2 ^ k / 2 ^ 24 := by
    intro c γ j hc hγ g0 g1
    have h1 : |c.val - b.val| ≤ 2 ^ (k + 1) := by
      rw [e1]
      have := abs_sub c.val b.val
      linarith [hc.2, hb.2]
    have hi := sub_is hc.1 hb.1 (h1.trans (two_pow_le (by rw [top32]; omega)))
    have h2 : |(c - b).val - _| ≤ _ := hi.2.err (k := k + 1) (by rw [min32, mb.2]; omega) h1
    have h3 : |(c - b).val| ≤ _ := hi.2.abs_le (k := k + 1) (by rw [min32]; omega) h1
    rw [e2, hγ] at h2
    have := C92_angle_partial dbl (c - b) hi.1 (k := k + 1) (by omega) (by omega) h3 (by rw [e1]; norm_num; linarith) h2 (by rw [e1]; norm_num at g0 ⊢; linarith) (by rw [e1]; norm_num at g1 ⊢; linarith)
    refine ⟨this.1, this.2.trans ?_⟩
    rw [e1]
    norm_num
    linarith
  obtain ⟨f1, g1⟩ := diff ha hα α0 α1
  obtain ⟨f2, g2⟩ := diff he hω ω0 ω1
  unfold insideAngleInterval insideAngleIntervalEq
  rw [decide_eq_true_eq, decide_eq_true_eq, lt_iff f1 f2, le_iff f1 f2]
  have hP := two_pow_pos k
  rw [abs_le] at g1 g2
  norm_num at g1 g2 hs
  rcases lt_or_ge α ω with h | h
  · rw [abs_of_neg (by linarith)] at hs
    exact ⟨⟨fun _ => h, fun _ => by linarith⟩, ⟨fun _ => h, fun _ => by linarith⟩⟩
  · rw [abs_of_nonneg (by linarith)] at hs
    exact ⟨⟨fun _ => by linarith, fun _ => by linarith⟩, ⟨fun _ => by linarith, fun _ => by linarith⟩⟩


/-- A `float` below the turn is below it by an ulp. -/
theorem gapf {a : Flt} (h1 : a.val < k2pif.val) : a.val ≤ 13176794 / 2 ^ 21 := by
  obtain ⟨p, u, hp, hu, he⟩ := a.grid
  rw [he, k2pif_val.2] at h1
  rw [he]
  rcases le_or_gt (-21) u with hj | hj
  · obtain ⟨n, hn⟩ : ∃ n : ℕ, u = -21 + n := ⟨(u + 21).toNat, by omega⟩
    have h9 : (p : ℝ) * 2 ^ u = ((p * 2 ^ n : ℤ) : ℝ) / 2 ^ 21 := by
      rw [hn, two_pow_add, zpow_natCast]
      push_cast
      norm_num
      ring
    rw [h9] at h1 ⊢
    rw [div_lt_div_iff_of_pos_right (by norm_num)] at h1
    rw [div_le_div_iff_of_pos_right (by norm_num)]
    have h11 : p * 2 ^ n < 13176795 := by exact_mod_cast h1
    have h12 : p * 2 ^ n ≤ 13176794 := by omega
    exact_mod_cast h12
  · have h13 : (p : ℝ) * 2 ^ u ≤ 2 ^ 24 * 2 ^ u := by
      apply mul_le_mul_of_nonneg_right _ (two_pow_pos u).le
      have := (abs_le.1 hp).2
      rw [mb.2] at this
      exact_mod_cast this
    have h14 : (2 : ℝ) ^ u ≤ 2 ^ (-22 : ℤ) := two_pow_le (by omega)
    norm_num at h13 h14 ⊢
    linarith

/-- C92, partial: an angle in [0, K_2PI) is not changed. -/
theorem C92_fixed_partial (dbl : Bool) (a : Flt) (ha : a.Fin) (h0 : 0 ≤ a.val) (h1 : a.val < k2pif.val) : (normalizeAngle2Pi dbl a).Fin ∧ (normalizeAngle2Pi dbl a).val = a.val := by
  obtain ⟨hT, hTv⟩ := k2pif_val
  have hT0 : 0 < k2pif.val := by rw [hTv]; norm_num
  have hg' := gapf h1
  have hq0 : 0 ≤ a.val / k2pif.val := div_nonneg h0 hT0.le
  have hq1 : a.val / k2pif.val ≤ 1 - 1 / 2 ^ 24 := by
    rw [div_le_iff₀ hT0, hTv]
    norm_num at hg' ⊢
    linarith
  have hq : (a / k2pif).Is (a.val / k2pif.val) := div_is ha hT hT0.ne' (by
    refine le_trans ?_ (two_pow_le (j := 0) (by decide))
    rw [abs_of_nonneg hq0, zpow_zero]
    norm_num at hq1
    linarith)
  have hg : Grid .binary32 ((1 : ℝ) - 1 / 2 ^ 24) := by
    refine ⟨2 ^ 24 - 1, -24, ?_, by decide, ?_⟩
    · rw [mb.2]
      norm_num
    · norm_num
  have hq2 : 0 ≤ (a / k2pif).val := hq.2.mono_ge grid_zero hq0
  have hq3 : (a / k2pif).val ≤ 1 - 1 / 2 ^ 24 := hq.2.mono_le hg hq1
  have hfl : ⌊(a / k2pif).val⌋ = 0 := by
    rw [Int.floor_eq_iff]
    norm_num at hq3 ⊢
    exact ⟨hq2, by linarith⟩
  have h8 : |a.val| ≤ 2 ^ (3 : ℤ) := by
    rw [abs_of_nonneg h0]
    norm_num at hg' ⊢
    linarith
  cases dbl with
  | false =>
    have hf := floor_is hq.1 (by rw [hfl, Int.cast_zero, abs_zero]; exact (two_pow_pos _).le)
    rw [hfl, Int.cast_zero] at hf
    have hm := mul_is hT hf.1 (by rw [hf.2, mul_zero, abs_zero]; exact (two_pow_pos _).le)
    rw [hf.2, mul_zero] at hm
    have hm0 : (k2pif * floor (a / k2pif)).val = 0 := hm.2.exact grid_zero
    have hs := sub_is ha hm.1 (by rw [hm0, sub_zero]; exact h8.trans (two_pow_le (by decide)))
    rw [hm0, sub_zero] at hs
    exact ⟨hs.1, hs.2.exact a.grid⟩
  | true =>
    have wq := wide_is hq.1
    have wa := wide_is ha
    have wT := wide_is hT
    have hf := floor_is wq.1 (by rw [wq.2, hfl, Int.cast_zero, abs_zero]; exact (two_pow_pos _).le)
    rw [wq.2, hfl, Int.cast_zero] at hf
    have hm := mul_is wT.1 hf.1 (by rw [hf.2, mul_zero, abs_zero]; exact (two_pow_pos _).le)
    rw [hf.2, mul_zero] at hm
    have hm0 : (wide k2pif * floor (wide (a / k2pif))).val = 0 := hm.2.exact grid_zero
    have hs := sub_is wa.1 hm.1 (by rw [hm0, sub_zero, wa.2]; exact h8.trans (two_pow_le (by decide)))
    rw [hm0, sub_zero] at hs
    have hv : (wide a - wide k2pif * floor (wide (a / k2pif))).val = a.val := (hs.2.exact (wide a).grid).trans wa.2
    have hc := conv_is (spec := .binary32) hs.1 (by rw [hv]; exact h8.trans (two_pow_le (by decide)))
    rw [hv] at hc
    exact ⟨hc.1, hc.2.exact a.grid⟩

/-- The full statement: the result is the angle modulo turns in [0, 2π), up to rounding, and an interval contains its begin. -/
def C92_statement (dbl : Bool) : Prop := (∀ a : Flt, a.Fin → 0 ≤ (normalizeAngle2Pi dbl a).val ∧ (normalizeAngle2Pi dbl a).val < 2 * π) ∧
  ∀ b e : Flt, b.Fin → e.Fin → insideAngleIntervalEq dbl b b e = true

/-- C92 fails above: a tiny negative angle gives K_2PI, greater than 2π. -/
theorem C92_upper_violated (dbl : Bool) : normalizeAngle2Pi dbl (-f 1 10) = k2pif ∧ 2 * π < k2pif.val := by
  refine ⟨by revert dbl; decide +kernel, ?_⟩
  rw [k2pif_val.2]
  have := pi_lt_d20
  norm_num at this ⊢
  linarith

/-- C92 fails below: about three turns with `floor` in `double`, and five turns with `floor` in `float`, give a negative result; then the closed interval from 0 does not contain its
begin 0. -/
theorem C92_lower_violated : (normalizeAngle2Pi true (f 1884955596923828 14)).val < 0 ∧ insideAngleIntervalEq true (f 0 1) (f 0 1) (f 1884955596923828 14) = false ∧
    (normalizeAngle2Pi false (f 31415925979614258 15)).val < 0 ∧ insideAngleIntervalEq false (f 0 1) (f 0 1) (f 31415925979614258 15) = false := by
  have h1 := (val_finite (a := normalizeAngle2Pi true (f 1884955596923828 14)) (s := .negative) (m := 8388608) (e := -44) (h := by decide) (by decide +kernel)).2
  have h2 := (val_finite (a := normalizeAngle2Pi false (f 31415925979614258 15)) (s := .negative) (m := 8388608) (e := -42) (h := by decide) (by decide +kernel)).2
  rw [h1, h2]
  refine ⟨by norm_num [sgn], by decide +kernel, by norm_num [sgn], by decide +kernel⟩

/-- C92 fails for large angles: with `floor` in `double`, 10^10 gives less than −335. -/
theorem C92_large_violated : normalizeAngle2Pi true (f 100000000000 1) < -f 335 0 := by decide +kernel

theorem C92_violated (dbl : Bool) : ¬ C92_statement dbl := by
  intro h
  have h1 := (h.1 (-f 1 10) (by decide +kernel)).2
  rw [(C92_upper_violated dbl).1] at h1
  linarith [(C92_upper_violated dbl).2]

-- an angle in the interval, and one beyond a turn
example : normalizeAngle2Pi true (f 5 1) = f 5 1 ∧ normalizeAngle2Pi false (f 5 1) = f 5 1 ∧ insideAngleInterval true (f 75 1) (f 10 1) (f 20 1) = true := by decide +kernel

end Verif.Geometry2Fp
