import Verif.FunctionsFp.CosSin

/-!
C90: `fastCosSinf` in floating point arithmetic.
-/
namespace Verif.FunctionsFp
open Ieee Fp Float.Model Real

theorem litHalff : Approx (f 5 1) (1 / 2) 0 := by
  have h1 : (f 5 1).x = .finite .positive 8388608 (-24) (by decide) := by decide +kernel
  refine ⟨by decide +kernel, ?_⟩
  unfold Fp.val
  rw [h1]
  simp only [Ieee.val, sgn]
  norm_num

theorem litOnef : Approx (f 10 1) 1 0 := by
  have h1 : (f 10 1).x = .finite .positive 8388608 (-23) (by decide) := by decide +kernel
  refine ⟨by decide +kernel, ?_⟩
  unfold Fp.val
  rw [h1]
  simp only [Ieee.val, sgn]
  norm_num

theorem litQuarterf : Approx (f 25 2) (1 / 4) 0 := by
  have h1 : (f 25 2).x = .finite .positive 8388608 (-25) (by decide) := by decide +kernel
  refine ⟨by decide +kernel, ?_⟩
  unfold Fp.val
  rw [h1]
  simp only [Ieee.val, sgn]
  norm_num

theorem litQuarterw : Approx (wide (f 25 2)) (1 / 4) 0 := by
  have h1 : (wide (f 25 2)).x = .finite .positive 4503599627370496 (-54) (by decide) := by decide +kernel
  refine ⟨by decide +kernel, ?_⟩
  unfold Fp.val
  rw [h1]
  simp only [Ieee.val, sgn]
  norm_num

theorem factorf_val : factorf.Fin ∧ factorf.val = 10680707 / 2 ^ 26 := by
  have h1 : factorf.x = .finite .positive 10680707 (-26) (by decide) := by decide +kernel
  refine ⟨by decide +kernel, ?_⟩
  unfold Fp.val
  rw [h1]
  simp only [Ieee.val, sgn]
  norm_num

theorem factorf_err : |2 * π * factorf.val - 1| ≤ 1 / 2 ^ 24 := by
  rw [factorf_val.2, abs_le]
  have h1 := pi_gt_d20
  have h2 := pi_lt_d20
  constructor <;> norm_num at h1 h2 ⊢ <;> linarith

theorem pw32 (k : ℤ) : (2 : ℝ) ^ (k - (Format.binary32.mantissaBits : ℤ) - 1) = 2 ^ k / 2 ^ 25 := by
  rw [two_pow_sub, two_pow_sub, mb.2]
  norm_num
  ring

theorem pw64 (k : ℤ) : (2 : ℝ) ^ (k - (Format.binary64.mantissaBits : ℤ) - 1) = 2 ^ k / 2 ^ 54 := by
  rw [two_pow_sub, two_pow_sub, mb.1]
  norm_num
  ring

theorem pw1 (k : ℤ) : (2 : ℝ) ^ (k + 1) = 2 * 2 ^ k := by rw [two_pow_add, zpow_one, mul_comm]

/-- The last line of each part. -/
theorem parabf_approx {y : Flt} {v : ℝ} (hy : Approx y v (3 / 2 ^ 22)) (hv : |v| ≤ 9 / 8) : Approx (parabf y) (v + 225 / 1000 * v * (|v| - 1)) (1 / 2 ^ 19) := by
  have e : |(|v| - 1)| ≤ 1 := by
    rw [abs_le] at hv ⊢
    constructor <;> cases _root_.abs_cases v <;> linarith
  have hw : Approx (wide y) v (4 / 2 ^ 22) := hy.conv 1 (by decide) (by decide) hv (by norm_num) (by norm_num [mb])
  have h1 := lit225.mul hw (E := 1 / 2 ^ 22) (V := 225 / 1000) (W := 9 / 8) (-1) (by decide) (by decide) (by rw [abs_le]; constructor <;> norm_num) hv (by norm_num) (by norm_num [mb])
  have h2 := hy.abs.sub' litOnef (E := 2 / 2 ^ 21) (V := 1) 1 (by decide) (by decide) e (by norm_num) (by norm_num [mb])
  have h2' : Approx (wide (abs y - f 10 1)) (|v| - 1) (5 / 2 ^ 22) := h2.conv 1 (by decide) (by decide) e (by norm_num) (by norm_num [mb])
  have h3 : |225 / 1000 * v| ≤ 1 / 3 := by
    rw [abs_mul, abs_of_pos (by norm_num)]
    linarith
  have h4 := h1.mul h2' (E := 3 / 2 ^ 22) (V := 1 / 3) (W := 1) (-1) (by decide) (by decide) h3 e (by norm_num) (by norm_num [mb])
  have h5 : |225 / 1000 * v * (|v| - 1)| ≤ 1 / 3 := by
    rw [abs_mul]
    have := mul_le_mul h3 e (abs_nonneg _) (by norm_num)
    linarith
  have h6 := hw.add h4 (E := 15 / 2 ^ 23) 1 (by decide) (by decide) hv h5 (by norm_num) (by norm_num [mb])
  have h7 : |v + 225 / 1000 * v * (|v| - 1)| ≤ 3 / 2 := (abs_add_le _ _).trans (by linarith)
  exact h6.conv 1 (by decide) (by decide) h7 (by norm_num) (by norm_num [mb])

theorem shapeSinf_approx {s : Flt} (hs : s.Fin) (hp : |s.val| ≤ 9 / 16) : Approx (shapeSinf s) (Functions.shape s.val) (1 / 2 ^ 19) := by
  obtain ⟨h1, h2, h3⟩ := abs_half hp
  have a0 := approx_self hs
  have b0 : Approx (wide s) s.val (1 / 2 ^ 54) := a0.conv 0 (by decide) (by decide) hp (by norm_num) (by norm_num [mb])
  have b1 : Approx (wide (abs s)) |s.val| (1 / 2 ^ 54) := a0.abs.conv (V := 9 / 16) 0 (by decide) (by decide) (by rwa [abs_abs]) (by norm_num) (by norm_num [mb])
  have a1 := litHalf.sub' b1 (E := 1 / 2 ^ 52) (V := 1 / 2) 0 (by decide) (by decide) h3 (by norm_num) (by norm_num [mb])
  have a2 := litSixteen.mul a1 (E := 1 / 2 ^ 47) (V := 16) (W := 1 / 2) 4 (by decide) (by decide) (by norm_num) h3 (by norm_num) (by norm_num [mb])
  have a3 := b0.mul a2 (E := 1 / 2 ^ 46) (V := 9 / 16) (W := 8) 3 (by decide) (by decide) hp h2 (by norm_num) (by norm_num [mb])
  have a4 : Approx (narrow (wide s * (d 160 1 * (d 5 1 - wide (abs s))))) _ (3 / 2 ^ 22) := a3.conv 1 (by decide) (by decide) h1 (by norm_num) (by norm_num [mb])
  exact parabf_approx a4 h1

theorem shapeCosf_approx {s : Flt} (hs : s.Fin) (hp : |s.val| ≤ 9 / 16) : Approx (shapeCosf s) (Functions.shape (-s.val)) (1 / 2 ^ 19) := by
  obtain ⟨h1, h2, h3⟩ := abs_half hp
  have a0 := approx_self hs
  rw [abs_sub_comm] at h3
  have b0 : Approx (wide s) s.val (1 / 2 ^ 54) := a0.conv 0 (by decide) (by decide) hp (by norm_num) (by norm_num [mb])
  have a1 := a0.abs.sub' litHalff (E := 1 / 2 ^ 26) (V := 1 / 2) (-1) (by decide) (by decide) h3 (by norm_num) (by norm_num [mb])
  have b1 : Approx (wide (abs s - f 5 1)) (|s.val| - 1 / 2) (9 / 2 ^ 29) := a1.conv 0 (by decide) (by decide) h3 (by norm_num) (by norm_num [mb])
  have a2 := litSixteen.mul b1 (E := 10 / 2 ^ 25) (V := 16) (W := 1 / 2) 4 (by decide) (by decide) (by norm_num) h3 (by norm_num) (by norm_num [mb])
  have h4 : |16 * (|s.val| - 1 / 2)| ≤ 8 := by
    rw [abs_mul, abs_of_pos (by norm_num : (0 : ℝ) < 16)]
    linarith
  have a3 := b0.mul a2 (E := 6 / 2 ^ 25) (V := 9 / 16) (W := 8) 3 (by decide) (by decide) hp h4 (by norm_num) (by norm_num [mb])
  have e : s.val * (16 * (|s.val| - 1 / 2)) = -s.val * (16 * (1 / 2 - |-s.val|)) := by
    rw [abs_neg]
    ring
  rw [e] at a3
  rw [← abs_neg] at hp
  have h5 := (abs_half hp).1
  have a4 : Approx (narrow (wide s * (d 160 1 * wide (abs s - f 5 1)))) _ (3 / 2 ^ 22) := a3.conv 1 (by decide) (by decide) h5 (by norm_num) (by norm_num [mb])
  exact parabf_approx a4 h5

/-- The number of turns. -/
theorem turnsf {x : Flt} (hx : x.Fin) {k : ℤ} (hk : 0 ≤ k) (hk' : k ≤ 17) (hb : |x.val| ≤ 2 ^ k) :
    (x * factorf).Fin ∧ |(x * factorf).val| ≤ 2 ^ k / 4 ∧ |2 * π * (x * factorf).val - x.val| ≤ 2 ^ k / 2 ^ 23 := by
  have htop : top Format.binary32 = 127 := by decide
  have hmin : Format.binary32.minExponent + Format.binary32.mantissaBits = -125 := by decide
  have hmin' : Format.binary32.minExponent = -149 := by decide
  have hP := two_pow_pos k
  have e1 : (2 : ℝ) ^ (k - 2) = 2 ^ k / 4 := by rw [two_pow_sub]; norm_num
  have e2 : (2 : ℝ) ^ (k - 2 - (Format.binary32.mantissaBits : ℤ) - 1) = 2 ^ k / 2 ^ 27 := by
    rw [pw32, e1]
    norm_num
    ring
  have h1 : |x.val * factorf.val| ≤ 2 ^ (k - 2) := by
    rw [abs_mul, e1, factorf_val.2, abs_of_pos (by norm_num : (0 : ℝ) < 10680707 / 2 ^ 26)]
    norm_num
    linarith
  have h2 := mul_is hx factorf_val.1 (h1.trans (two_pow_le (by omega)))
  have h3 := h2.2.err (k := k - 2) (by omega) h1
  have h4 := h2.2.abs_le (k := k - 2) (by omega) h1
  rw [e2] at h3
  rw [e1] at h4
  change |(x * factorf).val - _| ≤ _ at h3
  refine ⟨h2.1, h4, ?_⟩
  have h5 := pi_lt_d2
  have h6 := pi_pos
  have h7 : |2 * π * ((x * factorf).val - x.val * factorf.val)| ≤ 7 * (2 ^ k / 2 ^ 27) := by
    rw [abs_mul, abs_of_pos (by linarith)]
    apply mul_le_mul (by linarith) h3 (abs_nonneg _) (by norm_num)
  have h8 : |x.val * (2 * π * factorf.val - 1)| ≤ 2 ^ k * (1 / 2 ^ 24) := by
    rw [abs_mul]
    exact mul_le_mul hb factorf_err (abs_nonneg _) hP.le
  have h9 := abs_add_le (2 * π * ((x * factorf).val - x.val * factorf.val)) (x.val * (2 * π * factorf.val - 1))
  rw [show 2 * π * ((x * factorf).val - x.val * factorf.val) + x.val * (2 * π * factorf.val - 1) = 2 * π * (x * factorf).val - x.val by ring] at h9
  have h10 : 7 * ((2 : ℝ) ^ k / 2 ^ 27) + 2 ^ k * (1 / 2 ^ 24) ≤ 2 ^ k / 2 ^ 23 := by
    norm_num
    linarith
  linarith

/-- The remainder of the sine part. -/
theorem redSinf_approx {t : Flt} (ht : t.Fin) {k : ℤ} (hk : 0 ≤ k) (hk' : k ≤ 17) (hb : |t.val| ≤ 2 ^ k / 4) :
    ∃ n : ℤ, |t.val - n| ≤ 1 / 2 + 2 ^ k / 2 ^ 24 ∧ Approx (redSinf t) (t.val - n) (2 ^ k / 2 ^ 23) := by
  have htop : top Format.binary64 = 1023 := by decide
  have hmin : Format.binary64.minExponent + Format.binary64.mantissaBits = -1021 := by decide
  have hP := two_pow_pos k
  have hP1 : (1 : ℝ) ≤ 2 ^ k := by have := two_pow_le hk; rwa [zpow_zero] at this
  have hP2 : (2 : ℝ) ^ k ≤ 2 ^ 17 := by have := two_pow_le hk'; norm_num at this ⊢; exact this
  have w : Approx (wide t) t.val (2 ^ k / 2 ^ 54) := (approx_self ht).conv k (by omega) (by omega) hb (by linarith) (by rw [pw64]; linarith)
  have u := w.add litHalf (E := 2 ^ k / 2 ^ 52) (W := 1 / 2) (k + 1) (by omega) (by omega) hb (by norm_num) (by rw [pw1]; norm_num; linarith) (by rw [pw64, pw1]; norm_num; linarith)
  obtain ⟨r, hr⟩ : ∃ r, r = (wide t + d 5 1).val := ⟨_, rfl⟩
  have hu := u.2
  rw [← hr] at hu
  have n1 := Int.floor_le r
  have n2 := Int.lt_floor_add_one r
  have h0 : (2 : ℝ) ^ k / 2 ^ 52 ≤ 1 / 8 := by norm_num at hP2 ⊢; linarith
  rw [abs_le] at hu hb
  have hf := floor_is u.1 (by
    rw [← hr]
    refine le_trans ?_ (two_pow_le (j := k + 1) (by omega))
    rw [pw1, abs_le]
    constructor <;> linarith)
  rw [← hr] at hf
  obtain ⟨n, hn⟩ : ∃ n, n = ⌊r⌋ := ⟨_, rfl⟩
  rw [← hn] at n1 n2 hf
  have h4 : |t.val - n| ≤ 1 / 2 + 2 ^ k / 2 ^ 52 := by
    rw [abs_le]
    constructor <;> linarith
  have b : Approx (floor (wide t + d 5 1)) n 0 := ⟨hf.1, by rw [hf.2]; simp⟩
  have s := w.sub' b (E := 2 ^ k / 2 ^ 52) 0 (by decide) (by decide) h4 (by norm_num at h0 ⊢; linarith) (by rw [pw64, zpow_zero]; norm_num; linarith)
  have s' : Approx (redSinf t) (t.val - n) (2 ^ k / 2 ^ 23) := s.conv 0 (by decide) (by decide) h4 (by norm_num at h0 ⊢; linarith) (by rw [pw32, zpow_zero]; norm_num; linarith)
  refine ⟨n, h4.trans ?_, s'⟩
  norm_num
  linarith

/-- The remainder of the cosine part. -/
theorem redCosf_approx (dbl : Bool) {t : Flt} (ht : t.Fin) {k : ℤ} (hk : 0 ≤ k) (hk' : k ≤ 17) (hb : |t.val| ≤ 2 ^ k / 4) :
    ∃ n : ℤ, |t.val - (1 / 4 + n)| ≤ 1 / 2 + 2 ^ k / 2 ^ 24 ∧ Approx (redCosf dbl t) (t.val - (1 / 4 + n)) (2 ^ k / 2 ^ 23) := by
  have htop : top Format.binary64 = 1023 := by decide
  have hmin : Format.binary64.minExponent + Format.binary64.mantissaBits = -1021 := by decide
  have htop' : top Format.binary32 = 127 := by decide
  have hmin' : Format.binary32.minExponent + Format.binary32.mantissaBits = -125 := by decide
  have hP := two_pow_pos k
  have hP1 : (1 : ℝ) ≤ 2 ^ k := by have := two_pow_le hk; rwa [zpow_zero] at this
  have hP2 : (2 : ℝ) ^ k ≤ 2 ^ 17 := by have := two_pow_le hk'; norm_num at this ⊢; exact this
  have h0 : (2 : ℝ) ^ k / 2 ^ 24 ≤ 1 / 2 ^ 7 := by norm_num at hP2 ⊢; linarith
  have u := (approx_self ht).add litQuarterf (E := 2 ^ k / 2 ^ 25) (W := 1 / 4) k (by omega) (by omega) hb (by norm_num) (by norm_num; linarith) (by rw [pw32]; norm_num)
  have hq : |t.val + 1 / 4| ≤ 2 ^ k := by
    rw [abs_le] at hb ⊢
    constructor <;> linarith
  -- the floor of a number near t + 1/4
  have key : ∀ r : ℝ, |r - (t.val + 1 / 4)| ≤ 2 ^ k / 2 ^ 24 → |t.val - (1 / 4 + ⌊r⌋)| ≤ 1 / 2 + 2 ^ k / 2 ^ 24 ∧ |(⌊r⌋ : ℝ)| ≤ 2 ^ (k + 1) := by
    intro r hr
    have n1 := Int.floor_le r
    have n2 := Int.lt_floor_add_one r
    rw [abs_le] at hr hb
    norm_num at h0
    constructor
    · rw [abs_le]
      constructor <;> linarith
    · rw [pw1, abs_le]
      constructor <;> linarith
  cases dbl with
  | true =>
    have w : Approx (wide t) t.val (2 ^ k / 2 ^ 54) := (approx_self ht).conv k (by omega) (by omega) hb (by linarith) (by rw [pw64]; linarith)
    have wu : Approx (wide (t + f 25 2)) (t.val + 1 / 4) (2 ^ k / 2 ^ 24) := u.conv (k + 1) (by omega) (by omega) hq (by rw [pw1]; norm_num; linarith)
      (by rw [pw64, pw1]; norm_num; linarith)
    obtain ⟨h4, h5⟩ := key _ wu.2
    have hf := floor_is wu.1 (h5.trans (two_pow_le (by omega)))
    refine ⟨⌊(wide (t + f 25 2)).val⌋, h4, ?_⟩
    generalize ⌊(wide (t + f 25 2)).val⌋ = n at h4 h5 hf ⊢
    have b : Approx (floor (wide (t + f 25 2))) n 0 := ⟨hf.1, by rw [hf.2]; simp⟩
    have c := litQuarterw.add b (E := 2 ^ k / 2 ^ 52) (V := 1 / 4) (k + 2) (by omega) (by omega) (by norm_num) h5
      (by rw [pw1, show k + 2 = k + 1 + 1 by ring, pw1, pw1]; norm_num; linarith) (by rw [pw64, show k + 2 = k + 1 + 1 by ring, pw1, pw1]; norm_num; linarith)
    have s := w.sub' c (E := 2 ^ k / 2 ^ 50) 0 (by decide) (by decide) h4 (by norm_num at h0 ⊢; linarith) (by rw [pw64, zpow_zero]; norm_num; linarith)
    exact s.conv 0 (by decide) (by decide) h4 (by norm_num at h0 ⊢; linarith) (by rw [pw32, zpow_zero]; norm_num; linarith)
  | false =>
    obtain ⟨h4, h5⟩ := key _ (u.2.trans (by norm_num; linarith))
    have hf := floor_is u.1 (h5.trans (two_pow_le (by omega)))
    refine ⟨⌊(t + f 25 2).val⌋, h4, ?_⟩
    generalize ⌊(t + f 25 2).val⌋ = n at h4 h5 hf ⊢
    have h6 : |(1 / 4 + n : ℝ)| ≤ 3 / 2 * 2 ^ k := by
      rw [abs_le] at h4 hb ⊢
      norm_num at h0
      constructor <;> linarith
    have b : (f 25 2 + floor (t + f 25 2)).Is (1 / 4 + n) := by
      have := add_is litQuarterf.1 hf.1 (by
        rw [hf.2, show (f 25 2).val = 1 / 4 by have := litQuarterf.2; rwa [abs_nonpos_iff, sub_eq_zero] at this]
        refine h6.trans (le_trans ?_ (two_pow_le (j := k + 1) (by omega)))
        rw [pw1]
        linarith)
      rwa [hf.2, show (f 25 2).val = 1 / 4 by have := litQuarterf.2; rwa [abs_nonpos_iff, sub_eq_zero] at this] at this
    have c := b.approx (v := 1 / 4 + n) (e := 0) (k + 1) (by omega) (by rw [pw1]; linarith) (by simp)
    rw [pw32, pw1, add_zero] at c
    exact (approx_self ht).sub' c 0 (by decide) (by decide) h4 (by norm_num at h0 ⊢; linarith) (by rw [pw32, zpow_zero]; norm_num; linarith)

/-- C90, partial: for every `float` up to 2^k, k ≤ 17, the results are finite and differ from the cosine and the sine by at most 0.0012 + 2^k/2^17, whichever `floor` is used.
Missing: larger arguments, where it fails. -/
theorem C90_cosSinf_partial (dbl : Bool) (x : Flt) (hx : x.Fin) (k : ℤ) (hk : 0 ≤ k) (hk' : k ≤ 17) (hb : |x.val| ≤ 2 ^ k) :
    ((fastCosSinf dbl x).1.Fin ∧ |(fastCosSinf dbl x).1.val - cos x.val| ≤ 12 / 10000 + 2 ^ k / 2 ^ 17) ∧
    ((fastCosSinf dbl x).2.Fin ∧ |(fastCosSinf dbl x).2.val - sin x.val| ≤ 12 / 10000 + 2 ^ k / 2 ^ 17) := by
  have hP1 : (1 : ℝ) ≤ 2 ^ k := by have := two_pow_le hk; rwa [zpow_zero] at this
  have hP2 : (2 : ℝ) ^ k ≤ 2 ^ 17 := by have := two_pow_le hk'; norm_num at this ⊢; exact this
  obtain ⟨t0, t1, t2⟩ := turnsf hx hk hk' hb
  have h5 := pi_lt_d2
  have h6 := pi_pos
  obtain ⟨t, ht⟩ : ∃ t, t = x * factorf := ⟨_, rfl⟩
  rw [← ht] at t0 t1 t2
  have key : ∀ p v : ℝ, |v| ≤ 1 / 2 + 2 ^ k / 2 ^ 24 → |p - v| ≤ 2 ^ k / 2 ^ 23 → |p| ≤ 9 / 16 ∧ |Functions.shape p - sin (2 * π * v)| ≤ 12 / 10000 + 33 * (2 ^ k / 2 ^ 23) := by
    intro p v hv hp
    have h1 : |p| ≤ 1 / 2 + 3 / 2 * (2 ^ k / 2 ^ 23) := by
      have := abs_add_le (p - v) v
      rw [sub_add_cancel] at this
      norm_num at hv hp ⊢
      linarith
    have h2 : (3 : ℝ) / 2 * (2 ^ k / 2 ^ 23) ≤ 1 / 16 := by
      norm_num at hP2 ⊢
      linarith
    refine ⟨h1.trans (by norm_num at h2 ⊢; linarith), ?_⟩
    have h3 := shape_ext h1 (by positivity) h2
    have h4 := abs_sin_sub (2 * π * p) (2 * π * v)
    rw [← mul_sub, abs_mul, abs_of_pos (by linarith : 0 < 2 * π)] at h4
    have h7 : 2 * π * |p - v| ≤ 7 * (2 ^ k / 2 ^ 23) := mul_le_mul (by linarith) hp (abs_nonneg _) (by norm_num)
    have h8 := abs_add_le (Functions.shape p - sin (2 * π * p)) (sin (2 * π * p) - sin (2 * π * v))
    rw [sub_add_sub_cancel] at h8
    norm_num at h3 h7 ⊢
    linarith
  have fin : ∀ (a : Flt) (p v y : ℝ), Approx a p (1 / 2 ^ 19) → |p - v| ≤ 12 / 10000 + 33 * (2 ^ k / 2 ^ 23) → |v - y| ≤ 2 ^ k / 2 ^ 23 → a.Fin ∧ |a.val - y| ≤ 12 / 10000 + 2 ^ k / 2 ^ 17 := by
    intro a p v y h1 h2 h3
    refine ⟨h1.1, ?_⟩
    have h4 := (h1.trans h2).trans h3
    refine h4.2.trans ?_
    norm_num
    linarith
  constructor
  · obtain ⟨n, r1, r0, r2⟩ := redCosf_approx dbl t0 hk hk' t1
    have hk1 := key (-(redCosf dbl t).val) (-(t.val - (1 / 4 + n))) (by rwa [abs_neg]) (by rwa [neg_sub_neg, abs_sub_comm])
    rw [abs_neg] at hk1
    have e : sin (2 * π * -(t.val - (1 / 4 + n))) = cos (2 * π * t.val) := by
      rw [show 2 * π * -(t.val - (1 / 4 + n)) = π / 2 - 2 * π * t.val + n * (2 * π) by ring, sin_add_int_mul_two_pi, sin_pi_div_two_sub]
    rw [e] at hk1
    have := fin _ _ _ (cos x.val) (shapeCosf_approx r0 hk1.1) hk1.2 ((abs_cos_sub _ _).trans t2)
    rw [ht] at this
    exact this
  · obtain ⟨n, r1, r0, r2⟩ := redSinf_approx t0 hk hk' t1
    have hk1 := key _ _ r1 r2
    have e : sin (2 * π * (t.val - n)) = sin (2 * π * t.val) := by
      rw [show 2 * π * (t.val - n) = 2 * π * t.val - n * (2 * π) by ring, sin_sub_int_mul_two_pi]
    rw [e] at hk1
    have := fin _ _ _ (sin x.val) (shapeSinf_approx r0 hk1.1) hk1.2 ((abs_sin_sub _ _).trans t2)
    rw [ht] at this
    exact this

/-- The declared property: cosine and sine up to 0.0012 for every finite `float`, up to a rounding of one part in a thousand. -/
def C90_statement (dbl : Bool) : Prop :=
  ∀ x : Flt, x.Fin → |(fastCosSinf dbl x).1.val - cos x.val| ≤ 12 / 10000 + 1 / 10 ^ 3 ∧ |(fastCosSinf dbl x).2.val - sin x.val| ≤ 12 / 10000 + 1 / 10 ^ 3

/-- C90 fails for large arguments: 10^20 gives the pair (0, 0), which is the cosine and the sine of no angle, whichever `floor` is used. -/
theorem C90_violated (dbl : Bool) : fastCosSinf dbl (f (10 ^ 21) 1) = (f 0 0, f 0 0) ∧ ¬ C90_statement dbl := by
  have h : fastCosSinf dbl (f (10 ^ 21) 1) = (f 0 0, f 0 0) := by
    revert dbl
    decide +kernel
  refine ⟨h, fun hs => ?_⟩
  obtain ⟨h1, h2⟩ := hs (f (10 ^ 21) 1) (by decide +kernel)
  rw [h] at h1 h2
  have h0 : (f 0 0).val = 0 := by
    have : (f 0 0).x = .zero .positive := by decide +kernel
    unfold Fp.val
    rw [this]
    rfl
  dsimp only at h1 h2
  rw [h0, zero_sub, abs_neg] at h1 h2
  have h3 := sin_sq_add_cos_sq (f (10 ^ 21) 1).val
  rw [← sq_abs, ← sq_abs (cos _)] at h3
  generalize hd : |sin (f (10 ^ 21) 1).val| = a at *
  generalize hc : |cos (f (10 ^ 21) 1).val| = b at *
  have : 0 ≤ b := by rw [← hc]; exact abs_nonneg _
  have : 0 ≤ a := by rw [← hd]; exact abs_nonneg _
  norm_num at h1 h2
  nlinarith

/-- C90, the two `floor`: for 10^8 the cosines differ. -/
theorem C90_floor_differ : (fastCosSinf true (f (10 ^ 9) 1)).1 ≠ (fastCosSinf false (f (10 ^ 9) 1)).1 := by decide +kernel

/-- C90, infinite and NaN arguments: both results are NaN. -/
theorem C90_inf (dbl : Bool) (x : Flt) (hx : ¬ x.Fin) : (fastCosSinf dbl x).1.NaN ∧ (fastCosSinf dbl x).2.NaN := by
  rcases x with ⟨u, h⟩
  cases u with
  | infinity s =>
    cases s
    · show (fastCosSinf dbl ⟨.infinity .negative, trivial⟩).1.NaN ∧ (fastCosSinf dbl ⟨.infinity .negative, trivial⟩).2.NaN
      revert dbl
      decide +kernel
    · show (fastCosSinf dbl ⟨.infinity .positive, trivial⟩).1.NaN ∧ (fastCosSinf dbl ⟨.infinity .positive, trivial⟩).2.NaN
      revert dbl
      decide +kernel
  | notANumber =>
    show (fastCosSinf dbl ⟨.notANumber, trivial⟩).1.NaN ∧ (fastCosSinf dbl ⟨.notANumber, trivial⟩).2.NaN
    revert dbl
    decide +kernel
  | zero s => exact absurd trivial hx
  | finite s m e hm => exact absurd trivial hx

end Verif.FunctionsFp
