import Verif.FunctionsFp.FourierModel
import Verif.FunctionsFp.LuCos
import Verif.Functions.Props
import Verif.Ieee.Approx

/-! Property theorem C108 (see properties.jsonl): `evaluateFourier` in double arithmetic. -/
namespace Verif.FunctionsFp
open Verif Ieee Fp Float.Model Finset

/-- The point of the unit circle at an angle. -/
noncomputable def circ (x : ℝ) : ℂ := ⟨Real.cos x, Real.sin x⟩

theorem circ_add (x y : ℝ) : circ (x + y) = circ x * circ y := by
  unfold circ
  rw [Real.cos_add, Real.sin_add]
  apply Complex.ext
  · simp
  · simp; ring

theorem circ_norm (x : ℝ) : ‖circ x‖ = 1 := by
  rw [Complex.norm_def, Complex.normSq_apply]
  unfold circ
  rw [show Real.cos x * Real.cos x + Real.sin x * Real.sin x = 1 by have := Real.sin_sq_add_cos_sq x; nlinarith, Real.sqrt_one]

/-- A pair of doubles as a complex number. -/
noncomputable def pt (c s : Dbl) : ℂ := ⟨c.val, s.val⟩

theorem pt_re (c s : Dbl) : |c.val| ≤ ‖pt c s‖ := Complex.abs_re_le_norm (pt c s)
theorem pt_im (c s : Dbl) : |s.val| ≤ ‖pt c s‖ := Complex.abs_im_le_norm (pt c s)

theorem top_dbl : top Format.binary64 = 1023 := by decide
theorem mb_dbl : Format.binary64.mantissaBits = 53 := by decide

/-- A product of numbers up to 2, of difference of products: the rounding error of one component of the rotation. -/
theorem rot_sub {a b c e : Dbl} (ha : a.Fin) (hb : b.Fin) (hc : c.Fin) (he : e.Fin) (ba : |a.val| ≤ 2) (bb : |b.val| ≤ 2) (bc : |c.val| ≤ 2) (be : |e.val| ≤ 2) :
    (a * b - c * e).Fin ∧ |(a * b - c * e).val - (a.val * b.val - c.val * e.val)| ≤ 2 ^ (-49 : ℤ) := by
  have h := Approx.sub (E := 2 ^ (-49 : ℤ)) (Approx.mul (approx_self ha) (approx_self hb) 2 (by decide) (by decide) ba bb (by norm_num) le_rfl)
    (Approx.mul (approx_self hc) (approx_self he) 2 (by decide) (by decide) bc be (by norm_num) le_rfl) 4 (by decide) (by decide)
    (V := 4) (W := 4) (by rw [abs_mul]; nlinarith [abs_nonneg a.val, abs_nonneg b.val]) (by rw [abs_mul]; nlinarith [abs_nonneg c.val, abs_nonneg e.val])
    (by rw [mb_dbl]; norm_num) (by rw [mb_dbl]; norm_num)
  exact h

theorem rot_add {a b c e : Dbl} (ha : a.Fin) (hb : b.Fin) (hc : c.Fin) (he : e.Fin) (ba : |a.val| ≤ 2) (bb : |b.val| ≤ 2) (bc : |c.val| ≤ 2) (be : |e.val| ≤ 2) :
    (a * b + c * e).Fin ∧ |(a * b + c * e).val - (a.val * b.val + c.val * e.val)| ≤ 2 ^ (-49 : ℤ) := by
  have h := Approx.add (E := 2 ^ (-49 : ℤ)) (Approx.mul (approx_self ha) (approx_self hb) 2 (by decide) (by decide) ba bb (by norm_num) le_rfl)
    (Approx.mul (approx_self hc) (approx_self he) 2 (by decide) (by decide) bc be (by norm_num) le_rfl) 4 (by decide) (by decide)
    (V := 4) (W := 4) (by rw [abs_mul]; nlinarith [abs_nonneg a.val, abs_nonneg b.val]) (by rw [abs_mul]; nlinarith [abs_nonneg c.val, abs_nonneg e.val])
    (by rw [mb_dbl]; norm_num) (by rw [mb_dbl]; norm_num)
  exact h

/-- One step of the rotation: the error grows by a constant. -/
theorem rot_step {c2 s2 c s : Dbl} {θ φ δ E : ℝ} (h2c : c2.Fin) (h2s : s2.Fin) (hc : c.Fin) (hs : s.Fin) (h2 : ‖pt c2 s2 - circ θ‖ ≤ 2 * δ) (hE : ‖pt c s - circ φ‖ ≤ E) (hδ : 2 * δ ≤ 1) (hE1 : E ≤ 1) :
    (c2 * c - s2 * s).Fin ∧ (s2 * c + c2 * s).Fin ∧ ‖pt (c2 * c - s2 * s) (s2 * c + c2 * s) - circ (φ + θ)‖ ≤ (1 + 2 * δ) * E + (2 * δ + 2 ^ (-48 : ℤ)) := by
  have n2 : ‖pt c2 s2‖ ≤ 1 + 2 * δ := by
    have := norm_add_le (pt c2 s2 - circ θ) (circ θ)
    rw [sub_add_cancel, circ_norm] at this
    linarith
  have n1 : ‖pt c s‖ ≤ 1 + E := by
    have := norm_add_le (pt c s - circ φ) (circ φ)
    rw [sub_add_cancel, circ_norm] at this
    linarith
  have b1 := (pt_re c2 s2).trans n2
  have b2 := (pt_im c2 s2).trans n2
  have b3 := (pt_re c s).trans n1
  have b4 := (pt_im c s).trans n1
  obtain ⟨f1, e1⟩ := rot_sub h2c hc h2s hs (by linarith) (by linarith) (by linarith) (by linarith)
  obtain ⟨f2, e2⟩ := rot_add h2s hc h2c hs (by linarith) (by linarith) (by linarith) (by linarith)
  refine ⟨f1, f2, ?_⟩
  have hr : ‖pt (c2 * c - s2 * s) (s2 * c + c2 * s) - pt c2 s2 * pt c s‖ ≤ 2 ^ (-48 : ℤ) := by
    refine (Complex.norm_le_abs_re_add_abs_im _).trans ?_
    have h1 : (pt (c2 * c - s2 * s) (s2 * c + c2 * s) - pt c2 s2 * pt c s).re = (c2 * c - s2 * s).val - (c2.val * c.val - s2.val * s.val) := by simp [pt]
    have h3 : (pt (c2 * c - s2 * s) (s2 * c + c2 * s) - pt c2 s2 * pt c s).im = (s2 * c + c2 * s).val - (s2.val * c.val + c2.val * s.val) := by simp [pt]; ring
    rw [h1, h3]
    have : (2 : ℝ) ^ (-48 : ℤ) = 2 ^ (-49 : ℤ) + 2 ^ (-49 : ℤ) := by norm_num
    linarith
  have hm : ‖pt c2 s2 * pt c s - circ (φ + θ)‖ ≤ (1 + 2 * δ) * E + 2 * δ := by
    rw [circ_add, show pt c2 s2 * pt c s - circ φ * circ θ = pt c2 s2 * (pt c s - circ φ) + (pt c2 s2 - circ θ) * circ φ by ring]
    refine (norm_add_le _ _).trans ?_
    rw [norm_mul, norm_mul, circ_norm, mul_one]
    exact add_le_add (mul_le_mul n2 hE (norm_nonneg _) (by linarith [norm_nonneg (pt c2 s2)])) h2
  have := norm_add_le (pt (c2 * c - s2 * s) (s2 * c + c2 * s) - pt c2 s2 * pt c s) (pt c2 s2 * pt c s - circ (φ + θ))
  rw [sub_add_sub_cancel] at this
  linarith

/-- The error of a pair of functions for the cosine and the sine. -/
def CosSinErr (c s : Dbl → Dbl) (δ : ℝ) (x : Dbl) : Prop := (c x).Fin ∧ (s x).Fin ∧ |(c x).val - Real.cos x.val| ≤ δ ∧ |(s x).val - Real.sin x.val| ≤ δ

/-- The terms of the series, of which there are `n`. -/
noncomputable def term (coeffs : Vec Dbl) (x : ℝ) (k : ℕ) : ℝ := (coeffs.val (2 * k)).val * Real.cos (k * x) + (coeffs.val (2 * k + 1)).val * Real.sin (k * x)

/-- One term of the series. -/
theorem term_near {a b c s : Dbl} {φ E : ℝ} {p : ℤ} (ha : a.Fin) (hb : b.Fin) (hc : c.Fin) (hs : s.Fin) (ba : |a.val| ≤ 2 ^ p) (bb : |b.val| ≤ 2 ^ p) (hp0 : -900 ≤ p) (hp1 : p ≤ 900)
    (hE : ‖pt c s - circ φ‖ ≤ E) (hE1 : E ≤ 1) : Approx (a * c + b * s) (a.val * Real.cos φ + b.val * Real.sin φ) (2 ^ (p + 1) * E + 2 ^ (p - 49)) := by
  have e1 : |c.val - Real.cos φ| ≤ E := by
    have := (Complex.abs_re_le_norm (pt c s - circ φ)).trans hE
    exact this
  have e2 : |s.val - Real.sin φ| ≤ E := by
    have := (Complex.abs_im_le_norm (pt c s - circ φ)).trans hE
    exact this
  have p0 := two_pow_pos p
  have E0 : 0 ≤ E := (abs_nonneg _).trans e1
  have m1 := Approx.mul (approx_self ha) (⟨hc, e1⟩ : Approx c _ _) (p + 1) (by rw [mb_dbl, min1074]; omega) (by rw [top_dbl]; omega) ba (Real.abs_cos_le_one φ)
    (by rw [add_zero, two_pow_add, zpow_one]; exact mul_le_mul_of_nonneg_left (by linarith) p0.le) le_rfl
  have m2 := Approx.mul (approx_self hb) (⟨hs, e2⟩ : Approx s _ _) (p + 1) (by rw [mb_dbl, min1074]; omega) (by rw [top_dbl]; omega) bb (Real.abs_sin_le_one φ)
    (by rw [add_zero, two_pow_add, zpow_one]; exact mul_le_mul_of_nonneg_left (by linarith) p0.le) le_rfl
  simp only [mul_zero, add_zero, zero_mul] at m1 m2
  have q1 : (2 : ℝ) ^ (p + 1 - (Format.binary64.mantissaBits : ℤ) - 1) = 2 ^ p * 2 ^ (-53 : ℤ) := by rw [mb_dbl, ← two_pow_add]; congr 1; push_cast; ring
  rw [q1] at m1 m2
  have q2 : (2 : ℝ) ^ (p + 3 - (Format.binary64.mantissaBits : ℤ) - 1) = 2 ^ p * 2 ^ (-51 : ℤ) := by rw [mb_dbl, ← two_pow_add]; congr 1; push_cast; ring
  have hab : ∀ {x y : ℝ}, |x| ≤ 2 ^ p → |y| ≤ 1 → |x * y| ≤ 2 ^ p := fun h1 h2 => by
    rw [abs_mul]
    exact (mul_le_mul h1 h2 (abs_nonneg _) p0.le).trans (mul_one _).le
  refine Approx.add m1 m2 (p + 3) (by rw [mb_dbl, min1074]; omega) (by rw [top_dbl]; omega) (hab ba (Real.abs_cos_le_one φ)) (hab bb (Real.abs_sin_le_one φ)) ?_ ?_
  · rw [two_pow_add p 3]
    have : 2 ^ p * E ≤ 2 ^ p * 1 := mul_le_mul_of_nonneg_left hE1 p0.le
    have h3 : (2 : ℝ) ^ p * 2 ^ (-53 : ℤ) ≤ 2 ^ p * 1 := mul_le_mul_of_nonneg_left (by norm_num) p0.le
    norm_num at h3 ⊢
    linarith
  · rw [q2, two_pow_add p 1, show p - 49 = p + -49 by ring, two_pow_add p (-49)]
    norm_num
    have : (2 : ℝ) ^ p * (1 / 2 ^ 51) ≥ 0 := by positivity
    norm_num at this
    nlinarith

/-- The loop: the rotation and the running sum. -/
theorem loop_near {coeffs : Vec Dbl} {c2 s2 : Dbl} {θ δ : ℝ} {p q : ℤ} {n : ℕ} (hn : 2 * n ≤ coeffs.len) (hlen : n ≤ 2 ^ 30) (hnq : (n : ℝ) ≤ 2 ^ q) (hq0 : 0 ≤ q) (hq1 : q ≤ 30) (hp0 : -900 ≤ p) (hp1 : p ≤ 900)
    (hf : ∀ i < 2 * n, (coeffs.val i).Fin ∧ |(coeffs.val i).val| ≤ 2 ^ p) (h2c : c2.Fin) (h2s : s2.Fin) (h2 : ‖pt c2 s2 - circ θ‖ ≤ 2 * δ) (hδ : 2 ^ (q + 1) * (2 * δ + 2 ^ (-48 : ℤ)) ≤ 1) :
    ∀ (m k : ℕ) (c s v : Dbl), k + m = n → c.Fin → s.Fin → ‖pt c s - circ (k * θ)‖ ≤ k * (2 * (2 * δ + 2 ^ (-48 : ℤ))) →
      Approx v (∑ i ∈ range k, term coeffs θ i) (k * (2 ^ (p + q + 2) * (2 * δ + 2 ^ (-48 : ℤ)) + 2 ^ (p + q - 48))) →
      ∃ r, fourierLoop c2 s2 coeffs m k c s v = .ok r ∧ Approx r (∑ i ∈ range n, term coeffs θ i) (n * (2 ^ (p + q + 2) * (2 * δ + 2 ^ (-48 : ℤ)) + 2 ^ (p + q - 48))) := by
  have hδ0 : 0 ≤ 2 * δ := (norm_nonneg _).trans h2
  obtain ⟨D, hD⟩ : ∃ D, D = 2 * δ + (2 : ℝ) ^ (-48 : ℤ) := ⟨_, rfl⟩
  have hDp : 0 < D := by rw [hD]; have := two_pow_pos (-48); linarith
  have hQ1 : (1 : ℝ) ≤ 2 ^ q := by rw [← zpow_zero (2 : ℝ)]; exact two_pow_le hq0
  have hQD : (2 : ℝ) ^ q * (2 * D) ≤ 1 := by rw [← hD, two_pow_add, zpow_one] at hδ; linarith
  have hdD : 2 * δ ≤ D := by rw [hD]; have := two_pow_pos (-48); linarith
  intro m
  induction m with
  | zero =>
    intro k c s v hk _ _ _ hv
    rw [show k = n by omega] at hv
    exact ⟨v, rfl, hv⟩
  | succ m ih =>
    intro k c s v hk hc hs hcs hv
    rw [← hD] at hcs hv ih ⊢
    have hkn : (k : ℝ) + 1 ≤ n := by exact_mod_cast (by omega : k + 1 ≤ n)
    have hkD : (k : ℝ) * (2 * D) ≤ 1 := by
      have : (k : ℝ) * (2 * D) ≤ 2 ^ q * (2 * D) := mul_le_mul_of_nonneg_right (by linarith) (by linarith)
      linarith
    obtain ⟨fa, ba⟩ := hf (2 * k) (by omega)
    obtain ⟨fb, bb⟩ := hf (2 * k + 1) (by omega)
    have ht := term_near fa fb hc hs ba bb hp0 hp1 hcs hkD
    obtain ⟨f1, f2, hrot⟩ := rot_step h2c h2s hc hs h2 hcs (by nlinarith) hkD
    rw [← hD, show (k : ℝ) * θ + θ = ((k + 1 : ℕ) : ℝ) * θ by push_cast; ring] at hrot
    have hrot' : ‖pt (c2 * c - s2 * s) (s2 * c + c2 * s) - circ (((k + 1 : ℕ) : ℝ) * θ)‖ ≤ ((k + 1 : ℕ) : ℝ) * (2 * D) := by
      refine hrot.trans ?_
      push_cast
      have : 2 * δ * ((k : ℝ) * (2 * D)) ≤ D * 1 := mul_le_mul hdD hkD (by positivity) hDp.le
      nlinarith
    -- the running sum
    have P0 := two_pow_pos p
    have hterm : ∀ i < n, |term coeffs θ i| ≤ 2 ^ (p + 1) := by
      intro i hi
      unfold term
      refine (abs_add_le _ _).trans ?_
      rw [abs_mul, abs_mul, two_pow_add, zpow_one, mul_two]
      have h1 := hf (2 * i) (by omega)
      have h3 := hf (2 * i + 1) (by omega)
      exact add_le_add ((mul_le_mul h1.2 (Real.abs_cos_le_one _) (abs_nonneg _) P0.le).trans (mul_one _).le) ((mul_le_mul h3.2 (Real.abs_sin_le_one _) (abs_nonneg _) P0.le).trans (mul_one _).le)
    have hsum : |∑ i ∈ range k, term coeffs θ i| ≤ k * 2 ^ (p + 1) := by
      refine (abs_sum_le_sum_abs _ _).trans ((sum_le_sum fun i hi => hterm i (by have := mem_range.1 hi; omega)).trans ?_)
      rw [sum_const, card_range, nsmul_eq_mul]
    have x1 : (2 : ℝ) ^ (p + 1) = 2 ^ p * 2 := by rw [two_pow_add, zpow_one]
    have x2 : (2 : ℝ) ^ (p + q + 2) = 2 ^ p * (2 ^ q * 4) := by rw [two_pow_add, two_pow_add]; norm_num; ring
    have x3 : (2 : ℝ) ^ (p + q - 48) = 2 ^ p * (2 ^ q * 2 ^ (-48 : ℤ)) := by rw [show p + q - 48 = p + (q + -48) by ring, two_pow_add, two_pow_add]
    have x4 : (2 : ℝ) ^ (p - 49) = 2 ^ p * 2 ^ (-49 : ℤ) := by rw [show p - 49 = p + -49 by ring, two_pow_add]
    have x5 : (2 : ℝ) ^ (p + q + 4) = 2 ^ p * (2 ^ q * 16) := by rw [two_pow_add, two_pow_add]; norm_num; ring
    have x6 : (2 : ℝ) ^ (p + q + 4 - (Format.binary64.mantissaBits : ℤ) - 1) = 2 ^ p * (2 ^ q * 2 ^ (-50 : ℤ)) := by
      rw [mb_dbl, show p + q + 4 - ((53 : ℕ) : ℤ) - 1 = p + (q + -50) by push_cast; ring, two_pow_add, two_pow_add]
    have hadd : Approx (v + (coeffs.val (2 * k) * c + coeffs.val (2 * k + 1) * s)) (∑ i ∈ range (k + 1), term coeffs θ i) ((k + 1 : ℕ) * (2 ^ (p + q + 2) * D + 2 ^ (p + q - 48))) := by
      rw [sum_range_succ]
      refine Approx.add hv ht (p + q + 4) (by rw [mb_dbl, min1074]; omega) (by rw [top_dbl]; omega) hsum (hterm k (by omega)) ?_ ?_
      · rw [x1, x2, x3, x4, x5]
        have h1 : (k : ℝ) * (2 ^ p * 2) ≤ 2 ^ q * (2 ^ p * 2) := mul_le_mul_of_nonneg_right (by linarith) (by positivity)
        have h3 : (k : ℝ) * (2 ^ p * (2 ^ q * 4) * D + 2 ^ p * (2 ^ q * 2 ^ (-48 : ℤ))) ≤ 2 ^ q * (2 ^ p * 2) + 2 ^ q * 2 ^ p := by
          have a1 : (k : ℝ) * (2 ^ p * (2 ^ q * 4) * D) = 2 ^ q * (2 ^ p * 2) * (k * (2 * D)) := by ring
          have a2 : 2 ^ q * (2 ^ p * 2) * ((k : ℝ) * (2 * D)) ≤ 2 ^ q * (2 ^ p * 2) * 1 := mul_le_mul_of_nonneg_left hkD (by positivity)
          have a3 : (k : ℝ) * (2 ^ p * (2 ^ q * 2 ^ (-48 : ℤ))) = 2 ^ q * 2 ^ p * (k * 2 ^ (-48 : ℤ)) := by ring
          have a4 : (k : ℝ) * 2 ^ (-48 : ℤ) ≤ 1 := by
            have : (k : ℝ) * 2 ^ (-48 : ℤ) ≤ k * (2 * D) := mul_le_mul_of_nonneg_left (by rw [hD]; have := two_pow_pos (-48); linarith) (Nat.cast_nonneg k)
            linarith
          have a5 : 2 ^ q * 2 ^ p * ((k : ℝ) * 2 ^ (-48 : ℤ)) ≤ 2 ^ q * 2 ^ p * 1 := mul_le_mul_of_nonneg_left a4 (by positivity)
          linarith
        have h4 : 2 ^ p * 2 * ((k : ℝ) * (2 * D)) ≤ 2 ^ p * 2 * 1 := mul_le_mul_of_nonneg_left hkD (by positivity)
        have h5 : (2 : ℝ) ^ p * 2 ^ (-49 : ℤ) ≤ 2 ^ p * 1 := mul_le_mul_of_nonneg_left (by norm_num) P0.le
        have h6 : (2 : ℝ) ^ p * 1 ≤ 2 ^ p * 2 ^ q := mul_le_mul_of_nonneg_left hQ1 P0.le
        linarith
      · rw [x1, x2, x3, x4, x6]
        push_cast
        have h1 : 2 ^ p * 2 * ((k : ℝ) * (2 * D)) ≤ 2 ^ p * 2 * (2 ^ q * (2 * D)) := mul_le_mul_of_nonneg_left (mul_le_mul_of_nonneg_right (by linarith) (by linarith)) (by positivity)
        have h3 : (2 : ℝ) ^ p * 2 ^ (-49 : ℤ) ≤ 2 ^ p * (2 ^ q * 2 ^ (-49 : ℤ)) := mul_le_mul_of_nonneg_left (le_mul_of_one_le_left (two_pow_pos _).le hQ1) P0.le
        have h4 : (2 : ℝ) ^ p * (2 ^ q * 2 ^ (-50 : ℤ)) + 2 ^ p * (2 ^ q * 2 ^ (-49 : ℤ)) ≤ 2 ^ p * (2 ^ q * 2 ^ (-48 : ℤ)) := by
          rw [← mul_add, ← mul_add]
          exact mul_le_mul_of_nonneg_left (mul_le_mul_of_nonneg_left (by norm_num) (two_pow_pos q).le) P0.le
        linarith
    obtain ⟨r, hr, hr'⟩ := ih (k + 1) _ _ _ (by omega) f1 f2 hrot' hadd
    refine ⟨r, ?_, hr'⟩
    have g1 : coeffs.get (2 * (k : ℤ)) = .ok (coeffs.val (2 * k)) := by exact_mod_cast coeffs.get_nat (i := 2 * k) (by omega)
    have g2 : coeffs.get (2 * (k : ℤ) + 1) = .ok (coeffs.val (2 * k + 1)) := by exact_mod_cast coeffs.get_nat (i := 2 * k + 1) (by omega)
    have i1 : Cxx.int (2 * (k : ℤ)) = .ok (2 * (k : ℤ)) := if_pos (by omega)
    have i2 : Cxx.int (2 * (k : ℤ) + 1) = .ok (2 * (k : ℤ) + 1) := if_pos (by omega)
    unfold fourierLoop
    rw [i1, show ∀ (x : ℤ) (f : ℤ → Outcome Dbl), (Except.ok x >>= f) = f x from fun _ _ => rfl, g1, show ∀ (x : Dbl) (f : Dbl → Outcome Dbl), (Except.ok x >>= f) = f x from fun _ _ => rfl, i2]
    dsimp only [bind, Except.bind]
    rw [g2]
    dsimp only
    rw [← hr]
    push_cast
    rfl

/-- C108: the value computed by `evaluateFourier` in `double` arithmetic is near the series, whatever the errors (at most δ) of the cosine and of the sine of the C library: with `n` pairs of
coefficients of absolute value up to 2 ^ p, n ≤ 2 ^ q, the error is at most n · (2 ^ (p + q + 2) · (2 δ + 2 ^ -48) + 2 ^ (p + q - 48)). -/
theorem C108_fourier {cos sin : Dbl → Dbl} {coeffs : Vec Dbl} {theta : Dbl} {δ : ℝ} {p q : ℤ} (hcs : CosSinErr cos sin δ theta) (hlen : coeffs.len ≤ 2 ^ 31) (hq0 : 0 ≤ q) (hq1 : q ≤ 30)
    (hnq : ((coeffs.len / 2 : ℕ) : ℝ) ≤ 2 ^ q) (hp0 : -900 ≤ p) (hp1 : p ≤ 900) (hf : ∀ i < coeffs.len, (coeffs.val i).Fin ∧ |(coeffs.val i).val| ≤ 2 ^ p)
    (hδ : 2 ^ (q + 1) * (2 * δ + 2 ^ (-48 : ℤ)) ≤ 1) :
    ∃ r, evaluateFourier cos sin coeffs theta = .ok r ∧ r.Fin ∧
      |r.val - ∑ k ∈ range (coeffs.len / 2), ((coeffs.val (2 * k)).val * Real.cos (k * theta.val) + (coeffs.val (2 * k + 1)).val * Real.sin (k * theta.val))| ≤
        (coeffs.len / 2 : ℕ) * (2 ^ (p + q + 2) * (2 * δ + 2 ^ (-48 : ℤ)) + 2 ^ (p + q - 48)) := by
  obtain ⟨fc, fs, ec, es⟩ := hcs
  have h2 : ‖pt (cos theta) (sin theta) - circ theta.val‖ ≤ 2 * δ := by
    refine (Complex.norm_le_abs_re_add_abs_im _).trans ?_
    have : |(pt (cos theta) (sin theta) - circ theta.val).re| ≤ δ := ec
    have : |(pt (cos theta) (sin theta) - circ theta.val).im| ≤ δ := es
    linarith
  have h0 : ‖pt (d 10 1) (d 0 1) - circ (((0 : ℕ) : ℝ) * theta.val)‖ ≤ ((0 : ℕ) : ℝ) * (2 * (2 * δ + 2 ^ (-48 : ℤ))) := by
    have : pt (d 10 1) (d 0 1) = circ (((0 : ℕ) : ℝ) * theta.val) := by
      unfold pt circ
      rw [one_is.2, zero_lit.2]
      simp
    rw [this, sub_self, norm_zero, Nat.cast_zero, zero_mul]
  have hv : Approx (d 0 1) (∑ i ∈ range 0, term coeffs theta.val i) (((0 : ℕ) : ℝ) * (2 ^ (p + q + 2) * (2 * δ + 2 ^ (-48 : ℤ)) + 2 ^ (p + q - 48))) :=
    ⟨zero_lit.1, by rw [zero_lit.2]; simp⟩
  obtain ⟨r, hr, hr1, hr2⟩ := loop_near (coeffs := coeffs) (n := coeffs.len / 2) (by omega) (by omega) hnq hq0 hq1 hp0 hp1 (fun i hi => hf i (by omega)) fc fs h2 hδ
    (coeffs.len / 2) 0 _ _ _ (by omega) one_is.1 zero_lit.1 h0 hv
  refine ⟨r, ?_, hr1, hr2⟩
  unfold evaluateFourier
  rw [Functions.fourierOrder_eq hlen, show (((coeffs.len / 2 : ℕ) : ℤ) - 1 + 1).toNat = coeffs.len / 2 by omega]
  exact hr

-- 1 + 2 cos + 3 sin with the cosine 1/2 and the sine 3/4: 1 + 1 + 2.25
example : evaluateFourier (fun _ => d 5 1) (fun _ => d 75 2) ⟨4, fun i => [d 10 1, d 70 1, d 20 1, d 30 1].getD i (d 0 1)⟩ (d 10 1) = .ok (d 425 2) := by
  decide +kernel

end Verif.FunctionsFp
