import Verif.FunctionsFp.Fourier
import Verif.TlsFp.Lemmas

/-! Property theorems C109 (see properties.jsonl): `findLUFourier` in double arithmetic. -/
namespace Verif.FunctionsFp
open Verif Ieee Fp Float.Model Finset

/-- The square root of a finite number does not overflow. -/
theorem sqrt_fin {x : Dbl} (h : x.Fin) (h0 : 0 ≤ x.val) : (Fp.sqrt x).Is (Real.sqrt x.val) := by
  refine sqrt_is h h0 ?_
  have h1 := val_lt x
  rw [abs_of_nonneg h0] at h1
  rw [Real.sqrt_le_left (two_pow_pos _).le, sq, ← two_pow_add]
  exact h1.le.trans (two_pow_le (by decide))

/-- `atan2` is within `δ` of an angle of the point, and at most 4. -/
def Atan2Err (at2 : Dbl → Dbl → Dbl) (δ : ℝ) : Prop := ∀ a b : Dbl, a.Fin → b.Fin → (at2 b a).Fin ∧ |(at2 b a).val| ≤ 4 ∧
  ∃ φ : ℝ, |(at2 b a).val - φ| ≤ δ ∧ a.val = Real.sqrt (a.val ^ 2 + b.val ^ 2) * Real.cos φ ∧ b.val = Real.sqrt (a.val ^ 2 + b.val ^ 2) * Real.sin φ

/-- A relative and an absolute error of the argument of the square root. -/
theorem sqrt_near {S T ε η : ℝ} (hS : 0 ≤ S) (hT : 0 ≤ T) (hε : 0 ≤ ε) (hε1 : ε ≤ 1) (hη : 0 ≤ η) (h : |S - T| ≤ ε * T + η ^ 2) : |Real.sqrt S - Real.sqrt T| ≤ ε * Real.sqrt T + η := by
  have t0 := Real.sqrt_nonneg T
  have s0 := Real.sqrt_nonneg S
  have tt := Real.sq_sqrt hT
  have ss := Real.sq_sqrt hS
  obtain ⟨h1, h2⟩ := _root_.abs_le.1 h
  rw [_root_.abs_le]
  constructor
  · by_contra hc
    have : Real.sqrt S < (1 - ε) * Real.sqrt T - η := by linarith
    have : (Real.sqrt S + η) ^ 2 < ((1 - ε) * Real.sqrt T) ^ 2 := pow_lt_pow_left₀ (by linarith) (by linarith) (by norm_num)
    have e : ((1 - ε) * Real.sqrt T) ^ 2 = (1 - ε) ^ 2 * T := by rw [mul_pow, tt]
    have : (1 - ε) ^ 2 * T ≤ (1 - ε) * T := mul_le_mul_of_nonneg_right (by nlinarith) hT
    nlinarith [mul_nonneg s0 hη]
  · have : S ≤ ((1 + ε) * Real.sqrt T + η) ^ 2 := by
      have e : ((1 + ε) * Real.sqrt T) ^ 2 = (1 + ε) ^ 2 * T := by rw [mul_pow, tt]
      have : (1 + ε) * T ≤ (1 + ε) ^ 2 * T := mul_le_mul_of_nonneg_right (by nlinarith) hT
      have : 0 ≤ (1 + ε) * Real.sqrt T * η := by positivity
      nlinarith
    have := Real.sqrt_le_sqrt this
    rw [Real.sqrt_sq (by positivity)] at this
    linarith

/-- The relative error of a rounding, with an absolute part. -/
theorem is_rel {a : Dbl} {x : ℝ} (h : a.Is x) : |a.val - x| ≤ |x| * 2 ^ (-53 : ℤ) + 2 ^ (-1075 : ℤ) := by
  have h1 : 0 ≤ |x| * 2 ^ (-53 : ℤ) := mul_nonneg (abs_nonneg _) (two_pow_pos _).le
  have h2 := two_pow_pos (-1075)
  rcases h.2.rel with h' | h'
  · have e : |x| / 2 ^ (Format.binary64.mantissaBits : ℤ) = |x| * 2 ^ (-53 : ℤ) := by rw [mb53, zpow_neg, div_eq_mul_inv]
    rw [e] at h'
    exact h'.trans (by linarith)
  · rw [min1074, show (-1074 - 1 : ℤ) = -1075 by norm_num] at h'
    exact h'.trans (by linarith)

/-- The amplitude. -/
theorem amp_near {a b : Dbl} (ha : a.Fin) (hb : b.Fin) {p : ℤ} (hp0 : -400 ≤ p) (hp1 : p ≤ 500) (ba : |a.val| ≤ 2 ^ p) (bb : |b.val| ≤ 2 ^ p) :
    Approx (Fp.sqrt (a * a + b * b)) (Real.sqrt (a.val ^ 2 + b.val ^ 2)) (2 ^ (p - 48)) ∧ Real.sqrt (a.val ^ 2 + b.val ^ 2) ≤ 2 ^ (p + 1) := by
  have P0 := two_pow_pos p
  have sqa : a.val ^ 2 ≤ 2 ^ (2 * p) := by
    rw [two_mul, two_pow_add, ← sq_abs, sq]; exact mul_le_mul ba ba (abs_nonneg _) P0.le
  have sqb : b.val ^ 2 ≤ 2 ^ (2 * p) := by
    rw [two_mul, two_pow_add, ← sq_abs, sq]; exact mul_le_mul bb bb (abs_nonneg _) P0.le
  have a0 := sq_nonneg a.val
  have b0 := sq_nonneg b.val
  obtain ⟨B, hB⟩ : ∃ B : ℝ, B = 2 ^ (1000 : ℤ) := ⟨_, rfl⟩
  obtain ⟨e, he⟩ : ∃ e : ℝ, e = 2 ^ (-1075 : ℤ) := ⟨_, rfl⟩
  obtain ⟨W, hW⟩ : ∃ W : ℝ, W = 2 ^ top Format.binary64 := ⟨_, rfl⟩
  have hbig : (2 : ℝ) ^ (2 * p) ≤ B := hB ▸ two_pow_le (by omega)
  have htop : B * 16 ≤ W := by
    rw [hB, hW, top1023, show (1023 : ℤ) = 1000 + 23 by norm_num, two_pow_add]
    exact mul_le_mul_of_nonneg_left (by norm_num) (two_pow_pos _).le
  have T0 : 0 < B := hB ▸ two_pow_pos 1000
  have e0 : 0 < e := he ▸ two_pow_pos (-1075)
  have E1 : e ≤ B := by rw [he, hB]; exact two_pow_le (by norm_num)
  have m1 := mul_is ha ha (by rw [← sq, abs_of_nonneg a0, ← hW]; linarith only [sqa, hbig, htop, T0])
  have m2 := mul_is hb hb (by rw [← sq, abs_of_nonneg b0, ← hW]; linarith only [sqb, hbig, htop, T0])
  rw [← sq] at m1 m2
  have r1 := is_rel m1
  have r2 := is_rel m2
  rw [abs_of_nonneg a0, ← he] at r1
  rw [abs_of_nonneg b0, ← he] at r2
  have n1 : 0 ≤ (a * a).val := by have := m1.2.mono_ge grid_zero a0; exact this
  have n2 : 0 ≤ (b * b).val := by have := m2.2.mono_ge grid_zero b0; exact this
  have u53 : (2 : ℝ) ^ (-53 : ℤ) ≤ 1 := by norm_num
  have l1 : (a * a).val ≤ 3 * B := by
    have w1 := (_root_.abs_le.1 r1).2
    have w2 : a.val ^ 2 * 2 ^ (-53 : ℤ) ≤ a.val ^ 2 * 1 := mul_le_mul_of_nonneg_left u53 a0
    change (a * a).val - a.val ^ 2 ≤ _ at w1
    linarith only [w1, w2, sqa, hbig, E1]
  have l2 : (b * b).val ≤ 3 * B := by
    have w1 := (_root_.abs_le.1 r2).2
    have w2 : b.val ^ 2 * 2 ^ (-53 : ℤ) ≤ b.val ^ 2 * 1 := mul_le_mul_of_nonneg_left u53 b0
    change (b * b).val - b.val ^ 2 ≤ _ at w1
    linarith only [w1, w2, sqb, hbig, E1]
  have s0 : 0 ≤ (a * a).val + (b * b).val := add_nonneg n1 n2
  have s1 := add_is m1.1 m2.1 (by rw [abs_of_nonneg s0, ← hW]; linarith only [l1, l2, htop, T0])
  have r3 := is_rel s1
  rw [abs_of_nonneg s0, ← he] at r3
  have n3 : 0 ≤ (a * a + b * b).val := by have := s1.2.mono_ge grid_zero s0; exact this
  obtain ⟨S, hS⟩ : ∃ S, S = (a * a + b * b).val := ⟨_, rfl⟩
  obtain ⟨T, hT⟩ : ∃ T, T = a.val ^ 2 + b.val ^ 2 := ⟨_, rfl⟩
  have hT0 : 0 ≤ T := by rw [hT]; linarith
  have hTp : T ≤ 2 ^ (2 * p) * 2 := by rw [hT]; linarith
  have hη : ((2 : ℝ) ^ (-530 : ℤ)) ^ 2 = 2 ^ (-1060 : ℤ) := by rw [sq, ← two_pow_add]; norm_num
  have hST : |S - T| ≤ 2 ^ (-51 : ℤ) * T + (2 ^ (-530 : ℤ)) ^ 2 := by
    rw [hη]
    obtain ⟨G, hG⟩ : ∃ G : ℝ, G = 2 ^ (-1060 : ℤ) := ⟨_, rfl⟩
    rw [← hG]
    have e53 : (2 : ℝ) ^ (-51 : ℤ) = 4 * 2 ^ (-53 : ℤ) := by norm_num
    have u0 := two_pow_pos (-53)
    obtain ⟨x1, x2⟩ := _root_.abs_le.1 r1
    obtain ⟨y1, y2⟩ := _root_.abs_le.1 r2
    obtain ⟨z1, z2⟩ := _root_.abs_le.1 r3
    rw [← hS] at z1 z2
    have k1 : ((a * a).val + (b * b).val) * 2 ^ (-53 : ℤ) ≤ 2 * T * 2 ^ (-53 : ℤ) + 2 * e := by
      have : (a * a).val + (b * b).val ≤ 2 * T + 2 * e := by
        have : a.val ^ 2 * 2 ^ (-53 : ℤ) ≤ a.val ^ 2 * 1 := mul_le_mul_of_nonneg_left u53 a0
        have : b.val ^ 2 * 2 ^ (-53 : ℤ) ≤ b.val ^ 2 * 1 := mul_le_mul_of_nonneg_left u53 b0
        rw [hT]; linarith
      have h := mul_le_mul_of_nonneg_right this u0.le
      have : 2 * e * 2 ^ (-53 : ℤ) ≤ 2 * e * 1 := mul_le_mul_of_nonneg_left u53 (by linarith)
      linarith
    have k2 : a.val ^ 2 * 2 ^ (-53 : ℤ) + b.val ^ 2 * 2 ^ (-53 : ℤ) = T * 2 ^ (-53 : ℤ) := by rw [hT]; ring
    have k3 : 8 * e ≤ G := by
      rw [hG, show (-1060 : ℤ) = -1075 + 15 by norm_num, two_pow_add, ← he, mul_comm]
      exact mul_le_mul_of_nonneg_left (by norm_num) e0.le
    have k4 : 0 ≤ T * 2 ^ (-53 : ℤ) := mul_nonneg hT0 u0.le
    rw [e53, _root_.abs_le]
    constructor <;> nlinarith
  have hn := sqrt_near (hS ▸ n3) hT0 (two_pow_pos _).le (by norm_num) (two_pow_pos _).le hST
  have hA : Real.sqrt T ≤ 2 ^ (p + 1) := by
    rw [Real.sqrt_le_left (two_pow_pos _).le]
    have : ((2 : ℝ) ^ (p + 1)) ^ 2 = 2 ^ (2 * p) * 4 := by rw [sq, ← two_pow_add, show p + 1 + (p + 1) = 2 * p + 2 by ring, two_pow_add]; norm_num
    rw [this]
    have := two_pow_pos (2 * p)
    linarith
  rw [← hT]
  refine ⟨?_, hA⟩
  have hq := sqrt_fin s1.1 n3
  rw [← hS] at hq
  have e1 : |Real.sqrt S - Real.sqrt T| ≤ 2 ^ (p - 50) + 2 ^ (p - 130) := by
    refine hn.trans (add_le_add ?_ (two_pow_le (by omega)))
    calc (2 : ℝ) ^ (-51 : ℤ) * Real.sqrt T ≤ 2 ^ (-51 : ℤ) * 2 ^ (p + 1) := mul_le_mul_of_nonneg_left hA (two_pow_pos _).le
      _ = 2 ^ (p - 50) := by rw [← two_pow_add]; congr 1; ring
  have w1 : (2 : ℝ) ^ (p - 130) ≤ 2 ^ (p - 50) := two_pow_le (by omega)
  have w2 : (2 : ℝ) ^ (p - 50) ≤ 2 ^ (p - 1) := two_pow_le (by omega)
  have w3 : (2 : ℝ) ^ (p - 1) * 2 = 2 ^ p := by rw [← zpow_add_one₀ (by norm_num)]; congr 1; ring
  have w4 : (2 : ℝ) ^ (p + 1) = 2 ^ p * 2 := by rw [two_pow_add, zpow_one]
  have hSA : |Real.sqrt S| ≤ 2 ^ (p + 2) := by
    rw [abs_of_nonneg (Real.sqrt_nonneg _), two_pow_add]
    have := (_root_.abs_le.1 e1).2
    norm_num
    linarith
  have hh := hq.approx (p + 2) (by rw [mb53, min1074]; omega) hSA e1
  refine hh.weaken ?_
  rw [mb53]
  have v1 : (2 : ℝ) ^ (p + 2 - 53 - 1) ≤ 2 ^ (p - 50) := two_pow_le (by omega)
  have v2 : (2 : ℝ) ^ (p - 48) = 2 ^ (p - 50) * 4 := by rw [show p - 48 = p - 50 + 2 by ring, two_pow_add]; norm_num
  have v3 := two_pow_pos (p - 50)
  linarith

/-- The range between nearby ends. -/
theorem NearRange.move {A0 A1 y0 y1 E α : ℝ} {r : ℝ × ℝ} (h : NearRange Real.cos (min A0 A1) (max A0 A1) E r) (h0 : |A0 - y0| ≤ α) (h1 : |A1 - y1| ≤ α) (hy : y0 ≤ y1) :
    NearRange Real.cos y0 y1 (E + α) r := by
  obtain ⟨a1, a2⟩ := _root_.abs_le.1 h0
  obtain ⟨b1, b2⟩ := _root_.abs_le.1 h1
  have m1 : min A0 A1 ≤ y0 + α := (min_le_left _ _).trans (by linarith)
  have m2 : y1 - α ≤ max A0 A1 := le_trans (by linarith) (le_max_right _ _)
  have m3 : y0 - α ≤ min A0 A1 := le_min (by linarith) (by linarith)
  have m4 : max A0 A1 ≤ y1 + α := max_le (by linarith) (by linarith)
  have mm : min A0 A1 ≤ max A0 A1 := min_le_max
  have back : ∀ y', min A0 A1 ≤ y' → y' ≤ max A0 A1 → ∃ y, y0 ≤ y ∧ y ≤ y1 ∧ |Real.cos y - Real.cos y'| ≤ α := by
    intro y' h1 h2
    refine ⟨max y0 (min y' y1), le_max_left _ _, max_le hy (min_le_right _ _), (cos_lip _ _).trans ?_⟩
    rw [_root_.abs_le]
    constructor
    · have : y' - α ≤ max y0 (min y' y1) := le_trans (le_min (by linarith) (by linarith)) (le_max_right _ _)
      linarith
    · have : max y0 (min y' y1) ≤ y' + α := max_le (by linarith) ((min_le_left _ _).trans (by linarith))
      linarith
  obtain ⟨g1, ⟨u, u1, u2, u3⟩, v, v1, v2, v3⟩ := h
  refine ⟨fun y k1 k2 => ?_, ?_, ?_⟩
  · obtain ⟨e1, e2⟩ := g1 (max (min A0 A1) (min y (max A0 A1))) (le_max_left _ _) (max_le mm (min_le_right _ _))
    have hd : |Real.cos y - Real.cos (max (min A0 A1) (min y (max A0 A1)))| ≤ α := by
      refine (cos_lip _ _).trans ?_
      rw [_root_.abs_le]
      constructor
      · have : max (min A0 A1) (min y (max A0 A1)) ≤ y + α := max_le (by linarith) ((min_le_left _ _).trans (by linarith))
        linarith
      · have : y - α ≤ max (min A0 A1) (min y (max A0 A1)) := le_trans (le_min (by linarith) (by linarith)) (le_max_right _ _)
        linarith
    obtain ⟨d1, d2⟩ := _root_.abs_le.1 hd
    constructor <;> linarith
  · obtain ⟨y, k1, k2, k3⟩ := back u u1 u2
    refine ⟨y, k1, k2, ?_⟩
    have := abs_sub_le (Real.cos y) (Real.cos u) r.1
    linarith
  · obtain ⟨y, k1, k2, k3⟩ := back v v1 v2
    refine ⟨y, k1, k2, ?_⟩
    have := abs_sub_le (Real.cos y) (Real.cos v) r.2
    linarith

/-- The angle passed to `findLUCos`. -/
theorem angle_near {k : ℤ} {th ph : Dbl} {φ δ : ℝ} {q t : ℤ} (hk : |((2 * k : ℤ) : ℝ)| ≤ 2 ^ (q + 1)) (hq0 : 0 ≤ q) (hq1 : q ≤ 30) (ht0 : 2 ≤ t) (ht1 : t ≤ 900) (hth : th.Fin) (bth : |th.val| ≤ 2 ^ t)
    (hph : ph.Fin) (bph : |ph.val| ≤ 4) (hφ : |ph.val - φ| ≤ δ) :
    Approx (TlsFp.ofInt .binary64 (2 * k) * th - ph) ((2 * k : ℤ) * th.val - φ) (2 ^ (q + t - 51) + δ) ∧ |(TlsFp.ofInt .binary64 (2 * k) * th - ph).val| ≤ 2 ^ (q + t + 2) := by
  obtain ⟨f1, f2⟩ := TlsFp.ofInt_is (spec := Format.binary64) (n := 2 * k) (hk.trans (two_pow_le (by rw [mb53]; omega))) (hk.trans (two_pow_le (by rw [top1023]; omega)))
  have fa := approx_self f1
  rw [f2] at fa
  have m1 := Approx.mul fa (approx_self hth) (q + t + 1) (by rw [mb53, min1074]; omega) (by rw [top1023]; omega) hk bth
    (by rw [add_zero, add_zero, ← two_pow_add]; exact two_pow_le (by omega)) le_rfl
  simp only [mul_zero, add_zero, zero_mul, zero_add] at m1
  rw [mb53] at m1
  have hV : |((2 * k : ℤ) : ℝ) * th.val| ≤ 2 ^ (q + t + 1) := by
    rw [abs_mul, show q + t + 1 = q + 1 + t by ring, two_pow_add]
    exact mul_le_mul hk bth (abs_nonneg _) (two_pow_pos _).le
  have x0 : (8 : ℝ) ≤ 2 ^ (q + t + 1) := by
    have : (2 : ℝ) ^ (3 : ℤ) ≤ 2 ^ (q + t + 1) := two_pow_le (by omega)
    norm_num at this ⊢
    exact this
  have x1 : (2 : ℝ) ^ (q + t + 2) = 2 ^ (q + t + 1) * 2 := by rw [show q + t + 2 = q + t + 1 + 1 by ring, two_pow_add _ 1, zpow_one]
  have x2 : (2 : ℝ) ^ (q + t - 51) ≤ 2 ^ (q + t - 1) := two_pow_le (by omega)
  have x3 : (2 : ℝ) ^ (q + t + 1) = 2 ^ (q + t - 1) * 4 := by rw [show q + t + 1 = q + t - 1 + 2 by ring, two_pow_add _ 2]; norm_num
  have x4 : (2 : ℝ) ^ (q + t + 1 - 53 - 1) ≤ 2 ^ (q + t - 52) := two_pow_le (by omega)
  have x5 : (2 : ℝ) ^ (q + t - 51) = 2 ^ (q + t - 52) * 2 := by rw [show q + t - 51 = q + t - 52 + 1 by ring, two_pow_add _ 1, zpow_one]
  have x6 := two_pow_pos (q + t - 52)
  have m2 := Approx.sub (E := 2 ^ (q + t - 51)) m1 (approx_self hph) (q + t + 2) (by rw [mb53, min1074]; omega) (by rw [top1023]; omega) hV bph
    (by linarith) (by rw [mb53, show q + t + 2 - 53 - 1 = q + t - 52 by ring]; linarith)
  refine ⟨?_, ?_⟩
  · refine m2.trans ?_
    rw [show ((2 * k : ℤ) : ℝ) * th.val - ph.val - (((2 * k : ℤ) : ℝ) * th.val - φ) = -(ph.val - φ) by ring, abs_neg]
    exact hφ
  · have hb := m2.abs_le (V := 2 ^ (q + t + 1) + 4) ((_root_.abs_sub _ _).trans (add_le_add hV bph))
    linarith

/-- The term of frequency 2k of the series. -/
noncomputable def lterm (coeffs : Vec Dbl) (k : ℕ) (θ : ℝ) : ℝ := (coeffs.val (2 * k)).val * Real.cos (2 * k * θ) + (coeffs.val (2 * k + 1)).val * Real.sin (2 * k * θ)

/-- The error of the range of one sinusoid. -/
noncomputable def luErr (δ δ2 : ℝ) (q t : ℤ) : ℝ := δ + δ2 + 2 ^ (-48 : ℤ) + 2 ^ (q + t - 50)

/-- The range of a sinusoid from the range of the cosine. -/
theorem sinusoid_range {a b A φ t0 t1 E : ℝ} {k : ℕ} {r : ℝ × ℝ} (hk : 1 ≤ k) (hA : 0 ≤ A) (ha : a = A * Real.cos φ) (hb : b = A * Real.sin φ)
    (h : NearRange Real.cos (2 * k * t0 - φ) (2 * k * t1 - φ) E r) :
    (∀ lo, IsLeast ((fun θ => a * Real.cos (2 * k * θ) + b * Real.sin (2 * k * θ)) '' Set.Icc t0 t1) lo → |A * r.1 - lo| ≤ A * E) ∧
    (∀ hi, IsGreatest ((fun θ => a * Real.cos (2 * k * θ) + b * Real.sin (2 * k * θ)) '' Set.Icc t0 t1) hi → |A * r.2 - hi| ≤ A * E) := by
  have e : ∀ θ, a * Real.cos (2 * k * θ) + b * Real.sin (2 * k * θ) = A * Real.cos (2 * k * θ - φ) := by
    intro θ; rw [Real.cos_sub, ha, hb]; ring
  have hk0 : (0 : ℝ) < 2 * k := by have : (1 : ℝ) ≤ k := by exact_mod_cast hk
                                   linarith
  have fwd : ∀ θ ∈ Set.Icc t0 t1, 2 * k * t0 - φ ≤ 2 * k * θ - φ ∧ 2 * k * θ - φ ≤ 2 * k * t1 - φ := fun θ hθ =>
    ⟨sub_le_sub_right (mul_le_mul_of_nonneg_left hθ.1 hk0.le) _, sub_le_sub_right (mul_le_mul_of_nonneg_left hθ.2 hk0.le) _⟩
  have bwd : ∀ y, 2 * k * t0 - φ ≤ y → y ≤ 2 * k * t1 - φ → ∃ θ ∈ Set.Icc t0 t1, y = 2 * k * θ - φ := fun y h1 h2 =>
    ⟨(y + φ) / (2 * k), ⟨by rw [le_div_iff₀ hk0]; linarith, by rw [div_le_iff₀ hk0]; linarith⟩, by rw [mul_div_cancel₀ _ hk0.ne']; ring⟩
  obtain ⟨g, ⟨u, u1, u2, u3⟩, v, v1, v2, v3⟩ := h
  refine ⟨?_, ?_⟩
  · rintro lo ⟨⟨θ, hθ, rfl⟩, hl⟩
    dsimp only at hl ⊢
    rw [e] at hl ⊢
    have g1 := (g _ (fwd θ hθ).1 (fwd θ hθ).2).1
    obtain ⟨θ', hθ', rfl⟩ := bwd u u1 u2
    have l1 := hl ⟨θ', hθ', rfl⟩
    dsimp only at l1
    rw [e] at l1
    obtain ⟨w1, w2⟩ := _root_.abs_le.1 u3
    have z1 := mul_le_mul_of_nonneg_left g1 hA
    have z2 := mul_le_mul_of_nonneg_left w2 hA
    rw [_root_.abs_le]
    constructor <;> nlinarith
  · rintro hi ⟨⟨θ, hθ, rfl⟩, hl⟩
    dsimp only at hl ⊢
    rw [e] at hl ⊢
    have g1 := (g _ (fwd θ hθ).1 (fwd θ hθ).2).2
    obtain ⟨θ', hθ', rfl⟩ := bwd v v1 v2
    have l1 := hl ⟨θ', hθ', rfl⟩
    dsimp only at l1
    rw [e] at l1
    obtain ⟨w1, w2⟩ := _root_.abs_le.1 v3
    have z1 := mul_le_mul_of_nonneg_left g1 hA
    have z2 := mul_le_mul_of_nonneg_left w1 hA
    rw [_root_.abs_le]
    constructor <;> nlinarith

/-- The product of the amplitude and of an end of the range. -/
theorem prod_near {m r : Dbl} {A lo E : ℝ} {p : ℤ} (hp0 : -400 ≤ p) (hp1 : p ≤ 500) (hm : Approx m A (2 ^ (p - 48))) (hA0 : 0 ≤ A) (hA : A ≤ 2 ^ (p + 1)) (hr : r.Fin) (br : |r.val| ≤ 2) (hE : 0 ≤ E) (h : |A * r.val - lo| ≤ A * E) :
    Approx (m * r) lo (2 ^ (p + 1) * E + 2 ^ (p - 46)) ∧ |lo| ≤ 2 ^ (p + 2) + 2 ^ (p + 1) * E := by
  have w4 : (2 : ℝ) ^ (p + 1) = 2 ^ p * 2 := by rw [two_pow_add, zpow_one]
  have w5 : (2 : ℝ) ^ (p + 3) = 2 ^ p * 8 := by rw [two_pow_add]; norm_num
  have w6 : (2 : ℝ) ^ (p + 2) = 2 ^ p * 4 := by rw [two_pow_add]; norm_num
  have w7 : (2 : ℝ) ^ (p - 48) ≤ 2 ^ p := two_pow_le (by omega)
  have w8 : (2 : ℝ) ^ (p - 46) = 2 ^ (p - 48) * 4 := by rw [show p - 46 = p - 48 + 2 by ring, two_pow_add]; norm_num
  have P0 := two_pow_pos p
  have P1 := two_pow_pos (p - 48)
  have hAE : A * E ≤ 2 ^ (p + 1) * E := mul_le_mul_of_nonneg_right hA hE
  have m1 := Approx.mul hm (approx_self hr) (p + 3) (by rw [mb53, min1074]; omega) (by rw [top1023]; omega) (V := 2 ^ (p + 1)) (by rwa [abs_of_nonneg hA0]) br
    (by rw [add_zero]; nlinarith) le_rfl
  refine ⟨(m1.trans h).weaken ?_, ?_⟩
  · rw [mb53]
    have : (2 : ℝ) ^ (p + 3 - 53 - 1) ≤ 2 ^ (p - 48) := two_pow_le (by omega)
    simp only [mul_zero, add_zero, zero_add]
    linarith
  · have := abs_sub_abs_le_abs_sub lo (A * r.val)
    rw [abs_sub_comm] at this
    have h2 : |A * r.val| ≤ 2 ^ (p + 1) * 2 := by rw [abs_mul, abs_of_nonneg hA0]; exact mul_le_mul hA br (abs_nonneg _) (two_pow_pos _).le
    linarith

/-- The assumptions about the C library. -/
structure Lib (cos : Dbl → Dbl) (at2 : Dbl → Dbl → Dbl) (δ δ2 : ℝ) : Prop where
  cos : CosErr cos δ
  atan2 : Atan2Err at2 δ2

/-- One sinusoid: the two products are near the least and the greatest value of the term. -/
theorem step_near {cos : Dbl → Dbl} {at2 : Dbl → Dbl → Dbl} {δ δ2 : ℝ} (L : Lib cos at2 δ δ2) {coeffs : Vec Dbl} {k : ℕ} {t0 t1 : Dbl} {p q t : ℤ} (hk : 1 ≤ k) (hkq : (k : ℝ) ≤ 2 ^ q) (hq0 : 0 ≤ q) (hq1 : q ≤ 30)
    (hp0 : -400 ≤ p) (hp1 : p ≤ 500) (ht0 : 2 ≤ t) (ht1 : t ≤ 900) (fa : (coeffs.val (2 * k)).Fin) (fb : (coeffs.val (2 * k + 1)).Fin) (ba : |(coeffs.val (2 * k)).val| ≤ 2 ^ p) (bb : |(coeffs.val (2 * k + 1)).val| ≤ 2 ^ p)
    (f0 : t0.Fin) (f1 : t1.Fin) (b0 : |t0.val| ≤ 2 ^ t) (b1 : |t1.val| ≤ 2 ^ t) (h01 : t0.val ≤ t1.val) (hE : luErr δ δ2 q t ≤ 1) {lo hi : ℝ}
    (hlo : IsLeast (lterm coeffs k '' Set.Icc t0.val t1.val) lo) (hhi : IsGreatest (lterm coeffs k '' Set.Icc t0.val t1.val) hi) :
    ∀ r, r = findLUCos cos (TlsFp.ofInt .binary64 (2 * k) * t0 - at2 (coeffs.val (2 * k + 1)) (coeffs.val (2 * k))) (TlsFp.ofInt .binary64 (2 * k) * t1 - at2 (coeffs.val (2 * k + 1)) (coeffs.val (2 * k))) →
      ∀ m, m = Fp.sqrt (coeffs.val (2 * k) * coeffs.val (2 * k) + coeffs.val (2 * k + 1) * coeffs.val (2 * k + 1)) →
      Approx (m * r.1) lo (2 ^ (p + 1) * luErr δ δ2 q t + 2 ^ (p - 46)) ∧ Approx (m * r.2) hi (2 ^ (p + 1) * luErr δ δ2 q t + 2 ^ (p - 46)) ∧ |lo| ≤ 2 ^ (p + 3) ∧ |hi| ≤ 2 ^ (p + 3) := by
  intro r hr m hm
  obtain ⟨pf, pb, φ, hφ, ea, eb⟩ := L.atan2 _ _ fa fb
  obtain ⟨am, aA⟩ := amp_near fa fb hp0 hp1 ba bb
  rw [← hm] at am
  have k2 : |((2 * (k : ℤ) : ℤ) : ℝ)| ≤ 2 ^ (q + 1) := by
    push_cast
    rw [abs_of_nonneg (by positivity), two_pow_add, zpow_one]
    linarith
  obtain ⟨A0, B0⟩ := angle_near k2 hq0 hq1 ht0 ht1 f0 b0 pf pb hφ
  obtain ⟨A1, B1⟩ := angle_near k2 hq0 hq1 ht0 ht1 f1 b1 pf pb hφ
  obtain ⟨⟨g1, g2⟩, hn⟩ := C106_range_partial L.cos A0.1 A1.1 (two_pow_le (by omega)) B0 B1
  rw [← hr] at g1 g2 hn
  have hk0 : (0 : ℝ) ≤ 2 * k := by positivity
  have ek : ((2 * (k : ℤ) : ℤ) : ℝ) = 2 * k := by push_cast; rfl
  rw [ek] at A0 A1
  have hmv := hn.move A0.2 A1.2 (sub_le_sub_right (mul_le_mul_of_nonneg_left h01 hk0) _)
  have hEr : δ + 1 / 2 ^ 48 + 2 ^ (q + t + 2) / 2 ^ 54 + (2 ^ (q + t - 51) + δ2) ≤ luErr δ δ2 q t := by
    unfold luErr
    have e1 : (2 : ℝ) ^ (q + t + 2) / 2 ^ 54 = 2 ^ (q + t - 52) := by
      rw [show q + t - 52 = q + t + 2 - ((54 : ℕ) : ℤ) by push_cast; ring, two_pow_sub, zpow_natCast]
    have e2 : (2 : ℝ) ^ (q + t - 50) = 2 ^ (q + t - 52) * 4 := by rw [show q + t - 50 = q + t - 52 + 2 by ring, two_pow_add _ 2]; norm_num
    have e3 : (2 : ℝ) ^ (q + t - 51) = 2 ^ (q + t - 52) * 2 := by rw [show q + t - 51 = q + t - 52 + 1 by ring, two_pow_add _ 1]; norm_num
    have e4 : (2 : ℝ) ^ (-48 : ℤ) = 1 / 2 ^ 48 := by norm_num
    have := two_pow_pos (q + t - 52)
    rw [e1, e2, e3, e4]
    linarith
  have hmv' : NearRange Real.cos (2 * k * t0.val - φ) (2 * k * t1.val - φ) (luErr δ δ2 q t) (vals r) := by
    obtain ⟨x1, ⟨u, u1, u2, u3⟩, v, v1, v2, v3⟩ := hmv
    refine ⟨fun y h1 h2 => ?_, ⟨u, u1, u2, u3.trans hEr⟩, v, v1, v2, v3.trans hEr⟩
    obtain ⟨y1, y2⟩ := x1 y h1 h2
    constructor <;> linarith
  have hE0 : 0 ≤ luErr δ δ2 q t := by
    obtain ⟨-, ⟨u, -, -, u3⟩, -⟩ := hmv'
    exact (abs_nonneg _).trans u3
  have br : |r.1.val| ≤ 2 ∧ |r.2.val| ≤ 2 := by
    obtain ⟨-, ⟨u, -, -, u3⟩, v, -, -, v3⟩ := hmv'
    have c1 := Real.abs_cos_le_one u
    have c2 := Real.abs_cos_le_one v
    have d1 := abs_sub_abs_le_abs_sub r.1.val (Real.cos u)
    have d2 := abs_sub_abs_le_abs_sub r.2.val (Real.cos v)
    rw [abs_sub_comm] at d1 d2
    change |Real.cos u - r.1.val| ≤ _ at u3
    change |Real.cos v - r.2.val| ≤ _ at v3
    constructor <;> linarith
  obtain ⟨s1, s2⟩ := sinusoid_range hk (Real.sqrt_nonneg _) ea eb hmv'
  obtain ⟨o1, o2⟩ := prod_near hp0 hp1 am (Real.sqrt_nonneg _) aA g1 br.1 hE0 (s1 lo hlo)
  obtain ⟨o3, o4⟩ := prod_near hp0 hp1 am (Real.sqrt_nonneg _) aA g2 br.2 hE0 (s2 hi hhi)
  have P := two_pow_pos (p + 1)
  have z : (2 : ℝ) ^ (p + 1) * luErr δ δ2 q t ≤ 2 ^ (p + 1) * 1 := mul_le_mul_of_nonneg_left hE P.le
  have z3 : (2 : ℝ) ^ (p + 3) = 2 ^ (p + 1) * 4 := by rw [show p + 3 = p + 1 + 2 by ring, two_pow_add _ 2]; norm_num
  have z2 : (2 : ℝ) ^ (p + 2) = 2 ^ (p + 1) * 2 := by rw [show p + 2 = p + 1 + 1 by ring, two_pow_add _ 1]; norm_num
  exact ⟨o1, o3, by linarith, by linarith⟩

/-- One addition to the running sum. -/
theorem acc_near {v x : Dbl} {σ lo G : ℝ} {p q : ℤ} {k : ℕ} (hq0 : 0 ≤ q) (hq1 : q ≤ 30) (hp0 : -400 ≤ p) (hp1 : p ≤ 500) (hkq : (k : ℝ) + 1 ≤ 2 ^ q) (hG : 0 ≤ G) (hG1 : G ≤ 2 ^ (p + 2))
    (hv : Approx v σ (k * (G + 2 ^ (p + q - 46)))) (hx : Approx x lo G) (hσ : |σ| ≤ (k + 1) * 2 ^ (p + 3)) (hlo : |lo| ≤ 2 ^ (p + 3)) :
    Approx (v + x) (σ + lo) ((k + 1) * (G + 2 ^ (p + q - 46))) ∧ |σ + lo| ≤ (k + 1 + 1) * 2 ^ (p + 3) := by
  have P0 := two_pow_pos p
  have Q1 : (1 : ℝ) ≤ 2 ^ q := by rw [← zpow_zero (2 : ℝ)]; exact two_pow_le hq0
  have x3 : (2 : ℝ) ^ (p + 3) = 2 ^ p * 8 := by rw [two_pow_add]; norm_num
  have x2 : (2 : ℝ) ^ (p + 2) = 2 ^ p * 4 := by rw [two_pow_add]; norm_num
  have x6 : (2 : ℝ) ^ (p + q + 6) = 2 ^ p * 2 ^ q * 64 := by rw [two_pow_add, two_pow_add]; norm_num
  have x7 : (2 : ℝ) ^ (p + q - 46) ≤ 2 ^ p := two_pow_le (by omega)
  have x8 : (2 : ℝ) ^ (p + q + 6 - 53 - 1) ≤ 2 ^ (p + q - 46) := two_pow_le (by omega)
  refine ⟨?_, ?_⟩
  · refine Approx.add hv hx (p + q + 6) (by rw [mb53, min1074]; omega) (by rw [top1023]; omega) hσ hlo ?_ ?_
    · rw [x3, x6]
      have k0 : (0 : ℝ) ≤ k := Nat.cast_nonneg k
      have a1 : (k + 1 : ℝ) * (2 ^ p * 8) ≤ 2 ^ q * (2 ^ p * 8) := mul_le_mul_of_nonneg_right hkq (by positivity)
      have a2 : (k : ℝ) * (G + 2 ^ (p + q - 46)) ≤ 2 ^ q * (2 ^ p * 5) := mul_le_mul (by linarith) (by linarith) (add_nonneg hG (two_pow_pos _).le) (by linarith)
      have a3 : (2 : ℝ) ^ p * 1 ≤ 2 ^ p * 2 ^ q := mul_le_mul_of_nonneg_left Q1 P0.le
      linarith
    · rw [mb53]
      linarith
  · have := abs_add_le σ lo
    linarith

theorem get_pair {c : Vec Dbl} {k : ℕ} (h : 2 * k + 1 < c.len) (h' : c.len ≤ 2 ^ 31) :
    Cxx.int (2 * (k : ℤ)) = .ok (2 * (k : ℤ)) ∧ c.get (2 * (k : ℤ)) = .ok (c.val (2 * k)) ∧
    Cxx.int (2 * (k : ℤ) + 1) = .ok (2 * (k : ℤ) + 1) ∧ c.get (2 * (k : ℤ) + 1) = .ok (c.val (2 * k + 1)) := by
  refine ⟨Functions.int_ok (by omega) (by omega), ?_, Functions.int_ok (by omega) (by omega), ?_⟩
  · exact_mod_cast c.get_nat (i := 2 * k) (by omega)
  · exact_mod_cast c.get_nat (i := 2 * k + 1) h

theorem luLoop_succ {c : Vec Dbl} {k : ℕ} (h : 2 * k + 1 < c.len) (h' : c.len ≤ 2 ^ 31) (cos : Dbl → Dbl) (at2 : Dbl → Dbl → Dbl) (t0 t1 x y : Dbl) (m : ℕ) :
    luFourierLoop cos at2 c t0 t1 (m + 1) (k : ℤ) x y = luFourierLoop cos at2 c t0 t1 m ((k + 1 : ℕ) : ℤ)
      (x + Fp.sqrt (c.val (2 * k) * c.val (2 * k) + c.val (2 * k + 1) * c.val (2 * k + 1)) *
        (findLUCos cos (TlsFp.ofInt .binary64 (2 * k) * t0 - at2 (c.val (2 * k + 1)) (c.val (2 * k))) (TlsFp.ofInt .binary64 (2 * k) * t1 - at2 (c.val (2 * k + 1)) (c.val (2 * k)))).1)
      (y + Fp.sqrt (c.val (2 * k) * c.val (2 * k) + c.val (2 * k + 1) * c.val (2 * k + 1)) *
        (findLUCos cos (TlsFp.ofInt .binary64 (2 * k) * t0 - at2 (c.val (2 * k + 1)) (c.val (2 * k))) (TlsFp.ofInt .binary64 (2 * k) * t1 - at2 (c.val (2 * k + 1)) (c.val (2 * k)))).2) := by
  obtain ⟨i1, g1, i2, g2⟩ := get_pair h h'
  rw [luFourierLoop, i1, Functions.bind_ok, g1, Functions.bind_ok, i2, Functions.bind_ok, g2, Functions.bind_ok, Nat.cast_add, Nat.cast_one]
  unfold TlsFp.ofInt
  with_reducible rfl

/-- The loop: the two running sums. -/
theorem luLoop_near {cos : Dbl → Dbl} {at2 : Dbl → Dbl → Dbl} {δ δ2 : ℝ} (L : Lib cos at2 δ δ2) {coeffs : Vec Dbl} {t0 t1 : Dbl} {p q t : ℤ} {n : ℕ} (hn : 2 * n ≤ coeffs.len) (hlen : coeffs.len ≤ 2 ^ 31)
    (hnq : (n : ℝ) ≤ 2 ^ q) (hq0 : 0 ≤ q) (hq1 : q ≤ 30) (hp0 : -400 ≤ p) (hp1 : p ≤ 500) (ht0 : 2 ≤ t) (ht1 : t ≤ 900) (hf : ∀ i < 2 * n, (coeffs.val i).Fin ∧ |(coeffs.val i).val| ≤ 2 ^ p)
    (f0 : t0.Fin) (f1 : t1.Fin) (b0 : |t0.val| ≤ 2 ^ t) (b1 : |t1.val| ≤ 2 ^ t) (h01 : t0.val ≤ t1.val) (hE : luErr δ δ2 q t ≤ 1) (hE0 : 0 ≤ luErr δ δ2 q t) {lo hi : ℕ → ℝ}
    (hlo : ∀ k < n, IsLeast (lterm coeffs k '' Set.Icc t0.val t1.val) (lo k)) (hhi : ∀ k < n, IsGreatest (lterm coeffs k '' Set.Icc t0.val t1.val) (hi k)) :
    ∀ (m j : ℕ) (x y : Dbl), 1 + j + m = n → Approx x (∑ k ∈ range (1 + j), lo k) (j * (2 ^ (p + 1) * luErr δ δ2 q t + 2 ^ (p - 46) + 2 ^ (p + q - 46))) →
      Approx y (∑ k ∈ range (1 + j), hi k) (j * (2 ^ (p + 1) * luErr δ δ2 q t + 2 ^ (p - 46) + 2 ^ (p + q - 46))) →
      |∑ k ∈ range (1 + j), lo k| ≤ (j + 1) * 2 ^ (p + 3) → |∑ k ∈ range (1 + j), hi k| ≤ (j + 1) * 2 ^ (p + 3) →
      ∃ r, luFourierLoop cos at2 coeffs t0 t1 m ((1 + j : ℕ) : ℤ) x y = .ok r ∧
        Approx r.1 (∑ k ∈ range n, lo k) ((n - 1 : ℕ) * (2 ^ (p + 1) * luErr δ δ2 q t + 2 ^ (p - 46) + 2 ^ (p + q - 46))) ∧
        Approx r.2 (∑ k ∈ range n, hi k) ((n - 1 : ℕ) * (2 ^ (p + 1) * luErr δ δ2 q t + 2 ^ (p - 46) + 2 ^ (p + q - 46))) := by
  intro m
  induction m with
  | zero =>
    intro j x y hj hx hy _ _
    obtain rfl : n = 1 + j := by omega
    rw [show 1 + j - 1 = j by omega]
    exact ⟨(x, y), rfl, hx, hy⟩
  | succ m ih =>
    intro j x y hj hx hy bx by'
    obtain ⟨k, hk⟩ : ∃ k, k = 1 + j := ⟨_, rfl⟩
    rw [← hk] at hx hy bx by' ⊢
    have hkn : (k : ℝ) ≤ n := by exact_mod_cast (by omega : k ≤ n)
    have hkj : (k : ℝ) = j + 1 := by rw [hk]; push_cast; ring
    obtain ⟨fa, ba⟩ := hf (2 * k) (by omega)
    obtain ⟨fb, bb⟩ := hf (2 * k + 1) (by omega)
    obtain ⟨s1, s2, s3, s4⟩ := step_near L (by omega) (hkn.trans hnq) hq0 hq1 hp0 hp1 ht0 ht1 fa fb ba bb f0 f1 b0 b1 h01 hE (hlo k (by omega)) (hhi k (by omega)) _ rfl _ rfl
    have P1 := two_pow_pos (p + 1)
    have hG : 0 ≤ 2 ^ (p + 1) * luErr δ δ2 q t + 2 ^ (p - 46) := add_nonneg (mul_nonneg P1.le hE0) (two_pow_pos _).le
    have hG1 : 2 ^ (p + 1) * luErr δ δ2 q t + 2 ^ (p - 46) ≤ 2 ^ (p + 2) := by
      have z : (2 : ℝ) ^ (p + 1) * luErr δ δ2 q t ≤ 2 ^ (p + 1) * 1 := mul_le_mul_of_nonneg_left hE P1.le
      have z2 : (2 : ℝ) ^ (p + 2) = 2 ^ (p + 1) * 2 := by rw [show p + 2 = p + 1 + 1 by ring, two_pow_add _ 1]; norm_num
      have z3 : (2 : ℝ) ^ (p - 46) ≤ 2 ^ (p + 1) := two_pow_le (by omega)
      linarith
    obtain ⟨c1, c2⟩ := acc_near hq0 hq1 hp0 hp1 (by rw [← hkj]; exact hkn.trans hnq) hG hG1 hx s1 bx s3
    obtain ⟨c3, c4⟩ := acc_near hq0 hq1 hp0 hp1 (by rw [← hkj]; exact hkn.trans hnq) hG hG1 hy s2 by' s4
    rw [← sum_range_succ, show k + 1 = 1 + (j + 1) by omega] at c1 c2 c3 c4
    obtain ⟨r, hr, hr'⟩ := ih (j + 1) _ _ (by omega) (by push_cast; exact c1) (by push_cast; exact c3) (by push_cast; exact c2) (by push_cast; exact c4)
    refine ⟨r, ?_, hr'⟩
    rw [luLoop_succ (by clear * - hk hj hn; omega) hlen, ← hr, hk, Nat.add_assoc]

theorem lterm_zero (coeffs : Vec Dbl) (θ : ℝ) : lterm coeffs 0 θ = (coeffs.val 0).val := by unfold lterm; simp

theorem lterm_cont (coeffs : Vec Dbl) (k : ℕ) : Continuous (lterm coeffs k) := by unfold lterm; fun_prop

/-- The error of the result for `n` pairs of coefficients. -/
noncomputable def luTotal (n : ℕ) (δ δ2 : ℝ) (p q t : ℤ) : ℝ := (n - 1 : ℕ) * (2 ^ (p + 1) * luErr δ δ2 q t + 2 ^ (p - 46) + 2 ^ (p + q - 46))

/-- `r` bounds the series, whose frequencies are 2k, between the angles, up to `η`. -/
def Encloses (coeffs : Vec Dbl) (t0 t1 η : ℝ) (r : Dbl × Dbl) : Prop := ∀ θ, min t0 t1 ≤ θ → θ ≤ max t0 t1 →
  r.1.val - η ≤ ∑ k ∈ range (coeffs.len / 2), ((coeffs.val (2 * k)).val * Real.cos (2 * k * θ) + (coeffs.val (2 * k + 1)).val * Real.sin (2 * k * θ)) ∧
  ∑ k ∈ range (coeffs.len / 2), ((coeffs.val (2 * k)).val * Real.cos (2 * k * θ) + (coeffs.val (2 * k + 1)).val * Real.sin (2 * k * θ)) ≤ r.2.val + η

/-- The full statement: the result of `findLUFourier` bounds the series. -/
def C109_statement : Prop := ∀ (cos : Dbl → Dbl) (at2 : Dbl → Dbl → Dbl) (coeffs : Vec Dbl) (t0 t1 : Dbl), Lib cos at2 (1 / 4) (1 / 4) → 1 < coeffs.len → coeffs.len ≤ 2 ^ 31 →
  (∀ i < coeffs.len, (coeffs.val i).Fin) → t0.Fin → t1.Fin → ∃ r, findLUFourier cos at2 coeffs t0 t1 = .ok r ∧ Encloses coeffs t0.val t1.val 0 r

/-- C109, partial: with coefficients up to 2 ^ p, `n` pairs of them, n ≤ 2 ^ q, angles up to 2 ^ t, in whatever order, the results are, up to `luTotal`, the sums of the least and of the greatest
values of the terms; so they bound the series up to `luTotal`. Missing: the exact bounds, and larger arguments. -/
theorem C109_near_partial {cos : Dbl → Dbl} {at2 : Dbl → Dbl → Dbl} {δ δ2 : ℝ} (L : Lib cos at2 δ δ2) {coeffs : Vec Dbl} {t0 t1 : Dbl} {p q t : ℤ} (hlen0 : 1 < coeffs.len) (hlen : coeffs.len ≤ 2 ^ 31)
    (hnq : ((coeffs.len / 2 : ℕ) : ℝ) ≤ 2 ^ q) (hq0 : 0 ≤ q) (hq1 : q ≤ 30) (hp0 : -400 ≤ p) (hp1 : p ≤ 500) (ht0 : 2 ≤ t) (ht1 : t ≤ 900) (hf : ∀ i < coeffs.len, (coeffs.val i).Fin ∧ |(coeffs.val i).val| ≤ 2 ^ p)
    (f0 : t0.Fin) (f1 : t1.Fin) (b0 : |t0.val| ≤ 2 ^ t) (b1 : |t1.val| ≤ 2 ^ t) (hE : luErr δ δ2 q t ≤ 1) (hE0 : 0 ≤ δ) (hE2 : 0 ≤ δ2) :
    ∃ r, findLUFourier cos at2 coeffs t0 t1 = .ok r ∧ (r.1.Fin ∧ r.2.Fin) ∧
      (∀ lo hi : ℕ → ℝ, (∀ k < coeffs.len / 2, IsLeast (lterm coeffs k '' Set.Icc (min t0.val t1.val) (max t0.val t1.val)) (lo k)) →
        (∀ k < coeffs.len / 2, IsGreatest (lterm coeffs k '' Set.Icc (min t0.val t1.val) (max t0.val t1.val)) (hi k)) →
        |r.1.val - ∑ k ∈ range (coeffs.len / 2), lo k| ≤ luTotal (coeffs.len / 2) δ δ2 p q t ∧ |r.2.val - ∑ k ∈ range (coeffs.len / 2), hi k| ≤ luTotal (coeffs.len / 2) δ δ2 p q t) ∧
      Encloses coeffs t0.val t1.val (luTotal (coeffs.len / 2) δ δ2 p q t) r := by
  have hEn : 0 ≤ luErr δ δ2 q t := by
    unfold luErr
    have := two_pow_pos (-48)
    have := two_pow_pos (q + t - 50)
    linarith
  obtain ⟨u0, u1, hu, fu0, fu1, bu0, bu1, eu0, eu1⟩ : ∃ u0 u1 : Dbl, (u0, u1) = (if t1 < t0 then (t1, t0) else (t0, t1)) ∧ u0.Fin ∧ u1.Fin ∧ |u0.val| ≤ 2 ^ t ∧ |u1.val| ≤ 2 ^ t ∧ u0.val = min t0.val t1.val ∧ u1.val = max t0.val t1.val := by
    by_cases h : t1 < t0
    · rw [if_pos h]
      rw [lt_iff f1 f0] at h
      exact ⟨t1, t0, rfl, f1, f0, b1, b0, (min_eq_right h.le).symm, (max_eq_left h.le).symm⟩
    · rw [if_neg h]
      rw [lt_iff f1 f0, not_lt] at h
      exact ⟨t0, t1, rfl, f0, f1, b0, b1, (min_eq_left h).symm, (max_eq_right h).symm⟩
  have h01 : u0.val ≤ u1.val := by rw [eu0, eu1]; exact min_le_max
  rw [← eu0, ← eu1]
  have hP : (2 : ℝ) ^ p ≤ 2 ^ (p + 3) := two_pow_le (by omega)
  obtain ⟨fc, bc⟩ := hf 0 (by omega)
  have key : ∀ lo hi : ℕ → ℝ, (∀ k < coeffs.len / 2, IsLeast (lterm coeffs k '' Set.Icc u0.val u1.val) (lo k)) → (∀ k < coeffs.len / 2, IsGreatest (lterm coeffs k '' Set.Icc u0.val u1.val) (hi k)) →
      ∃ r, findLUFourier cos at2 coeffs t0 t1 = .ok r ∧ Approx r.1 (∑ k ∈ range (coeffs.len / 2), lo k) (luTotal (coeffs.len / 2) δ δ2 p q t) ∧
        Approx r.2 (∑ k ∈ range (coeffs.len / 2), hi k) (luTotal (coeffs.len / 2) δ δ2 p q t) := by
    intro lo hi hlo hhi
    have l0 : lo 0 = (coeffs.val 0).val := by
      obtain ⟨θ, -, e⟩ := (hlo 0 (by omega)).1
      rw [← e, lterm_zero]
    have g0 : hi 0 = (coeffs.val 0).val := by
      obtain ⟨θ, -, e⟩ := (hhi 0 (by omega)).1
      rw [← e, lterm_zero]
    have sl : ∑ k ∈ range (1 + 0), lo k = (coeffs.val 0).val := by rw [sum_range_one, l0]
    have sh : ∑ k ∈ range (1 + 0), hi k = (coeffs.val 0).val := by rw [sum_range_one, g0]
    have hc : Approx (coeffs.val 0) (coeffs.val 0).val (((0 : ℕ) : ℝ) * (2 ^ (p + 1) * luErr δ δ2 q t + 2 ^ (p - 46) + 2 ^ (p + q - 46))) := by
      rw [Nat.cast_zero, zero_mul]
      exact approx_self fc
    have hb : |(coeffs.val 0).val| ≤ (((0 : ℕ) : ℝ) + 1) * 2 ^ (p + 3) := by
      rw [Nat.cast_zero, zero_add, one_mul]
      exact bc.trans hP
    obtain ⟨r, hr, hr'⟩ := luLoop_near L (n := coeffs.len / 2) (by clear * -; omega) hlen hnq hq0 hq1 hp0 hp1 ht0 ht1 (fun i hi => hf i (by clear * - hi; omega)) fu0 fu1 bu0 bu1 h01 hE hEn hlo hhi
      (coeffs.len / 2 - 1) 0 (coeffs.val 0) (coeffs.val 0) (by clear * - hlen0; omega) (by rw [sl]; exact hc) (by rw [sh]; exact hc) (by rw [sl]; exact hb) (by rw [sh]; exact hb)
    refine ⟨r, ?_, hr'⟩
    unfold findLUFourier
    dsimp only
    rw [Functions.fourierOrder_eq hlen, show ((coeffs.len / 2 : ℕ) - 1 : ℤ).toNat = coeffs.len / 2 - 1 by clear * -; omega, show coeffs.get 0 = .ok (coeffs.val 0) from coeffs.get_nat (i := 0) (by clear * - hlen0; omega), Functions.bind_ok, ← hu]
    exact hr
  have hne : (Set.Icc u0.val u1.val).Nonempty := ⟨_, le_rfl, h01⟩
  have hcomp : ∀ k, IsCompact (lterm coeffs k '' Set.Icc u0.val u1.val) := fun k => isCompact_Icc.image (lterm_cont coeffs k)
  choose lo hlo using fun k => (hcomp k).exists_isLeast (hne.image _)
  choose hi hhi using fun k => (hcomp k).exists_isGreatest (hne.image _)
  obtain ⟨r, hr, ra, rb⟩ := key lo hi (fun k _ => hlo k) (fun k _ => hhi k)
  refine ⟨r, hr, ⟨ra.1, rb.1⟩, ?_, ?_⟩
  · intro lo' hi' hlo' hhi'
    obtain ⟨r', hr2, h1, h2⟩ := key lo' hi' hlo' hhi'
    rw [hr] at hr2
    obtain rfl : r = r' := Except.ok.inj hr2
    exact ⟨h1.2, h2.2⟩
  · intro θ h1 h2
    rw [← eu0] at h1
    rw [← eu1] at h2
    have s1 : ∑ k ∈ range (coeffs.len / 2), lo k ≤ ∑ k ∈ range (coeffs.len / 2), lterm coeffs k θ := sum_le_sum fun k _ => (hlo k).2 ⟨θ, ⟨h1, h2⟩, rfl⟩
    have s2 : ∑ k ∈ range (coeffs.len / 2), lterm coeffs k θ ≤ ∑ k ∈ range (coeffs.len / 2), hi k := sum_le_sum fun k _ => (hhi k).2 ⟨θ, ⟨h1, h2⟩, rfl⟩
    obtain ⟨x1, x2⟩ := _root_.abs_le.1 ra.2
    obtain ⟨y1, y2⟩ := _root_.abs_le.1 rb.2
    unfold lterm at s1 s2
    constructor <;> linarith

-- 1 + 3 cos(2θ) + 4 sin(2θ) over [0, 4]: 1 ± 5
example : findLUFourier (fun x => x) (fun _ _ => d 9 1) ⟨4, fun i => [d 10 1, d 0 1, d 30 1, d 40 1].getD i (d 0 1)⟩ (d 40 1) (d 0 1) = .ok (-d 40 1, d 60 1) := by decide +kernel

/-- An empty vector is read out of bounds. -/
theorem C109_empty_violated (cos : Dbl → Dbl) (at2 : Dbl → Dbl → Dbl) (coeffs : Vec Dbl) (t0 t1 : Dbl) (h : coeffs.len = 0) : findLUFourier cos at2 coeffs t0 t1 = .error (.ub .outOfBounds) := by
  unfold findLUFourier
  rw [coeffs.get_oob (by omega)]
  rfl

/-! ### The bounds are not exact -/

/-- 2^-30. -/
def tiny : Dbl := d 10 1 / d 1073741824 0

theorem tiny_is : tiny.Fin ∧ tiny.val = 1 / 2 ^ 30 := by
  have h1 : tiny.x = .finite .positive (2 ^ 52) (-82) (by decide) := by decide +kernel
  unfold Fp.Fin Fp.val
  rw [h1]
  refine ⟨trivial, ?_⟩
  simp only [Ieee.val, sgn]
  norm_num

theorem hundred_is : (d 1000 1).Fin ∧ (d 1000 1).val = 100 := by
  have h1 : (d 1000 1).x = .finite .positive (100 * 2 ^ 46) (-46) (by decide) := by decide +kernel
  unfold Fp.Fin Fp.val
  rw [h1]
  refine ⟨trivial, ?_⟩
  simp only [Ieee.val, sgn]
  norm_num

/-- The coefficients 0, 0, 1, 2^-30. -/
def wcoef : Vec Dbl := ⟨4, fun i => [d 0 1, d 0 1, d 10 1, tiny].getD i (d 0 1)⟩

/-- An angle of the point with the error 1/4: a multiple of 1/2. -/
noncomputable def roughAtan2 (b a : Dbl) : Dbl := TlsFp.ofInt .binary64 (round (2 * Complex.arg ⟨a.val, b.val⟩)) * d 5 1

theorem roughAtan2_err : Atan2Err roughAtan2 (1 / 4) := by
  intro a b _ _
  obtain ⟨n, hn⟩ : ∃ n, n = round (2 * Complex.arg ⟨a.val, b.val⟩) := ⟨_, rfl⟩
  have hr := abs_sub_round (2 * Complex.arg ⟨a.val, b.val⟩)
  rw [← hn] at hr
  have hp := Real.pi_lt_d2
  have h1 := Complex.neg_pi_lt_arg ⟨a.val, b.val⟩
  have h2 := Complex.arg_le_pi ⟨a.val, b.val⟩
  obtain ⟨r1, r2⟩ := _root_.abs_le.1 hr
  have nb : |(n : ℝ)| ≤ 8 := by rw [_root_.abs_le]; constructor <;> linarith
  have e8 : (8 : ℝ) = 2 ^ (3 : ℤ) := by norm_num
  obtain ⟨f1, f2⟩ := TlsFp.ofInt_is (spec := Format.binary64) (n := n) (nb.trans (e8 ▸ two_pow_le (by decide))) (nb.trans (e8 ▸ two_pow_le (by decide)))
  have hg : Grid Format.binary64 ((TlsFp.ofInt .binary64 n : Dbl).val * (d 5 1).val) := by
    rw [f2, half_is.2]
    exact ⟨n, -1, nb.trans (e8 ▸ two_pow_le (by decide)), by decide, by norm_num⟩
  obtain ⟨m1, m2⟩ := mul_exact f1 half_is.1 (by
    rw [f2, half_is.2, abs_mul]
    refine le_trans ?_ (two_pow_le (by decide : (3 : ℤ) ≤ top Format.binary64))
    rw [← e8, abs_of_pos (by norm_num : (0 : ℝ) < 1 / 2)]
    linarith) hg
  rw [f2, half_is.2] at m2
  unfold roughAtan2
  rw [← hn]
  refine ⟨m1, ?_, Complex.arg ⟨a.val, b.val⟩, ?_, ?_, ?_⟩
  · rw [m2, abs_mul, abs_of_pos (by norm_num : (0 : ℝ) < 1 / 2)]
    linarith
  · rw [m2, _root_.abs_le]
    constructor <;> linarith
  · have hz : Real.sqrt (a.val ^ 2 + b.val ^ 2) = ‖(⟨a.val, b.val⟩ : ℂ)‖ := by rw [Complex.norm_def, Complex.normSq_apply]; congr 1; ring
    rw [hz]; exact (Complex.norm_mul_cos_arg (⟨a.val, b.val⟩ : ℂ)).symm
  · have hz : Real.sqrt (a.val ^ 2 + b.val ^ 2) = ‖(⟨a.val, b.val⟩ : ℂ)‖ := by rw [Complex.norm_def, Complex.normSq_apply]; congr 1; ring
    rw [hz]; exact (Complex.norm_mul_sin_arg (⟨a.val, b.val⟩ : ℂ)).symm

/-- Over a wide interval the range of the cosine is [-1, 1]. -/
theorem wide_range (cos : Dbl → Dbl) {a b : Dbl} (ha : a.Fin) (hb : b.Fin) (h : a.val + 7 ≤ b.val) (hM : b.val - a.val ≤ 2 ^ top Format.binary64) : findLUCos cos a b = (-d 10 1, d 10 1) := by
  have hs := sub_is hb ha (by rwa [abs_of_nonneg (by linarith)])
  have ht : tt ≤ 7 := by norm_num
  have hge : turn.val ≤ (b - a).val := hs.2.mono_ge turn.grid (by rw [turn_is.2]; linarith)
  unfold findLUCos findLUCosOrd
  rw [if_neg (by rw [lt_iff hb ha]; linarith), if_pos ((le_iff turn_is.1 hs.1).2 hge)]

/-- C109 fails: the coefficients 1 and 2^-30 of the cosine and of the sine have the amplitude 1 in `double` arithmetic, and the greatest value of the series over [0, 100] is greater, whatever the
errors of the functions of the C library. -/
theorem C109_violated : (∀ (cos : Dbl → Dbl) (at2 : Dbl → Dbl → Dbl), Atan2Err at2 (1 / 4) →
      ∃ r, findLUFourier cos at2 wcoef (d 0 1) (d 1000 1) = .ok r ∧ r.2.val = 1 ∧ ¬ Encloses wcoef (d 0 1).val (d 1000 1).val 0 r) ∧ ¬ C109_statement := by
  have main : ∀ (cos : Dbl → Dbl) (at2 : Dbl → Dbl → Dbl), Atan2Err at2 (1 / 4) →
      ∃ r, findLUFourier cos at2 wcoef (d 0 1) (d 1000 1) = .ok r ∧ r.2.val = 1 ∧ ¬ Encloses wcoef (d 0 1).val (d 1000 1).val 0 r := by
    intro cos at2 hat
    obtain ⟨pf, pb, φ, hφ, ea, eb⟩ := hat (d 10 1) tiny one_is.1 tiny_is.1
    obtain ⟨A0, B0⟩ := angle_near (k := 1) (q := 0) (t := 7) (th := d 0 1) (by norm_num) (by norm_num) (by norm_num) (by norm_num) (by norm_num) zero_lit.1 (by rw [zero_lit.2]; norm_num) pf pb hφ
    obtain ⟨A1, B1⟩ := angle_near (k := 1) (q := 0) (t := 7) (th := d 1000 1) (by norm_num) (by norm_num) (by norm_num) (by norm_num) (by norm_num) hundred_is.1 (by rw [hundred_is.2]; norm_num) pf pb hφ
    obtain ⟨x1, x2⟩ := _root_.abs_le.1 A0.2
    obtain ⟨y1, y2⟩ := _root_.abs_le.1 A1.2
    obtain ⟨z1, z2⟩ := _root_.abs_le.1 B0
    obtain ⟨w1, w2⟩ := _root_.abs_le.1 B1
    rw [zero_lit.2] at x1 x2
    rw [hundred_is.2] at y1 y2
    norm_num at x1 x2 y1 y2 z1 z2 w1 w2
    have hwr := wide_range cos A0.1 A1.1 (by norm_num; linarith) (by
      refine le_trans ?_ (two_pow_le (by decide : (11 : ℤ) ≤ top Format.binary64))
      norm_num
      linarith)
    have hlt : (d 0 1) < (d 1000 1) := by rw [lt_iff zero_lit.1 hundred_is.1, zero_lit.2, hundred_is.2]; norm_num
    have hnl : ¬ (d 1000 1) < (d 0 1) := by rw [lt_iff hundred_is.1 zero_lit.1, zero_lit.2, hundred_is.2]; norm_num
    have hsum : d 10 1 * d 10 1 + tiny * tiny = d 10 1 := by decide +kernel
    obtain ⟨s1, s2⟩ : (Fp.sqrt (d 10 1)).Fin ∧ (Fp.sqrt (d 10 1)).val = 1 := by
      have := sqrt_fin one_is.1 (by rw [one_is.2]; norm_num)
      rw [one_is.2, Real.sqrt_one] at this
      refine ⟨this.1, this.2.exact ?_⟩
      rw [← one_is.2]
      exact (d 10 1).grid
    have g1 : Grid Format.binary64 1 := by rw [← one_is.2]; exact (d 10 1).grid
    have t1 : (1 : ℝ) ≤ 2 ^ top Format.binary64 := by rw [← zpow_zero (2 : ℝ)]; exact two_pow_le (by decide)
    have hm := mul_is s1 one_is.1 (by rw [s2, one_is.2, mul_one, abs_one]; exact t1)
    rw [s2, one_is.2, mul_one] at hm
    have hmv : (Fp.sqrt (d 10 1) * d 10 1).val = 1 := hm.2.exact g1
    have ha := add_is zero_lit.1 hm.1 (by rw [zero_lit.2, hmv, zero_add, abs_one]; exact t1)
    rw [zero_lit.2, hmv, zero_add] at ha
    have hav : (d 0 1 + Fp.sqrt (d 10 1) * d 10 1).val = 1 := ha.2.exact g1
    have hrun : findLUFourier cos at2 wcoef (d 0 1) (d 1000 1) = .ok (d 0 1 + Fp.sqrt (d 10 1) * (-d 10 1), d 0 1 + Fp.sqrt (d 10 1) * d 10 1) := by
      unfold findLUFourier
      dsimp only
      rw [if_neg hnl, show wcoef.get 0 = .ok (d 0 1) from rfl, Functions.bind_ok, show (Functions.fourierOrder wcoef.len).toNat = 0 + 1 from by decide]
      refine (luLoop_succ (c := wcoef) (k := 1) (by decide) (by decide) cos at2 _ _ _ _ 0).trans ?_
      rw [show wcoef.val (2 * 1) = d 10 1 from rfl, show wcoef.val (2 * 1 + 1) = tiny from rfl, hsum]
      rw [show (2 * ((1 : ℕ) : ℤ)) = 2 * 1 by norm_num, hwr]
      rfl
    refine ⟨_, hrun, hav, fun henc => ?_⟩
    have hρ : 1 < Real.sqrt ((d 10 1).val ^ 2 + tiny.val ^ 2) := by
      rw [one_is.2, tiny_is.2]
      exact Real.lt_sqrt_of_sq_lt (by norm_num)
    obtain ⟨p1, p2⟩ := _root_.abs_le.1 hφ
    obtain ⟨q1, q2⟩ := _root_.abs_le.1 pb
    have hpi := Real.pi_gt_three
    have hpi' := Real.pi_lt_d2
    have hv := (henc (φ / 2 + Real.pi) (by rw [zero_lit.2, hundred_is.2, min_eq_left (by norm_num)]; linarith) (by rw [zero_lit.2, hundred_is.2, max_eq_right (by norm_num)]; linarith)).2
    rw [hav, show wcoef.len / 2 = 2 from rfl, sum_range_succ, sum_range_one, show wcoef.val (2 * 0) = d 0 1 from rfl, show wcoef.val (2 * 0 + 1) = d 0 1 from rfl, zero_lit.2,
      show wcoef.val (2 * 1) = d 10 1 from rfl, show wcoef.val (2 * 1 + 1) = tiny from rfl] at hv
    have e : 2 * ((1 : ℕ) : ℝ) * (φ / 2 + Real.pi) = φ + 2 * Real.pi := by push_cast; ring
    rw [e, Real.cos_add_two_pi, Real.sin_add_two_pi] at hv
    have hval : (d 10 1).val * Real.cos φ + tiny.val * Real.sin φ = Real.sqrt ((d 10 1).val ^ 2 + tiny.val ^ 2) := by
      generalize Real.sqrt ((d 10 1).val ^ 2 + tiny.val ^ 2) = ρ at *
      rw [ea, eb]
      linear_combination ρ * Real.sin_sq_add_cos_sq φ
    rw [hval] at hv
    linarith
  refine ⟨main, fun h => ?_⟩
  obtain ⟨r, hr, he⟩ := h roughCos roughAtan2 wcoef (d 0 1) (d 1000 1) ⟨roughCos_err, roughAtan2_err⟩ (by decide) (by decide) (by
    intro i hi
    have : i < 4 := hi
    match i, this with
    | 0, _ => exact zero_lit.1
    | 1, _ => exact zero_lit.1
    | 2, _ => exact one_is.1
    | 3, _ => exact tiny_is.1) zero_lit.1 hundred_is.1
  obtain ⟨r', hr', -, hn⟩ := main roughCos roughAtan2 roughAtan2_err
  rw [hr] at hr'
  obtain rfl : r = r' := Except.ok.inj hr'
  exact hn he

end Verif.FunctionsFp
