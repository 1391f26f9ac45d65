import Verif.FunctionsFp.LuCosModel
import Verif.FunctionsFp.AtanProps
import Verif.FunctionsFp.Normalize
import Verif.Functions.Props

/-!
C106: the range of the cosine over an interval in `double` arithmetic.
-/
namespace Verif.FunctionsFp
open Ieee Fp Float.Model Real

/-- The value of `2.0 * M_PI`. -/
noncomputable abbrev tt : ℝ := 884279719003555 / 2 ^ 47

theorem turn_is : turn.Fin ∧ turn.val = tt := by
  have h1 : turn.x = .finite .positive 7074237752028440 (-50) (by decide) := by decide +kernel
  unfold Fp.Fin Fp.val
  rw [h1]
  refine ⟨trivial, ?_⟩
  simp only [Ieee.val, sgn]
  norm_num

theorem mpi_half : mPi.val = tt / 2 := by
  rw [mPi_val.1]
  norm_num

theorem one_is : (d 10 1).Fin ∧ (d 10 1).val = 1 := by
  have h1 : (d 10 1).x = .finite .positive (2 ^ 52) (-52) (by decide) := by decide +kernel
  unfold Fp.Fin Fp.val
  rw [h1]
  refine ⟨trivial, ?_⟩
  simp only [Ieee.val, sgn]
  norm_num

theorem zero_lit : (d 0 1).Fin ∧ (d 0 1).val = 0 := by
  have h1 : (d 0 1).x = .zero .positive := by decide +kernel
  unfold Fp.Fin Fp.val
  rw [h1]
  exact ⟨trivial, rfl⟩

/-! ### A cosine whose period is exactly `2.0 * M_PI` -/

/-- The ratio of 2π and `2.0 * M_PI`. -/
noncomputable def kap : ℝ := 2 * π / tt

theorem kap_bounds : 1 ≤ kap ∧ kap ≤ 1 + 1 / 2 ^ 54 := by
  have h1 := pi_gt_d20
  have h2 := pi_lt_d20
  unfold kap tt
  constructor
  · rw [le_div_iff₀ (by norm_num)]
    norm_num at h1 ⊢
    linarith
  · rw [div_le_iff₀ (by norm_num)]
    norm_num at h2 ⊢
    linarith

/-- The cosine with the period `2.0 * M_PI`. -/
noncomputable def g (y : ℝ) : ℝ := cos (y * kap)

theorem g_period (y : ℝ) (n : ℤ) : g (y + n * tt) = g y := by
  unfold g
  have : (y + n * tt) * kap = y * kap + n * (2 * π) := by
    unfold kap
    have : tt ≠ 0 := by norm_num
    field_simp
  rw [this, cos_add_int_mul_two_pi]

theorem cos_lip (x y : ℝ) : |cos x - cos y| ≤ |x - y| := by
  have := Real.abs_cos_sub_cos_le x y
  exact this

theorem g_near (y : ℝ) : |cos y - g y| ≤ |y| / 2 ^ 54 := by
  refine (cos_lip _ _).trans ?_
  rw [show y - y * kap = -(y * (kap - 1)) by ring, abs_neg, abs_mul]
  obtain ⟨h1, h2⟩ := kap_bounds
  rw [abs_of_nonneg (by linarith : 0 ≤ kap - 1), div_eq_mul_one_div]
  exact mul_le_mul_of_nonneg_left (by linarith) (abs_nonneg _)

theorem g_lip (x y : ℝ) : |g x - g y| ≤ 2 * |x - y| := by
  refine (cos_lip _ _).trans ?_
  obtain ⟨h1, h2⟩ := kap_bounds
  rw [← sub_mul, abs_mul, abs_of_nonneg (by linarith : 0 ≤ kap), mul_comm]
  apply mul_le_mul_of_nonneg_right _ (abs_nonneg _)
  norm_num at h2
  linarith

theorem tt_kap : tt * kap = 2 * π := by
  unfold kap
  have : tt ≠ 0 := by norm_num
  field_simp

theorem g_half (n : ℤ) : g (tt / 2 + n * tt) = -1 := by
  rw [g_period, g, show tt / 2 * kap = tt * kap / 2 by ring, tt_kap, show 2 * π / 2 = π by ring, cos_pi]

theorem g_zero (n : ℤ) : g (n * tt) = 1 := by
  have := g_period 0 n
  rw [zero_add] at this
  rw [this, g, zero_mul, cos_zero]

theorem scale {u v : ℝ} (h : u ≤ v) : u * kap ≤ v * kap := mul_le_mul_of_nonneg_right h (by linarith [kap_bounds.1])

theorem g_le_max {u v y : ℝ} (h0 : 0 ≤ u) (hv : v ≤ tt) (h1 : u ≤ y) (h2 : y ≤ v) : g y ≤ max (g u) (g v) := by
  have h := scale h0
  have h' := scale hv
  rw [zero_mul] at h
  rw [tt_kap] at h'
  exact Functions.cos_le_max h h' (scale h1) (scale h2)

theorem min_le_g {u v y : ℝ} (h0 : tt / 2 ≤ u) (hv : v ≤ tt * 3 / 2) (h1 : u ≤ y) (h2 : y ≤ v) : min (g u) (g v) ≤ g y := by
  have h := scale h0
  have h' := scale hv
  rw [show tt / 2 * kap = tt * kap / 2 by ring, tt_kap] at h
  rw [show tt * 3 / 2 * kap = tt * kap * 3 / 2 by ring, tt_kap] at h'
  exact Functions.min_le_cos (by linarith) (by linarith) (scale h1) (scale h2)

theorem min_le_g' {u v y : ℝ} (h0 : 0 ≤ u) (hv : v ≤ tt / 2) (h1 : u ≤ y) (h2 : y ≤ v) : min (g u) (g v) ≤ g y := by
  have h := scale h0
  have h' := scale hv
  rw [zero_mul] at h
  rw [show tt / 2 * kap = tt * kap / 2 by ring, tt_kap] at h'
  have := pi_pos
  exact Functions.min_le_cos' (by linarith) (by linarith) (scale h1) (scale h2)

/-! ### The reduction of the arguments -/

theorem mb53 : ((Format.binary64.mantissaBits : ℕ) : ℤ) = 53 := by decide
theorem top1023 : top Format.binary64 = 1023 := by decide
theorem min1074 : Format.binary64.minExponent = -1074 := by decide

theorem fin_is {a : Dbl} (ha : a.Fin) : a.Is a.val := ⟨ha, rounded_self a.canon ha⟩

/-- `fmod` and the correction give the exact remainder, rounded once. -/
theorem normMod_is {a : Dbl} (ha : a.Fin) : ∃ (s : ℝ) (n : ℤ), a.val = s + n * tt ∧ 0 ≤ s ∧ s < tt ∧ (normMod a).Is s ∧ (0 ≤ a.val → (normMod a).val = s) := by
  obtain ⟨hT, hTv⟩ := turn_is
  have ht0 : (0 : ℝ) < tt := by norm_num
  obtain ⟨f1, ⟨n, f2⟩, f3, f4, f5, f6⟩ := fmod_is ha hT (by rw [hTv]; exact ht0.ne')
  rw [hTv, abs_of_pos ht0] at f3
  rw [hTv] at f2
  unfold normMod
  dsimp only
  split
  · rename_i h
    rw [lt_iff f1 zero_lit.1, zero_lit.2] at h
    rw [abs_of_neg h] at f3
    refine ⟨(fmod a turn).val + tt, n - 1, by rw [f2]; push_cast; ring, by linarith, by linarith, ?_, fun h' => by linarith [f5 h']⟩
    have := add_is f1 hT (by
      rw [hTv, abs_of_nonneg (by linarith)]
      refine le_trans ?_ (two_pow_le (show (3 : ℤ) ≤ _ by decide))
      norm_num at h ⊢
      linarith)
    rwa [hTv] at this
  · rename_i h
    rw [lt_iff f1 zero_lit.1, zero_lit.2, not_lt] at h
    rw [abs_of_nonneg h] at f3
    exact ⟨(fmod a turn).val, n, by rw [f2]; ring, h, f3, fin_is f1, fun _ => rfl⟩

/-- Rounding a number of [0, 8] to double: the error. -/
theorem is_err {a : Dbl} {s : ℝ} (h : a.Is s) (h0 : 0 ≤ s) (h8 : s ≤ 8) : |a.val - s| ≤ 1 / 2 ^ 51 := by
  have := h.2.err (k := 3) (by decide) (by rw [abs_of_nonneg h0]; norm_num; exact h8)
  rw [mb53] at this
  norm_num at this ⊢
  exact this

/-- A number of [0, 8] that is a multiple of 2^-50 is not changed by rounding. -/
theorem is_exact {a : Dbl} {s : ℝ} (h : a.Is s) (h0 : 0 ≤ s) (h8 : s ≤ 8) (n : ℤ) (hn : s = n / 2 ^ 50) : a.val = s := by
  apply h.2.exact
  refine ⟨n, -50, ?_, by decide, by rw [hn]; norm_num; ring⟩
  rw [mb53]
  have : (n : ℝ) = s * 2 ^ 50 := by rw [hn]; norm_num
  rw [this, abs_of_nonneg (by positivity)]
  norm_num
  linarith

/-- A double of magnitude at least 4 is a multiple of 2^-50. -/
theorem big_multiple (a : Dbl) (h : 4 ≤ |a.val|) : ∃ n : ℤ, a.val = n / 2 ^ 50 := by
  obtain ⟨q, u, hq, _, he⟩ := a.grid
  rw [mb53] at hq
  have hu : -50 ≤ u ∨ u = -51 ∧ |(q : ℝ)| = 2 ^ 53 := by
    rw [he, abs_mul, abs_of_pos (two_pow_pos u)] at h
    rcases le_or_gt (-50) u with h1 | h1
    · exact Or.inl h1
    · right
      rcases (show u = -51 ∨ u ≤ -52 by omega) with rfl | h2
      · refine ⟨rfl, le_antisymm (by exact_mod_cast hq) ?_⟩
        norm_num at h ⊢
        linarith
      · exfalso
        have h3 := two_pow_le h2
        have : |(q : ℝ)| * 2 ^ u ≤ 2 ^ (53 : ℤ) * 2 ^ (-52 : ℤ) := mul_le_mul hq h3 (two_pow_pos u).le (two_pow_pos _).le
        norm_num at this
        linarith
  rcases hu with hu | ⟨rfl, hq2⟩
  · obtain ⟨k, hk⟩ : ∃ k : ℕ, u = -50 + k := ⟨(u + 50).toNat, by omega⟩
    refine ⟨q * 2 ^ k, ?_⟩
    rw [he, hk, two_pow_add, zpow_natCast]
    push_cast
    norm_num
    ring
  · have : q = 2 ^ 53 ∨ q = -2 ^ 53 := by
      rw [abs_eq (by norm_num)] at hq2
      rcases hq2 with h | h
      · left; exact_mod_cast h
      · right; exact_mod_cast h
    rcases this with rfl | rfl
    · exact ⟨2 ^ 52, by rw [he]; norm_num⟩
    · exact ⟨-2 ^ 52, by rw [he]; norm_num⟩

/-- 2^-51. -/
def eps51 : Dbl := d 10 1 / d 2251799813685248 0

theorem eps51_is : eps51.Fin ∧ eps51.val = 1 / 2 ^ 51 := by
  have h1 : eps51.x = .finite .positive (2 ^ 52) (-103) (by decide) := by decide +kernel
  unfold Fp.Fin Fp.val
  rw [h1]
  refine ⟨trivial, ?_⟩
  simp only [Ieee.val, sgn]
  norm_num

/-- The mantissa of `2.0 * M_PI` is even: half a unit less is rounded to it. -/
theorem turn_tie {c : Dbl} {x : ℝ} (h : c.Is x) (hx : tt - 1 / 2 ^ 51 ≤ x) : tt ≤ c.val := by
  obtain ⟨hT, hTv⟩ := turn_is
  obtain ⟨hE, hEv⟩ := eps51_is
  have h1 := sub_is hT hE (by
    rw [hTv, hEv]
    refine le_trans ?_ (two_pow_le (show (3 : ℤ) ≤ _ by decide))
    norm_num [abs_of_nonneg])
  have e : turn - eps51 = turn := by decide +kernel
  rw [e, hTv, hEv] at h1
  have := h1.mono h hx
  rwa [hTv] at this

/-! ### The range -/

/-- `r` is, up to `E`, the pair of the least and the greatest value of `h` between `a` and `b`. -/
def NearRange (h : ℝ → ℝ) (a b E : ℝ) (r : ℝ × ℝ) : Prop :=
  (∀ y, a ≤ y → y ≤ b → r.1 - E ≤ h y ∧ h y ≤ r.2 + E) ∧ (∃ y, a ≤ y ∧ y ≤ b ∧ |h y - r.1| ≤ E) ∧ ∃ y, a ≤ y ∧ y ≤ b ∧ |h y - r.2| ≤ E

theorem NearRange.shift {a b E : ℝ} {r : ℝ × ℝ} (n : ℤ) (h : NearRange g (a - n * tt) (b - n * tt) E r) : NearRange g a b E r := by
  have e : ∀ y, g (y - n * tt) = g y := by
    intro y
    have := g_period (y - n * tt) n
    rw [sub_add_cancel] at this
    exact this.symm
  obtain ⟨h1, ⟨y, y1, y2, y3⟩, z, z1, z2, z3⟩ := h
  refine ⟨fun y a1 a2 => ?_, ⟨y + n * tt, by linarith, by linarith, by rw [g_period]; exact y3⟩, z + n * tt, by linarith, by linarith, by rw [g_period]; exact z3⟩
  have := h1 (y - n * tt) (by linarith) (by linarith)
  rwa [e] at this

theorem NearRange.toCos {a b E M : ℝ} {r : ℝ × ℝ} (h : NearRange g a b E r) (ha : |a| ≤ M) (hb : |b| ≤ M) : NearRange cos a b (E + M / 2 ^ 54) r := by
  have hM : ∀ y, a ≤ y → y ≤ b → |cos y - g y| ≤ M / 2 ^ 54 := by
    intro y h1 h2
    refine (g_near y).trans ?_
    gcongr
    rw [abs_le] at ha hb ⊢
    constructor <;> linarith
  obtain ⟨h1, ⟨y, y1, y2, y3⟩, z, z1, z2, z3⟩ := h
  refine ⟨fun y a1 a2 => ?_, ⟨y, y1, y2, ?_⟩, z, z1, z2, ?_⟩
  · have h3 := abs_le.1 (hM y a1 a2)
    have h4 := h1 y a1 a2
    constructor <;> linarith
  · have h3 := abs_le.1 (hM y y1 y2)
    rw [abs_le] at y3 ⊢
    constructor <;> linarith
  · have h3 := abs_le.1 (hM z z1 z2)
    rw [abs_le] at z3 ⊢
    constructor <;> linarith

theorem g_bounds (y : ℝ) : -1 ≤ g y ∧ g y ≤ 1 := ⟨neg_one_le_cos _, cos_le_one _⟩

/-- A value of `g` near a point of the interval where it is `-1` or `1`. -/
theorem g_close {y z v : ℝ} (h : g z = v) (hd : |y - z| ≤ 1 / 2 ^ 50) : |g y - v| ≤ 1 / 2 ^ 49 := by
  rw [← h]
  refine (g_lip y z).trans ?_
  norm_num at hd ⊢
  linarith

/-- An interval not shorter than a turn, up to 2^-51. -/
theorem range_full {a b E : ℝ} (hE : 1 / 2 ^ 49 ≤ E) (h : tt - 1 / 2 ^ 51 ≤ b - a) : NearRange g a b E (-1, 1) := by
  have ht : (6 : ℝ) < tt ∧ tt < 7 := by norm_num
  have pick : ∀ (c v : ℝ), (∀ n : ℤ, g (c + n * tt) = v) → ∃ y, a ≤ y ∧ y ≤ b ∧ |g y - v| ≤ E := by
    intro c v hv
    -- the first point of the class not before `a`
    obtain ⟨n, hn⟩ : ∃ n : ℤ, n = ⌈(a - c) / tt⌉ := ⟨_, rfl⟩
    have h1 : a ≤ c + n * tt := by
      have := Int.le_ceil ((a - c) / tt)
      rw [← hn, div_le_iff₀ (by linarith)] at this
      linarith
    have h2 : c + n * tt < a + tt := by
      have := Int.ceil_lt_add_one ((a - c) / tt)
      rw [← hn, ← sub_lt_iff_lt_add, lt_div_iff₀ (by linarith)] at this
      linarith
    have h6 : a ≤ b := by norm_num at h ht; linarith
    refine ⟨min (c + n * tt) b, le_min h1 h6, min_le_right _ _, le_trans (g_close (hv n) ?_) hE⟩
    rcases le_total (c + n * tt) b with h3 | h3
    · rw [min_eq_left h3, sub_self, abs_zero]
      positivity
    · rw [min_eq_right h3, abs_of_nonpos (by linarith)]
      norm_num at h h2 ⊢
      linarith
  refine ⟨fun y _ _ => ⟨?_, ?_⟩, ?_, ?_⟩
  · have := (g_bounds y).1
    have : 0 ≤ E := le_trans (by norm_num) hE
    show -1 - E ≤ _
    linarith
  · have := (g_bounds y).2
    have : 0 ≤ E := le_trans (by norm_num) hE
    show _ ≤ 1 + E
    linarith
  · exact pick (tt / 2) (-1) g_half
  · refine pick 0 1 fun n => ?_
    rw [zero_add, g_zero]

/-- What the comparisons of the reduced arguments say about the exact ones. -/
theorem range_part {s t p q cp cq E E0 : ℝ} {j : ℤ} (hs : 0 ≤ s) (hs' : s < tt) (ht : 0 ≤ t) (ht' : t < tt) (hab : s ≤ t + j * tt) (hlen : t + j * tt - s < tt)
    (hp : |p - s| ≤ 1 / 2 ^ 51) (hq : |q - t| ≤ 1 / 2 ^ 51) (m1 : s ≤ t → p ≤ q) (m2 : t ≤ s → q ≤ p) (hp1 : p < tt / 2 → s < tt / 2) (hp2 : tt / 2 < p → tt / 2 < s)
    (hq1 : q < tt / 2 → t < tt / 2) (hq2 : tt / 2 < q → tt / 2 < t) (hne : j = 1 → p ≠ q) (hcp : |cp - g s| ≤ E0) (hcq : |cq - g t| ≤ E0) (hE'' : E0 + 1 / 2 ^ 49 ≤ E) :
    NearRange g s (t + j * tt) E
      (if q < p then (if q < tt / 2 ∧ tt / 2 < p then min cp cq else -1, 1) else (if p < tt / 2 ∧ tt / 2 < q then -1 else min cp cq, max cp cq)) := by
  have htt : (6 : ℝ) < tt ∧ tt < 7 := by norm_num
  have hE00 : 0 ≤ E0 := le_trans (abs_nonneg _) hcp
  have hE : E0 ≤ E := by norm_num at hE''; linarith
  have hE' : 1 / 2 ^ 49 ≤ E := by linarith
  have hE0 : 0 ≤ E := le_trans (by norm_num) hE'
  have hj : j = 0 ∨ j = 1 := by
    have l1 : (-1 : ℝ) < j := by by_contra hc; rw [not_lt] at hc; nlinarith
    have l2 : (j : ℝ) < 2 := by by_contra hc; rw [not_lt] at hc; nlinarith
    have l1' : (-1 : ℤ) < j := by exact_mod_cast l1
    have l2' : j < (2 : ℤ) := by exact_mod_cast l2
    omega
  have gt : g (t + j * tt) = g t := g_period t j
  have hcp' := abs_le.1 hcp
  have hcq' := abs_le.1 hcq
  have ps := abs_le.1 hp
  have qt := abs_le.1 hq
  -- an end of the interval with the least or the greatest of the two values
  have hmin : ∃ y, s ≤ y ∧ y ≤ t + j * tt ∧ |g y - min cp cq| ≤ E := by
    rcases min_choice cp cq with h | h <;> rw [h]
    · exact ⟨s, le_rfl, hab, by rw [abs_sub_comm]; linarith⟩
    · exact ⟨t + j * tt, hab, le_rfl, by rw [gt, abs_sub_comm]; linarith⟩
  have hmax : ∃ y, s ≤ y ∧ y ≤ t + j * tt ∧ |g y - max cp cq| ≤ E := by
    rcases max_choice cp cq with h | h <;> rw [h]
    · exact ⟨s, le_rfl, hab, by rw [abs_sub_comm]; linarith⟩
    · exact ⟨t + j * tt, hab, le_rfl, by rw [gt, abs_sub_comm]; linarith⟩
  have lmin : min cp cq - E ≤ min (g s) (g t) := by
    rw [le_min_iff]
    constructor
    · linarith [min_le_left cp cq]
    · linarith [min_le_right cp cq]
  have lmax : max (g s) (g t) ≤ max cp cq + E := by
    rw [max_le_iff]
    constructor
    · linarith [le_max_left cp cq]
    · linarith [le_max_right cp cq]
  have low : ∀ y, -1 - E ≤ g y := fun y => by linarith [(g_bounds y).1]
  have upp : ∀ y, g y ≤ 1 + E := fun y => by linarith [(g_bounds y).2]
  rcases hj with rfl | rfl
  · have e : t + ((0 : ℤ) : ℝ) * tt = t := by simp
    rw [e] at hab hlen gt hmin hmax ⊢
    rw [if_neg (not_lt.2 (m1 hab))]
    have ub : ∀ y, s ≤ y → y ≤ t → g y ≤ max cp cq + E := fun y h1 h2 => (g_le_max hs ht'.le h1 h2).trans lmax
    split_ifs with hc
    · have h1 := hp1 hc.1
      have h2 := hq2 hc.2
      refine ⟨fun y a1 a2 => ⟨low y, ub y a1 a2⟩, ⟨tt / 2, h1.le, h2.le, ?_⟩, hmax⟩
      have := g_half 0
      simp only [Int.cast_zero, zero_mul, add_zero] at this
      rw [this, sub_self, abs_zero]
      exact hE0
    · refine ⟨fun y a1 a2 => ⟨?_, ub y a1 a2⟩, hmin, hmax⟩
      show min cp cq - E ≤ g y
      rcases le_or_gt (tt / 2) s with h1 | h1
      · exact lmin.trans (min_le_g h1 (by linarith) a1 a2)
      · rcases le_or_gt t (tt / 2) with h2 | h2
        · exact lmin.trans (min_le_g' hs h2 a1 a2)
        · -- the middle is inside, but an end is rounded to it
          have h3 : tt / 2 ≤ p ∨ q ≤ tt / 2 := by
            by_contra hcon
            rw [not_or, not_le, not_le] at hcon
            exact hc hcon
          have h4 := g_half 0
          simp only [Int.cast_zero, zero_mul, add_zero] at h4
          have h5 : min cp cq - E ≤ -1 := by
            rcases h3 with h3 | h3
            · have h6 : p = tt / 2 := by
                rcases eq_or_lt_of_le h3 with h | h
                · exact h.symm
                · exact absurd (hp2 h) (not_lt.2 h1.le)
              have h7 := abs_le.1 (g_close (y := s) h4 (by rw [← h6, abs_sub_comm]; norm_num at hp ⊢; linarith))
              linarith [min_le_left cp cq]
            · have h6 : q = tt / 2 := by
                rcases eq_or_lt_of_le h3 with h | h
                · exact h
                · exact absurd (hq1 h) (not_lt.2 h2.le)
              have h7 := abs_le.1 (g_close (y := t) h4 (by rw [← h6, abs_sub_comm]; norm_num at hq ⊢; linarith))
              linarith [min_le_right cp cq]
          linarith [(g_bounds y).1]
  · have e : t + ((1 : ℤ) : ℝ) * tt = t + tt := by simp
    rw [e] at hab hlen gt hmin hmax ⊢
    have hst : t < s := by linarith
    rw [if_pos (lt_of_le_of_ne (m2 hst.le) (fun h => hne rfl h.symm))]
    have h1 : ∃ y, s ≤ y ∧ y ≤ t + tt ∧ |g y - 1| ≤ E := by
      refine ⟨tt, hs'.le, by linarith, ?_⟩
      have := g_zero 1
      simp only [Int.cast_one, one_mul] at this
      rw [this, sub_self, abs_zero]
      exact hE0
    split_ifs with hc
    · have h2 := hq1 hc.1
      have h3 := hp2 hc.2
      refine ⟨fun y a1 a2 => ⟨?_, upp y⟩, hmin, h1⟩
      have := min_le_g h3.le (v := t + tt) (by linarith) a1 a2
      rw [gt] at this
      exact lmin.trans this
    · refine ⟨fun y _ _ => ⟨low y, upp y⟩, ?_, h1⟩
      have h4 := g_half 0
      simp only [Int.cast_zero, zero_mul, add_zero] at h4
      have h5 := g_half 1
      simp only [Int.cast_one, one_mul] at h5
      have h3 : tt / 2 ≤ q ∨ p ≤ tt / 2 := by
        by_contra hcon
        rw [not_or, not_le, not_le] at hcon
        exact hc hcon
      rcases h3 with h3 | h3
      · -- the second end is not before the middle of the second turn
        rcases le_total (tt / 2 + tt) (t + tt) with h6 | h6
        · refine ⟨tt / 2 + tt, by linarith, h6, ?_⟩
          rw [h5, sub_self, abs_zero]
          exact hE0
        · refine ⟨t + tt, by linarith, le_rfl, (g_close h5 ?_).trans hE'⟩
          rw [abs_of_nonpos (by linarith)]
          norm_num at qt ⊢
          linarith
      · rcases le_total s (tt / 2) with h6 | h6
        · refine ⟨tt / 2, h6, by linarith, ?_⟩
          rw [h4, sub_self, abs_zero]
          exact hE0
        · refine ⟨s, le_rfl, by linarith, (g_close h4 ?_).trans hE'⟩
          rw [abs_of_nonneg (by linarith)]
          norm_num at ps ⊢
          linarith

/-- The reduced arguments of an interval shorter than a turn that contains a multiple of the turn are not equal. -/
theorem no_tie {a b : Dbl} {s t : ℝ} {n m : ℤ} (ea : a.val = s + n * tt) (eb : b.val = t + m * tt) (hj : m = n + 1) (hs0 : 0 ≤ s) (hs : s < tt)
    (hp : (normMod a).Is s) (hp' : 0 ≤ a.val → (normMod a).val = s) (hq : (normMod b).Is t) (hq' : 0 ≤ b.val → (normMod b).val = t) (ht0 : 0 ≤ t) (ht : t < tt) (hst : t < s)
    (hba : (b - a).Is (b.val - a.val)) (hlen : (b - a).val < tt) : (normMod a).val ≠ (normMod b).val := by
  intro hpq
  have htt : (6 : ℝ) < tt ∧ tt < 7 := by norm_num
  have pe := abs_le.1 (is_err hp hs0 (by linarith))
  have qe := abs_le.1 (is_err hq ht0 (by linarith))
  have hd : b.val - a.val = tt - (s - t) := by rw [ea, eb, hj]; push_cast; ring
  suffices h : s - t ≤ 1 / 2 ^ 51 by
    have := turn_tie hba (by rw [hd]; linarith)
    linarith
  rcases le_or_gt 0 b.val with hb0 | hb0
  · have := hq' hb0
    linarith
  · have ha4 : 4 ≤ |a.val| := by
      rw [abs_of_neg (by linarith)]
      have : s - t ≤ 1 / 2 ^ 50 := by
        norm_num at pe qe ⊢
        linarith
      norm_num at this
      linarith
    obtain ⟨k, hk⟩ := big_multiple a ha4
    have hex : (normMod a).val = s := is_exact hp hs0 (by linarith) (k - n * 7074237752028440) (by
      have : s = a.val - n * tt := by linarith
      rw [this, hk]
      push_cast
      norm_num
      ring)
    linarith

/-- `cos` of the C library has the error `δ` on the reduced arguments. -/
def CosErr (c : Dbl → Dbl) (δ : ℝ) : Prop := ∀ x : Dbl, x.Fin → 0 ≤ x.val → x.val ≤ tt → (c x).Fin ∧ |(c x).val - cos x.val| ≤ δ

theorem minD_val {a b : Dbl} (ha : a.Fin) (hb : b.Fin) : (minD a b).Fin ∧ (minD a b).val = min a.val b.val := by
  unfold minD
  split <;> rename_i h <;> rw [lt_iff hb ha] at h
  · exact ⟨hb, (min_eq_right h.le).symm⟩
  · exact ⟨ha, (min_eq_left (not_lt.1 h)).symm⟩

theorem maxD_val {a b : Dbl} (ha : a.Fin) (hb : b.Fin) : (maxD a b).Fin ∧ (maxD a b).val = max a.val b.val := by
  unfold maxD
  split <;> rename_i h <;> rw [lt_iff ha hb] at h
  · exact ⟨hb, (max_eq_right h.le).symm⟩
  · exact ⟨ha, (max_eq_left (not_lt.1 h)).symm⟩

/-- The values of a pair. -/
noncomputable def vals (r : Dbl × Dbl) : ℝ × ℝ := (r.1.val, r.2.val)

theorem ord_range {c : Dbl → Dbl} {δ : ℝ} (hc : CosErr c δ) {a b : Dbl} (ha : a.Fin) (hb : b.Fin) (hab : a.val ≤ b.val) (hov : |b.val - a.val| ≤ 2 ^ top Format.binary64) :
    ((findLUCosOrd c a b).1.Fin ∧ (findLUCosOrd c a b).2.Fin) ∧ NearRange g a.val b.val (δ + 1 / 2 ^ 48) (vals (findLUCosOrd c a b)) := by
  have htt : (6 : ℝ) < tt ∧ tt < 7 := by norm_num
  have hδ : 0 ≤ δ := le_trans (abs_nonneg _) (hc (d 0 1) zero_lit.1 (by rw [zero_lit.2]) (by rw [zero_lit.2]; linarith)).2
  have hba := sub_is hb ha hov
  have m1f : (-d 10 1 : Dbl).Fin := neg_fin.2 one_is.1
  have m1v : (-d 10 1 : Dbl).val = -1 := by rw [neg_val, one_is.2]
  obtain ⟨hT, hTv⟩ := turn_is
  unfold findLUCosOrd
  by_cases hw : turn ≤ b - a
  · rw [if_pos hw]
    rw [le_iff hT hba.1, hTv] at hw
    refine ⟨⟨m1f, one_is.1⟩, ?_⟩
    unfold vals
    dsimp only
    rw [m1v, one_is.2]
    apply range_full (by norm_num; linarith)
    -- the difference is at most half a unit below the turn
    by_contra hcon
    rw [not_le] at hcon
    have hg : Grid .binary64 (tt - 1 / 2 ^ 50) := by
      refine ⟨7074237752028440 - 1, -50, ?_, by decide, ?_⟩
      · rw [mb53]; norm_num [abs_of_nonneg]
      · push_cast; norm_num
    rcases le_or_gt (b.val - a.val) (tt - 1 / 2 ^ 50) with h | h
    · have := hba.2.mono_le hg h
      change (b - a).val ≤ _ at this
      norm_num at this hw
      linarith
    · have h3 := hba.2.nearest Fmt.good hg
      change |(b - a).val - _| ≤ _ at h3
      have h51 : (0 : ℝ) < 1 / 2 ^ 51 := by norm_num
      obtain ⟨w, hw'⟩ : ∃ w, w = (b - a).val := ⟨_, rfl⟩
      have hw : tt ≤ w := by rw [hw']; exact hw
      change |(b - a).val - _| ≤ _ at h3
      rw [← hw'] at h3
      rw [abs_of_nonneg (show 0 ≤ w - (b.val - a.val) by norm_num at hw hcon ⊢; linarith), abs_of_nonpos (by linarith)] at h3
      norm_num at h3 hcon hw
      linarith
  · rw [if_neg hw]
    rw [le_iff hT hba.1, hTv, not_le] at hw
    obtain ⟨s, n, ea, s0, s1, hp, hp'⟩ := normMod_is ha
    obtain ⟨t, m, eb, t0, t1, hq, hq'⟩ := normMod_is hb
    have hlen : b.val - a.val < tt := by
      by_contra hcon
      have := hba.2.mono_ge (z := tt) (by rw [← hTv]; exact turn.grid) (not_lt.1 hcon)
      change tt ≤ (b - a).val at this
      linarith
    have pe := is_err hp s0 (by linarith)
    have qe := is_err hq t0 (by linarith)
    have gpi : Grid .binary64 (tt / 2) := by rw [← mpi_half]; exact mPi.grid
    have gtt : Grid .binary64 tt := by rw [← hTv]; exact turn.grid
    have p0 : 0 ≤ (normMod a).val := hp.2.mono_ge grid_zero s0
    have q0 : 0 ≤ (normMod b).val := hq.2.mono_ge grid_zero t0
    have p1 : (normMod a).val ≤ tt := hp.2.mono_le gtt s1.le
    have q1 : (normMod b).val ≤ tt := hq.2.mono_le gtt t1.le
    obtain ⟨cpf, cpe⟩ := hc _ hp.1 p0 p1
    obtain ⟨cqf, cqe⟩ := hc _ hq.1 q0 q1
    have hne : m - n = 1 → (normMod a).val ≠ (normMod b).val := fun hj =>
      no_tie ea eb (by omega) s0 s1 hp hp' hq hq' t0 t1 (by
        have hj' : (m : ℝ) = n + 1 := by
          have : m = n + 1 := by omega
          exact_mod_cast this
        rw [ea, eb, hj'] at hlen
        linarith) hba hw
    have near : ∀ {x : Dbl} {s : ℝ}, |x.val - s| ≤ 1 / 2 ^ 51 → 0 ≤ x.val → x.val ≤ tt → |(c x).val - cos x.val| ≤ δ → |(c x).val - g s| ≤ δ + 1 / 2 ^ 49 := by
      intro x s h1 h2 h3 h4
      have e1 := g_near x.val
      have e2 := g_lip x.val s
      rw [abs_of_nonneg h2] at e1
      rw [abs_le] at e1 e2 h4 ⊢
      norm_num at e1 e2 h1 h3 ⊢
      constructor <;> linarith
    have key := range_part (j := m - n) (E := δ + 1 / 2 ^ 48) s0 s1 t0 t1 (by push_cast; rw [ea, eb] at hab; linarith) (by push_cast; rw [ea, eb] at hlen; linarith) pe qe
      (hp.mono hq) (hq.mono hp) (fun h => by
        by_contra hcon
        have := hp.2.mono_ge gpi (not_lt.1 hcon)
        change _ ≤ (normMod a).val at this
        linarith) (fun h => by
        by_contra hcon
        have := hp.2.mono_le gpi (not_lt.1 hcon)
        change (normMod a).val ≤ _ at this
        linarith) (fun h => by
        by_contra hcon
        have := hq.2.mono_ge gpi (not_lt.1 hcon)
        change _ ≤ (normMod b).val at this
        linarith) (fun h => by
        by_contra hcon
        have := hq.2.mono_le gpi (not_lt.1 hcon)
        change (normMod b).val ≤ _ at this
        linarith) hne (near pe p0 p1 cpe) (near qe q0 q1 cqe) (by norm_num; linarith)
    have e : b.val - n * tt = t + ((m - n : ℤ) : ℝ) * tt := by rw [eb]; push_cast; ring
    have e' : a.val - n * tt = s := by rw [ea]; ring
    have mn := minD_val cpf cqf
    have mx := maxD_val cpf cqf
    have c1 : normMod b < normMod a ↔ (normMod b).val < (normMod a).val := lt_iff hq.1 hp.1
    have c2 : (normMod b < mPi ∧ mPi < normMod a) ↔ (normMod b).val < tt / 2 ∧ tt / 2 < (normMod a).val := by
      rw [lt_iff hq.1 mPi_fin, lt_iff mPi_fin hp.1, mpi_half]
    have c3 : (normMod a < mPi ∧ mPi < normMod b) ↔ (normMod a).val < tt / 2 ∧ tt / 2 < (normMod b).val := by
      rw [lt_iff hp.1 mPi_fin, lt_iff mPi_fin hq.1, mpi_half]
    dsimp only
    constructor
    · split_ifs
      · exact ⟨mn.1, one_is.1⟩
      · exact ⟨m1f, one_is.1⟩
      · exact ⟨m1f, mx.1⟩
      · exact ⟨mn.1, mx.1⟩
    · apply NearRange.shift n
      rw [e, e']
      simp only [c1, c2, c3]
      split_ifs at key ⊢ <;> simp only [vals, mn.2, mx.2, m1v, one_is.2] <;> exact key

/-- The full statement, weakly: for all finite arguments, and a function `cos` with the error 1/4, the range up to 1/2. -/
def C106_statement : Prop := ∀ (c : Dbl → Dbl) (a b : Dbl), CosErr c (1 / 4) → a.Fin → b.Fin → NearRange cos (min a.val b.val) (max a.val b.val) (1 / 2) (vals (findLUCos c a b))

/-- C106, partial: for finite arguments up to `M`, in whatever order, and a function `cos` with the error `δ`, the results are finite and the range of the cosine up to
`δ + 2^-48 + M / 2^54`: no value is outside by more, and both ends are approached by a value. Missing: larger differences, which overflow, and the exact range. -/
theorem C106_range_partial {c : Dbl → Dbl} {δ M : ℝ} (hc : CosErr c δ) {a b : Dbl} (ha : a.Fin) (hb : b.Fin) (hM : M ≤ 2 ^ (1022 : ℤ)) (ba : |a.val| ≤ M) (bb : |b.val| ≤ M) :
    ((findLUCos c a b).1.Fin ∧ (findLUCos c a b).2.Fin) ∧ NearRange cos (min a.val b.val) (max a.val b.val) (δ + 1 / 2 ^ 48 + M / 2 ^ 54) (vals (findLUCos c a b)) := by
  have htop : (2 : ℝ) ^ top Format.binary64 = 2 ^ (1022 : ℤ) * 2 := by rw [top1023, show (1023 : ℤ) = 1022 + 1 by norm_num, two_pow_add, zpow_one]
  have hov : ∀ x y : ℝ, |x| ≤ M → |y| ≤ M → |x - y| ≤ 2 ^ top Format.binary64 := by
    intro x y h1 h2
    rw [htop]
    have := abs_sub x y
    linarith
  unfold findLUCos
  by_cases h : b < a
  · rw [if_pos h]
    rw [lt_iff hb ha] at h
    rw [min_eq_right h.le, max_eq_left h.le]
    obtain ⟨h1, h2⟩ := ord_range hc hb ha h.le (hov _ _ ba bb)
    exact ⟨h1, h2.toCos bb ba⟩
  · rw [if_neg h]
    rw [lt_iff hb ha, not_lt] at h
    rw [min_eq_left h, max_eq_right h]
    obtain ⟨h1, h2⟩ := ord_range hc ha hb h (hov _ _ bb ba)
    exact ⟨h1, h2.toCos ba bb⟩

/-- A multiple of the turn: 2^53 times `2.0 * M_PI`. -/
def wturn : Dbl := turn * d 9007199254740992 0

theorem wturn_is : wturn.Fin ∧ wturn.val = 2 ^ 53 * tt ∧ normMod wturn = d 0 1 := by
  have h1 : wturn.x = .finite .positive 7074237752028440 3 (by decide) := by decide +kernel
  refine ⟨?_, ?_, by decide +kernel⟩
  · unfold Fp.Fin
    rw [h1]
    trivial
  · unfold Fp.val
    rw [h1]
    simp only [Ieee.val, sgn]
    norm_num

theorem half_is : (d 5 1).Fin ∧ (d 5 1).val = 1 / 2 := by
  have h1 : (d 5 1).x = .finite .positive (2 ^ 52) (-53) (by decide) := by decide +kernel
  unfold Fp.Fin Fp.val
  rw [h1]
  refine ⟨trivial, ?_⟩
  simp only [Ieee.val, sgn]
  norm_num

/-- A function with the error 1/4: the nearest multiple of 1/2. -/
noncomputable def roughCos (x : Dbl) : Dbl :=
  if 3 / 4 ≤ cos x.val then d 10 1 else if 1 / 4 ≤ cos x.val then d 5 1 else if -1 / 4 ≤ cos x.val then d 0 1 else if -3 / 4 ≤ cos x.val then -d 5 1 else -d 10 1

theorem roughCos_err : CosErr roughCos (1 / 4) := by
  intro x _ _ _
  have h1 := neg_one_le_cos x.val
  have h2 := cos_le_one x.val
  unfold roughCos
  split_ifs
  · refine ⟨one_is.1, ?_⟩
    rw [one_is.2, abs_le]
    constructor <;> linarith
  · refine ⟨half_is.1, ?_⟩
    rw [half_is.2, abs_le]
    constructor <;> linarith
  · refine ⟨zero_lit.1, ?_⟩
    rw [zero_lit.2, abs_le]
    constructor <;> linarith
  · refine ⟨neg_fin.2 half_is.1, ?_⟩
    rw [neg_val, half_is.2, abs_le]
    constructor <;> linarith
  · refine ⟨neg_fin.2 one_is.1, ?_⟩
    rw [neg_val, one_is.2, abs_le]
    constructor <;> linarith

/-- C106 fails for large arguments: at 2^53 turns `2.0 * M_PI` the cosine is negative, but the least and greatest value are 1, up to the error of `cos`, whatever it is. -/
theorem C106_violated : (∀ (c : Dbl → Dbl) (δ : ℝ), CosErr c δ → cos wturn.val < 0 ∧ 1 - δ ≤ (findLUCos c wturn wturn).1.val ∧ 1 - δ ≤ (findLUCos c wturn wturn).2.val) ∧
    ¬ C106_statement := by
  obtain ⟨w1, w2, w3⟩ := wturn_is
  have hcos : cos wturn.val < 0 := by
    have h1 := pi_gt_d20
    have h2 := pi_lt_d20
    have e : wturn.val = -(2 ^ 53 * (2 * π - tt)) + ((2 ^ 53 : ℤ) : ℝ) * (2 * π) := by
      rw [w2]
      push_cast
      ring
    rw [e, cos_add_int_mul_two_pi, cos_neg]
    apply cos_neg_of_pi_div_two_lt_of_lt
    · norm_num at h1 h2 ⊢
      linarith
    · norm_num at h1 h2 ⊢
      linarith
  have hmain : ∀ (c : Dbl → Dbl) (δ : ℝ), CosErr c δ → 1 - δ ≤ (findLUCos c wturn wturn).1.val ∧ 1 - δ ≤ (findLUCos c wturn wturn).2.val := by
    intro c δ hc
    obtain ⟨c1, c2⟩ := hc (d 0 1) zero_lit.1 (by rw [zero_lit.2]) (by rw [zero_lit.2]; norm_num)
    rw [zero_lit.2, cos_zero, abs_le] at c2
    have e : findLUCos c wturn wturn = (minD (c (d 0 1)) (c (d 0 1)), maxD (c (d 0 1)) (c (d 0 1))) := by
      unfold findLUCos findLUCosOrd
      rw [if_neg (by decide +kernel), if_neg (by decide +kernel), w3]
      dsimp only
      rw [if_neg (by decide +kernel), if_neg (by decide +kernel)]
    rw [e]
    dsimp only
    rw [(minD_val c1 c1).2, (maxD_val c1 c1).2, min_self, max_self]
    constructor <;> linarith
  refine ⟨fun c δ hc => ⟨hcos, hmain c δ hc⟩, fun hs => ?_⟩
  obtain ⟨-, ⟨y, y1, y2, y3⟩, -⟩ := hs roughCos wturn wturn roughCos_err w1 w1
  have e : y = wturn.val := le_antisymm (y2.trans (by simp)) (le_trans (by simp) y1)
  have := (hmain roughCos _ roughCos_err).1
  rw [e] at y3
  have h := (abs_le.1 y3).1
  change -(1 / 2) ≤ cos wturn.val - (findLUCos roughCos wturn wturn).1.val at h
  linarith

-- from 1 to 4, passing by π; from 5 to 7, passing by 2π; from 1 to 8: a whole turn
example : findLUCos (fun x => x) (d 40 1) (d 10 1) = (-d 10 1, d 40 1) ∧ findLUCos (fun x => x) (d 50 1) (d 70 1) = (d 70 1 - turn, d 10 1) ∧
    findLUCos (fun x => x) (d 10 1) (d 80 1) = (-d 10 1, d 10 1) := by
  decide +kernel

end Verif.FunctionsFp
