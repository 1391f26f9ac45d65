import Verif.Functions.Spec
import Verif.Functions.Pnebi
import Mathlib.Analysis.Real.Pi.Bounds
import Mathlib.Data.Sign.Basic

/-! Property theorem C55 (see properties.jsonl). -/
namespace Verif.Functions
open Real Spec

/-- The approximation of sin(2πp) for |p| ≤ 1/2. -/
noncomputable def shape (p : ℝ) : ℝ := p * (16 * (1 / 2 - |p|)) + 225 / 1000 * (p * (16 * (1 / 2 - |p|))) * (|p * (16 * (1 / 2 - |p|))| - 1)

theorem fabs_abs (x : ℝ) : fabs x = |x| := by
  unfold fabs
  split
  · rename_i h; rw [abs_of_neg h]
  · rename_i h; rw [abs_of_nonneg (not_lt.1 h)]

theorem shape_neg (p : ℝ) : shape (-p) = -shape p := by
  unfold shape
  rw [abs_neg, show -p * (16 * (1 / 2 - |p|)) = -(p * (16 * (1 / 2 - |p|))) by ring, abs_neg]
  ring

theorem shape_half : shape (1 / 2) = 0 ∧ shape (-(1 / 2)) = 0 := by
  have h : shape (1 / 2) = 0 := by unfold shape; rw [abs_of_nonneg (by norm_num : (0 : ℝ) ≤ 1 / 2)]; norm_num
  exact ⟨h, by rw [shape_neg, h, neg_zero]⟩

/-- The approximation of sin(2πu). -/
noncomputable def wave (u : ℝ) : ℝ := shape (u - ⌊u + 1 / 2⌋)

theorem wave_eq {u v : ℝ} (m : ℤ) (h : u = v + m) (hv : |v| ≤ 1 / 2) : wave u = shape v := by
  obtain ⟨h1, h2⟩ := abs_le.1 hv
  unfold wave
  rcases lt_or_eq_of_le h2 with h2 | h2
  · have : ⌊u + 1 / 2⌋ = m := by rw [Int.floor_eq_iff, h]; constructor <;> linarith
    rw [this, h, add_sub_cancel_right]
  · have : ⌊u + 1 / 2⌋ = m + 1 := by rw [Int.floor_eq_iff, h]; push_cast; constructor <;> linarith
    rw [this, h, h2]
    push_cast
    rw [show (1 / 2 + (m : ℝ) - (m + 1)) = -(1 / 2) by ring, shape_half.1, shape_half.2]

theorem wave_rep (u : ℝ) : ∃ (v : ℝ) (m : ℤ), u = v + m ∧ -(1 / 2) ≤ v ∧ v < 1 / 2 := by
  refine ⟨u - ⌊u + 1 / 2⌋, ⌊u + 1 / 2⌋, by ring, ?_, ?_⟩
  · have := Int.floor_le (u + 1 / 2); linarith
  · have := Int.lt_floor_add_one (u + 1 / 2); linarith

theorem wave_neg (u : ℝ) : wave (-u) = -wave u := by
  obtain ⟨v, m, h, h1, h2⟩ := wave_rep u
  have hv : |v| ≤ 1 / 2 := abs_le.2 ⟨h1, h2.le⟩
  rw [wave_eq m h hv, ← shape_neg]
  exact wave_eq (-m) (by rw [h]; push_cast; ring) (by rwa [abs_neg])

theorem wave_add_one (u : ℝ) : wave (u + 1) = wave u := by
  obtain ⟨v, m, h, h1, h2⟩ := wave_rep u
  have hv : |v| ≤ 1 / 2 := abs_le.2 ⟨h1, h2.le⟩
  rw [wave_eq m h hv]
  exact wave_eq (m + 1) (by rw [h]; push_cast; ring) hv

theorem shape_add {p : ℝ} (h1 : -(1 / 2) ≤ p) (h2 : p ≤ 0) : shape (p + 1 / 2) = -shape p := by
  unfold shape
  rw [abs_of_nonneg (by linarith : 0 ≤ p + 1 / 2), abs_of_nonpos h2]
  rw [show (p + 1 / 2) * (16 * (1 / 2 - (p + 1 / 2))) = -(p * (16 * (1 / 2 - -p))) by ring, abs_neg]
  ring

theorem wave_add_half (u : ℝ) : wave (u + 1 / 2) = -wave u := by
  obtain ⟨v, m, h, h1, h2⟩ := wave_rep u
  have hv : |v| ≤ 1 / 2 := abs_le.2 ⟨h1, h2.le⟩
  rw [wave_eq m h hv]
  rcases le_total v 0 with h0 | h0
  · rw [← shape_add h1 h0]
    exact wave_eq m (by rw [h]; ring) (abs_le.2 ⟨by linarith, by linarith⟩)
  · rw [wave_eq (v := v - 1 / 2) (m + 1) (by rw [h]; push_cast; ring) (abs_le.2 ⟨by linarith, by linarith⟩)]
    have := shape_add (p := v - 1 / 2) (by linarith) (by linarith)
    rw [sub_add_cancel] at this
    rw [this, neg_neg]

/-- The two results in terms of the wave. -/
theorem fastCosSin_eq (x : ℝ) : fastCosSin real x = (wave (x / (2 * π) + 1 / 4), wave (x / (2 * π))) := by
  unfold fastCosSin
  simp only [fabs_abs]
  rw [show real.pi = π from rfl, mul_one_div]
  generalize x / (2 * π) = u
  refine Prod.ext ?_ rfl
  dsimp only
  have e : wave (u + 1 / 4) = -shape (u - (1 / 4 + ⌊u + 1 / 4⌋)) := by
    have h := wave_add_half (u - 1 / 4)
    rw [show u - 1 / 4 + 1 / 2 = u + 1 / 4 by ring] at h
    rw [h]
    unfold wave
    rw [show u - 1 / 4 + 1 / 2 = u + 1 / 4 by ring, show u - 1 / 4 - (⌊u + 1 / 4⌋ : ℝ) = u - (1 / 4 + ⌊u + 1 / 4⌋) by ring]
  rw [e]
  unfold shape
  generalize u - (1 / 4 + ⌊u + 1 / 4⌋) = c
  rw [show c * (16 * (|c| - 1 / 2)) = -(c * (16 * (1 / 2 - |c|))) by ring, abs_neg]
  ring

theorem shape_nonneg {p : ℝ} (h0 : 0 ≤ p) (h1 : p ≤ 1 / 2) : 0 ≤ shape p ∧ shape p ≤ 1 ∧ (0 < p → p < 1 / 2 → 0 < shape p) := by
  have hy0 : 0 ≤ p * (16 * (1 / 2 - |p|)) := by rw [abs_of_nonneg h0]; nlinarith
  have hy1 : p * (16 * (1 / 2 - |p|)) ≤ 1 := by rw [abs_of_nonneg h0]; nlinarith [sq_nonneg (p - 1 / 4)]
  have hy2 : 0 < p → p < 1 / 2 → 0 < p * (16 * (1 / 2 - |p|)) := by
    intro a b
    rw [abs_of_nonneg h0]
    exact mul_pos a (by linarith)
  unfold shape
  generalize p * (16 * (1 / 2 - |p|)) = y at *
  rw [abs_of_nonneg hy0]
  refine ⟨by nlinarith, by nlinarith, fun a b => ?_⟩
  have := hy2 a b
  nlinarith

theorem sin_rep {u v : ℝ} {m : ℤ} (h : u = v + m) : sin (2 * π * u) = sin (2 * π * v) := by
  rw [h, show 2 * π * (v + m) = 2 * π * v + m * (2 * π) by ring, sin_add_int_mul_two_pi]

theorem wave_sign (u : ℝ) : SignType.sign (wave u) = SignType.sign (sin (2 * π * u)) ∧ |wave u| ≤ 1 := by
  obtain ⟨v, m, h, h1, h2⟩ := wave_rep u
  have hv : |v| ≤ 1 / 2 := abs_le.2 ⟨h1, h2.le⟩
  have hp := pi_pos
  rw [wave_eq m h hv, sin_rep h]
  rcases lt_trichotomy v 0 with h0 | h0 | h0
  · have e : shape v = -shape (-v) := by rw [shape_neg, neg_neg]
    obtain ⟨s1, s2, s3⟩ := shape_nonneg (p := -v) (by linarith) (by linarith)
    refine ⟨?_, by rw [e, abs_neg, abs_of_nonneg s1]; exact s2⟩
    rcases lt_or_eq_of_le h1 with h1 | h1
    · have := s3 (by linarith) (by linarith)
      rw [sign_neg (by linarith : shape v < 0), sign_neg]
      exact sin_neg_of_neg_of_neg_pi_lt (by nlinarith) (by nlinarith)
    · rw [← h1, shape_half.2, show 2 * π * -(1 / 2) = -π by ring, sin_neg, sin_pi, neg_zero]
  · rw [h0]
    have e : shape 0 = 0 := by unfold shape; simp
    rw [e, mul_zero, sin_zero]
    simp
  · obtain ⟨s1, s2, s3⟩ := shape_nonneg h0.le h2.le
    refine ⟨?_, by rw [abs_of_nonneg s1]; exact s2⟩
    rw [sign_pos (s3 h0 h2), sign_pos]
    exact sin_pos_of_pos_of_lt_pi (by positivity) (by nlinarith)

/-- C55, cosine and sine: the two results have the signs of the cosine and of the sine, are in [-1, 1], and have their period and
symmetries. -/
theorem C55_cosSin (x : ℝ) :
    SignType.sign (fastCosSin real x).1 = SignType.sign (cos x) ∧ SignType.sign (fastCosSin real x).2 = SignType.sign (sin x) ∧
    |(fastCosSin real x).1| ≤ 1 ∧ |(fastCosSin real x).2| ≤ 1 ∧
    fastCosSin real (x + 2 * π) = fastCosSin real x ∧
    fastCosSin real (-x) = ((fastCosSin real x).1, -(fastCosSin real x).2) ∧
    fastCosSin real (x + π / 2) = (-(fastCosSin real x).2, (fastCosSin real x).1) := by
  have hp : 2 * π ≠ 0 := by have := pi_pos; positivity
  have hx : 2 * π * (x / (2 * π)) = x := mul_div_cancel₀ x hp
  have w1 := wave_sign (x / (2 * π))
  have w2 := wave_sign (x / (2 * π) + 1 / 4)
  rw [hx] at w1
  rw [mul_add, hx, show 2 * π * (1 / 4) = π / 2 by ring, sin_add_pi_div_two] at w2
  simp only [fastCosSin_eq]
  refine ⟨w2.1, w1.1, w2.2, w1.2, ?_, ?_, ?_⟩
  · rw [add_div, div_self hp, wave_add_one, show x / (2 * π) + 1 + 1 / 4 = x / (2 * π) + 1 / 4 + 1 by ring, wave_add_one]
  · rw [neg_div, wave_neg]
    generalize x / (2 * π) = u
    have := wave_add_half (-(u + 1 / 4))
    rw [wave_neg, neg_neg, show -(u + 1 / 4) + 1 / 2 = -u + 1 / 4 by ring] at this
    rw [this]
  · rw [add_div, show π / 2 / (2 * π) = 1 / 4 by field_simp; norm_num]
    generalize x / (2 * π) = u
    rw [show u + 1 / 4 + 1 / 4 = u + 1 / 2 by ring, wave_add_half]

-- with "π = 3": at 1/4 turn (0, 1), at 1/12 turn
example : fastCosSin (⟨3, id, id, id, id, fun _ _ => 0⟩ : Libm ℚ) (3 / 2) = (0, 1) := by decide +kernel
example : (fastCosSin (⟨3, id, id, id, id, fun _ _ => 0⟩ : Libm ℚ) (1 / 2)).2 = 1 / 2 := by decide +kernel

theorem fastAtan_bound {z : ℝ} (h0 : 0 ≤ z) (h1 : z ≤ 1) : 0 ≤ fastAtan z ∧ fastAtan z ≤ 121 / 100 * z ∧ (0 < z → 0 < fastAtan z) := by
  have t0 : 0 ≤ z * z := mul_nonneg h0 h0
  have t1 : z * z ≤ 1 := by nlinarith
  have key : 1 / 2 ≤ 9998660 / 10000000 + z * z * (-3302995 / 10000000 + -851330 / 10000000 * (z * z * (z * z))) +
      z * z * (z * z) * (1801410 / 10000000 + 208351 / 10000000 * (z * z * (z * z))) ∧
      9998660 / 10000000 + z * z * (-3302995 / 10000000 + -851330 / 10000000 * (z * z * (z * z))) +
      z * z * (z * z) * (1801410 / 10000000 + 208351 / 10000000 * (z * z * (z * z))) ≤ 121 / 100 := by
    generalize z * z = t at t0 t1
    have u0 : 0 ≤ t * t := mul_nonneg t0 t0
    have u1 : t * t ≤ 1 := by nlinarith
    have v0 : 0 ≤ t * (t * t) := mul_nonneg t0 u0
    have v1 : t * (t * t) ≤ 1 := by nlinarith
    have w0 : 0 ≤ t * t * (t * t) := mul_nonneg u0 u0
    have w1 : t * t * (t * t) ≤ 1 := by nlinarith
    constructor <;> nlinarith
  unfold fastAtan
  dsimp only
  generalize 9998660 / 10000000 + z * z * (-3302995 / 10000000 + -851330 / 10000000 * (z * z * (z * z))) +
      z * z * (z * z) * (1801410 / 10000000 + 208351 / 10000000 * (z * z * (z * z))) = q at key
  exact ⟨by nlinarith [key.1], by nlinarith [key.2], fun hz => mul_pos hz (by linarith [key.1])⟩

/-- C55, arc tangent: the result is defined for every vector other than zero and is in the quadrant of the vector (x, y). -/
theorem C55_atan2 (x y : ℝ) (h : x ≠ 0 ∨ y ≠ 0) : ∃ th, fastAtan2 real x y = some th ∧
    (0 < y → 0 < th ∧ th < π) ∧ (y < 0 → -π < th ∧ th < 0) ∧ (y = 0 → 0 < x → th = 0) ∧ (y = 0 → x < 0 → th = π) ∧
    (0 < x → |th| < π / 2) ∧ (x = 0 → |th| = π / 2) ∧ (x < 0 → π / 2 < |th|) := by
  have hp : 3 < π := pi_gt_three
  unfold fastAtan2
  simp only [fabs_abs]
  rw [show real.pi = π from rfl]
  -- the angle in the first quadrant
  obtain ⟨t, ht, t0, t1, ty, tx⟩ : ∃ t, t = (if |x| < |y| then π / 2 - fastAtan (if |x| < |y| then |x| / |y| else |y| / |x|) else
      fastAtan (if |x| < |y| then |x| / |y| else |y| / |x|)) ∧ 0 ≤ t ∧ t ≤ π / 2 ∧ (y ≠ 0 ↔ 0 < t) ∧ (x ≠ 0 ↔ t < π / 2) := by
    refine ⟨_, rfl, ?_⟩
    by_cases hi : |x| < |y|
    · simp only [if_pos hi]
      have hy : 0 < |y| := lt_of_le_of_lt (abs_nonneg x) hi
      have z0 : 0 ≤ |x| / |y| := div_nonneg (abs_nonneg _) hy.le
      have z1 : |x| / |y| ≤ 1 := by rw [div_le_one hy]; exact hi.le
      obtain ⟨b1, b2, b3⟩ := fastAtan_bound z0 z1
      have hy' : y ≠ 0 := abs_pos.1 hy
      refine ⟨by linarith, by linarith, ⟨fun _ => by linarith, fun _ => hy'⟩, fun hx => ?_, fun hx hx0 => ?_⟩
      · have := b3 (div_pos (abs_pos.2 hx) hy); linarith
      · rw [hx0, abs_zero, zero_div] at hx b2 b1
        linarith
    · simp only [if_neg hi]
      have hxy := not_lt.1 hi
      have hx : 0 < |x| := by
        rcases h with h | h
        · exact abs_pos.2 h
        · exact lt_of_lt_of_le (abs_pos.2 h) hxy
      have z0 : 0 ≤ |y| / |x| := div_nonneg (abs_nonneg _) hx.le
      have z1 : |y| / |x| ≤ 1 := by rw [div_le_one hx]; exact hxy
      obtain ⟨b1, b2, b3⟩ := fastAtan_bound z0 z1
      have hx' : x ≠ 0 := abs_pos.1 hx
      refine ⟨b1, by linarith, ⟨fun hy => b3 (div_pos (abs_pos.2 hy) hx), fun hy hy0 => ?_⟩, ⟨fun _ => by linarith, fun _ => hx'⟩⟩
      rw [hy0, abs_zero, zero_div] at hy b2 b1
      linarith
  have hd : (if |x| < |y| then |y| else |x|) ≠ 0 := by
    split
    · rename_i hi; exact (lt_of_le_of_lt (abs_nonneg x) hi).ne'
    · rename_i hi
      rcases h with h | h
      · exact abs_ne_zero.2 h
      · exact (lt_of_lt_of_le (abs_pos.2 h) (not_lt.1 hi)).ne'
  rw [if_neg hd, ← ht]
  refine ⟨_, rfl, ?_⟩
  unfold copysign
  rw [fabs_abs]
  -- the angle in the upper half plane
  obtain ⟨s, hs, s0, s1, s2, s3, s4⟩ : ∃ s, s = (if x < 0 then π - t else t) ∧ 0 ≤ s ∧ s ≤ π ∧ (y ≠ 0 → 0 < s ∧ s < π) ∧ (0 < x → s < π / 2 ∧ (y = 0 → s = 0)) ∧
      ((x = 0 → s = π / 2) ∧ (x < 0 → π / 2 < s ∧ (y = 0 → s = π))) := by
    have ty' : y = 0 → t = 0 := fun hy => by
      by_contra hne
      exact ty.2 (lt_of_le_of_ne t0 (fun e => hne e.symm)) hy
    have tx' : x = 0 → t = π / 2 := fun hx => by
      by_contra hne
      exact tx.2 (lt_of_le_of_ne t1 hne) hx
    refine ⟨_, rfl, ?_⟩
    by_cases hx : x < 0
    · rw [if_pos hx]
      have := tx.1 hx.ne
      refine ⟨by linarith, by linarith, fun hy => ?_, fun h => absurd hx (not_lt.2 h.le), fun h => absurd h hx.ne, fun _ => ⟨by linarith, fun hy => ?_⟩⟩
      · have := ty.1 hy; constructor <;> linarith
      · rw [ty' hy, sub_zero]
    · rw [if_neg hx]
      refine ⟨t0, by linarith, fun hy => ⟨ty.1 hy, by linarith⟩, fun h => ⟨tx.1 h.ne', ty'⟩, tx', fun h => absurd h hx⟩
  rw [← hs, abs_of_nonneg s0]
  by_cases hy : y < 0
  · rw [if_pos hy, abs_neg, abs_of_nonneg s0]
    have := s2 hy.ne
    exact ⟨fun h => absurd hy (not_lt.2 h.le), fun _ => ⟨by linarith, by linarith⟩, fun h => absurd h hy.ne, fun h => absurd h hy.ne,
      fun h => (s3 h).1, s4.1, fun h => (s4.2 h).1⟩
  · rw [if_neg hy, abs_of_nonneg s0]
    exact ⟨fun h => s2 h.ne', fun h => absurd h hy, fun h h' => (s3 h').2 h, fun h h' => (s4.2 h').2 h, fun h => (s3 h).1, s4.1, fun h => (s4.2 h).1⟩

-- the vector (-1, -1): in the third quadrant, about -3/4 of "π = 3"
example : fastAtan2 (⟨3, id, id, id, id, fun _ _ => 0⟩ : Libm ℚ) (-1) (-1) = some (-(3 - 7854096 / 10000000)) := by decide +kernel

/-- The zero vector gives NaN. -/
theorem C55_atan2_zero (L : Libm ℝ) : fastAtan2 L 0 0 = none := by
  unfold fastAtan2
  simp [fabs]

end Verif.Functions
