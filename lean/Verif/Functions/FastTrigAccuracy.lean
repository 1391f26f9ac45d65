import Verif.Functions.TrigBounds
import Mathlib.Analysis.SpecialFunctions.Complex.Arg

/-! Property theorem C74 (see properties.jsonl). -/
namespace Verif.Functions
open Real Spec

theorem shape_quarter {q : ℝ} (h0 : 0 ≤ q) (h1 : q ≤ 1) : |shape (q / 4) - sin (π / 2 * q)| < 12 / 10000 := by
  have e : shape (q / 4) = 31 / 20 * q ^ 1 + 1 / 8 * q ^ 2 + (-9 / 10) * q ^ 3 + 9 / 40 * q ^ 4 := by
    unfold shape
    rw [abs_of_nonneg (by linarith : 0 ≤ q / 4), abs_of_nonneg (by nlinarith : 0 ≤ q / 4 * (16 * (1 / 2 - q / 4)))]
    ring
  have hx : 0 ≤ 1570796 / 1000000 * q := by positivity
  have t1 := taylor7 hx
  have t2 := taylor9 hx
  have b1 := sinUpp h0 h1
  have b2 := sinLow h0 h1
  have d1 := pi_gt_d6
  have d2 := pi_lt_d6
  have hd : |sin (π / 2 * q) - sin (1570796 / 1000000 * q)| ≤ 5 / 10000000 := by
    refine le_trans (abs_sin_sub_sin_le _ _) ?_
    rw [show π / 2 * q - 1570796 / 1000000 * q = (π / 2 - 1570796 / 1000000) * q by ring, abs_mul, abs_of_nonneg h0,
      abs_of_nonneg (by linarith)]
    nlinarith
  obtain ⟨d3, d4⟩ := abs_le.1 hd
  rw [e, abs_lt]
  ring_nf at t1 t2 b1 b2 d3 d4 ⊢
  constructor <;> linarith

theorem wave_error (u : ℝ) : |wave u - sin (2 * π * u)| < 12 / 10000 := by
  -- from 0 to 1/2
  have A : ∀ v : ℝ, 0 ≤ v → v ≤ 1 / 2 → |shape v - sin (2 * π * v)| < 12 / 10000 := by
    intro v h0 h1
    rcases le_total v (1 / 4) with h | h
    · have := shape_quarter (q := 4 * v) (by linarith) (by linarith)
      rwa [mul_div_cancel_left₀ v four_ne_zero, show π / 2 * (4 * v) = 2 * π * v by ring] at this
    · have := shape_quarter (q := 4 * (1 / 2 - v)) (by linarith) (by linarith)
      rw [mul_div_cancel_left₀ _ four_ne_zero, show π / 2 * (4 * (1 / 2 - v)) = π - 2 * π * v by ring, sin_pi_sub] at this
      have e : shape (1 / 2 - v) = shape v := by
        have := shape_add (p := -v) (by linarith) (by linarith)
        rw [shape_neg, neg_neg] at this
        rw [← this]
        congr 1
        ring
      rwa [e] at this
  obtain ⟨v, m, h, h1, h2⟩ := wave_rep u
  rw [wave_eq m h (abs_le.2 ⟨h1, h2.le⟩), sin_rep h]
  rcases le_total 0 v with h0 | h0
  · exact A v h0 h2.le
  · have := A (-v) (by linarith) (by linarith)
    rwa [shape_neg, mul_neg, sin_neg, neg_sub_neg, abs_sub_comm] at this

/-- C74, cosine and sine. -/
theorem C74_cosSin (x : ℝ) : |(fastCosSin real x).1 - cos x| < 12 / 10000 ∧ |(fastCosSin real x).2 - sin x| < 12 / 10000 := by
  have hp : 2 * π ≠ 0 := by have := pi_pos; positivity
  have hx : 2 * π * (x / (2 * π)) = x := mul_div_cancel₀ x hp
  have w1 := wave_error (x / (2 * π))
  have w2 := wave_error (x / (2 * π) + 1 / 4)
  rw [hx] at w1
  rw [mul_add, hx, show 2 * π * (1 / 4) = π / 2 by ring, sin_add_pi_div_two] at w2
  rw [fastCosSin_eq]
  exact ⟨w2, w1⟩

theorem fastAtan_error {z : ℝ} (h0 : 0 ≤ z) (h1 : z ≤ 1) : |fastAtan z - arctan z| < 2 / 100000 := by
  obtain ⟨l, u⟩ := atanLow_le h0 h1
  have b1 := atanUppP h0 h1
  have b2 := atanLowP h0 h1
  have e : fastAtan z = 9998660 / 10000000 * z ^ 1 + -3302995 / 10000000 * z ^ 3 + 1801410 / 10000000 * z ^ 5 +
      -851330 / 10000000 * z ^ 7 + 208351 / 10000000 * z ^ 9 := by
    unfold fastAtan
    ring
  unfold atanLow at l u
  rw [e, abs_lt]
  constructor <;> linarith

/-- C74, arc tangent: the result differs from the argument of the complex number x + iy by less than 2e-5. -/
theorem C74_atan2 (x y : ℝ) (h : x ≠ 0 ∨ y ≠ 0) : ∃ th, fastAtan2 real x y = some th ∧ |th - Complex.arg ⟨x, y⟩| < 2 / 100000 := by
  have hp : 3 < π := pi_gt_three
  unfold fastAtan2
  simp only [fabs_abs]
  rw [show real.pi = π from rfl]
  -- first quadrant: the exact angle a and its approximation t
  obtain ⟨a, t, r, ht, hr, a0, a1, t0, t1, hx, hy, he⟩ : ∃ a t r, t = (if |x| < |y| then π / 2 - fastAtan (if |x| < |y| then |x| / |y| else |y| / |x|) else
      fastAtan (if |x| < |y| then |x| / |y| else |y| / |x|)) ∧ 0 < r ∧ 0 ≤ a ∧ a ≤ π / 2 ∧ 0 ≤ t ∧ t ≤ π / 2 ∧ |x| = r * cos a ∧ |y| = r * sin a ∧
      |t - a| < 2 / 100000 := by
    by_cases hi : |x| < |y|
    · simp only [if_pos hi]
      have hy : 0 < |y| := lt_of_le_of_lt (abs_nonneg x) hi
      have z0 : 0 ≤ |x| / |y| := div_nonneg (abs_nonneg _) hy.le
      have z1 : |x| / |y| ≤ 1 := by rw [div_le_one hy]; exact hi.le
      obtain ⟨b1, b2, -⟩ := fastAtan_bound z0 z1
      have b3 := fastAtan_error z0 z1
      have c0 := cos_arctan_pos (|x| / |y|)
      have c1 := arctan_nonneg.2 z0
      refine ⟨π / 2 - arctan (|x| / |y|), _, |y| / cos (arctan (|x| / |y|)), rfl, div_pos hy c0, by linarith [arctan_lt_pi_div_two (|x| / |y|)],
        by linarith, by linarith, by linarith, ?_, ?_, ?_⟩
      · rw [cos_pi_div_two_sub, div_mul_eq_mul_div, mul_div_assoc, ← tan_eq_sin_div_cos, tan_arctan, mul_div_cancel₀ _ hy.ne']
      · rw [sin_pi_div_two_sub, div_mul_cancel₀ _ c0.ne']
      · rwa [sub_sub_sub_cancel_left, abs_sub_comm]
    · simp only [if_neg hi]
      have hxy := not_lt.1 hi
      have hx : 0 < |x| := by
        rcases h with h | h
        · exact abs_pos.2 h
        · exact lt_of_lt_of_le (abs_pos.2 h) hxy
      have z0 : 0 ≤ |y| / |x| := div_nonneg (abs_nonneg _) hx.le
      have z1 : |y| / |x| ≤ 1 := by rw [div_le_one hx]; exact hxy
      obtain ⟨b1, b2, -⟩ := fastAtan_bound z0 z1
      have c0 := cos_arctan_pos (|y| / |x|)
      refine ⟨arctan (|y| / |x|), _, |x| / cos (arctan (|y| / |x|)), rfl, div_pos hx c0, arctan_nonneg.2 z0, (arctan_lt_pi_div_two _).le, b1, by linarith,
        ?_, ?_, fastAtan_error z0 z1⟩
      · rw [div_mul_cancel₀ _ c0.ne']
      · rw [div_mul_eq_mul_div, mul_div_assoc, ← tan_eq_sin_div_cos, tan_arctan, mul_div_cancel₀ _ hx.ne']
  have hd : (if |x| < |y| then |y| else |x|) ≠ 0 := by
    split
    · rename_i hi; exact (lt_of_le_of_lt (abs_nonneg x) hi).ne'
    · rename_i hi
      rcases h with h | h
      · exact abs_ne_zero.2 h
      · exact (lt_of_lt_of_le (abs_pos.2 h) (not_lt.1 hi)).ne'
  rw [if_neg hd, ← ht]
  refine ⟨_, rfl, ?_⟩
  unfold copysign
  rw [fabs_abs]
  -- upper half plane
  obtain ⟨b, s, hs, b0, b1, s0, hx', hy', he'⟩ : ∃ b s, s = (if x < 0 then π - t else t) ∧ 0 ≤ b ∧ b ≤ π ∧ 0 ≤ s ∧ x = r * cos b ∧ |y| = r * sin b ∧
      |s - b| < 2 / 100000 := by
    by_cases hxn : x < 0
    · refine ⟨π - a, _, rfl, by linarith, by linarith, by rw [if_pos hxn]; linarith, ?_, by rw [sin_pi_sub]; exact hy, ?_⟩
      · rw [cos_pi_sub, mul_neg, ← hx, abs_of_neg hxn, neg_neg]
      · rwa [if_pos hxn, sub_sub_sub_cancel_left, abs_sub_comm]
    · refine ⟨a, _, rfl, a0, by linarith, by rw [if_neg hxn]; exact t0, by rw [← hx, abs_of_nonneg (not_lt.1 hxn)], hy, by rwa [if_neg hxn]⟩
  rw [← hs, abs_of_nonneg s0]
  have harg : ∀ c : ℝ, -π < c → c ≤ π → x = r * cos c → y = r * sin c → Complex.arg ⟨x, y⟩ = c := by
    intro c h1 h2 h3 h4
    have e : (⟨x, y⟩ : ℂ) = r * (Complex.cos c + Complex.sin c * Complex.I) := by
      rw [← Complex.ofReal_cos, ← Complex.ofReal_sin]
      apply Complex.ext
      · simp [h3, -Complex.ofReal_cos, -Complex.ofReal_sin]
      · simp [h4, -Complex.ofReal_cos, -Complex.ofReal_sin]
    rw [e]
    exact Complex.arg_mul_cos_add_sin_mul_I hr ⟨h1, h2⟩
  by_cases hyn : y < 0
  · have hb : b < π := by
      rcases lt_or_eq_of_le b1 with h' | h'
      · exact h'
      · rw [h', sin_pi, mul_zero] at hy'
        exact absurd (abs_eq_zero.1 hy') hyn.ne
    rw [if_pos hyn, harg (-b) (by linarith) (by linarith) (by rw [cos_neg]; exact hx') (by rw [sin_neg, mul_neg, ← hy', abs_of_neg hyn, neg_neg]),
      neg_sub_neg, abs_sub_comm]
    exact he'
  · rw [if_neg hyn, harg b (by linarith) b1 hx' (by rw [← hy', abs_of_nonneg (not_lt.1 hyn)])]
    exact he'

-- the polynomial at 1: 0.7854096, against pi / 4 = 0.7853981...
example : fastAtan (1 : ℚ) = 7854096 / 10000000 := by decide +kernel

end Verif.Functions
