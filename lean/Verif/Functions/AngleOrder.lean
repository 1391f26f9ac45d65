import Verif.Functions.FastTrigAccuracy
import Mathlib.Analysis.Calculus.Deriv.MeanValue
import Mathlib.Analysis.SpecialFunctions.Trigonometric.Arctan

/-!
C169: the order of the angles computed by `fastAtan2` and of the values computed by `fastCosSin` (common/src/functions.cpp:47-58, 71-80, 94-104), in exact arithmetic.
-/
namespace Verif.Functions
open Real Spec

/-- C169: the angle computed for a vector increases with the angle of the vector. -/
def C169_statement : Prop := ∀ x y x' y' t t' : ℝ, (x ≠ 0 ∨ y ≠ 0) → (x' ≠ 0 ∨ y' ≠ 0) → fastAtan2 real x y = some t → fastAtan2 real x' y' = some t' →
  Complex.arg ⟨x, y⟩ < Complex.arg ⟨x', y'⟩ → t < t'

theorem fastAtan_neg (z : ℝ) : fastAtan (-z) = -fastAtan z := by
  simp only [fastAtan]
  ring

theorem fastAtan_mono01 {a b : ℝ} (h0 : 0 ≤ a) (h : a < b) (h1 : b ≤ 1) : fastAtan a < fastAtan b := by
  have hd : ∀ x : ℝ, HasDerivAt (fastAtan (K := ℝ)) (9998660 / 10000000 + 3 * (-3302995 / 10000000) * x ^ 2 + 5 * (1801410 / 10000000) * x ^ 4 +
      7 * (-851330 / 10000000) * x ^ 6 + 9 * (208351 / 10000000) * x ^ 8) x := by
    intro x
    have e : (fastAtan (K := ℝ)) = fun x => 9998660 / 10000000 * x + -3302995 / 10000000 * x ^ 3 + 1801410 / 10000000 * x ^ 5 + -851330 / 10000000 * x ^ 7 + 208351 / 10000000 * x ^ 9 := by
      funext x
      simp only [fastAtan]
      ring
    rw [e]
    have := ((((((hasDerivAt_id x).const_mul (9998660 / 10000000)).add ((hasDerivAt_pow 3 x).const_mul (-3302995 / 10000000))).add
      ((hasDerivAt_pow 5 x).const_mul (1801410 / 10000000))).add ((hasDerivAt_pow 7 x).const_mul (-851330 / 10000000))).add ((hasDerivAt_pow 9 x).const_mul (208351 / 10000000)))
    refine this.congr_deriv ?_
    norm_num
    ring
  have hm : StrictMonoOn (fastAtan (K := ℝ)) (Set.Icc 0 1) := by
    refine strictMonoOn_of_deriv_pos (convex_Icc 0 1) (fun x _ => (hd x).continuousAt.continuousWithinAt) fun x hx => ?_
    rw [interior_Icc] at hx
    rw [(hd x).deriv]
    obtain ⟨t, ht⟩ : ∃ t, t = x ^ 2 := ⟨_, rfl⟩
    have t0 : 0 ≤ t := by rw [ht]; positivity
    have t1 : t ≤ 1 := by rw [ht]; nlinarith [hx.1, hx.2]
    have e : 9998660 / 10000000 + 3 * (-3302995 / 10000000) * x ^ 2 + 5 * (1801410 / 10000000) * x ^ 4 + 7 * (-851330 / 10000000) * x ^ 6 + 9 * (208351 / 10000000) * x ^ 8 =
        9998660 / 10000000 + 3 * (-3302995 / 10000000) * t + 5 * (1801410 / 10000000) * t ^ 2 + 7 * (-851330 / 10000000) * t ^ 3 + 9 * (208351 / 10000000) * t ^ 4 := by
      rw [ht]; ring
    rw [e]
    have h2 : 0 ≤ t * (1 - t) := mul_nonneg t0 (by linarith)
    have h3 : 0 ≤ t ^ 2 * (1 - t) := mul_nonneg (by positivity) (by linarith)
    have h4 : 0 ≤ t ^ 4 := by positivity
    nlinarith [sq_nonneg (t - 55 / 100), h2, h3, h4]
  exact hm ⟨h0, by linarith⟩ ⟨by linarith, h1⟩ h

theorem fastAtan_mono {a b : ℝ} (h0 : -1 ≤ a) (h : a < b) (h1 : b ≤ 1) : fastAtan a < fastAtan b := by
  rcases le_or_gt 0 a with ha | ha
  · exact fastAtan_mono01 ha h h1
  · have hneg : ∀ c : ℝ, -1 ≤ c → c < 0 → fastAtan c < 0 := by
      intro c hc hc0
      have := (fastAtan_bound (z := -c) (by linarith) (by linarith)).2.2 (by linarith)
      rw [fastAtan_neg] at this
      linarith
    rcases le_or_gt 0 b with hb | hb
    · exact lt_of_lt_of_le (hneg a h0 ha) (fastAtan_bound hb h1).1
    · have := fastAtan_mono01 (a := -b) (b := -a) (by linarith) (by linarith) (by linarith)
      rw [fastAtan_neg, fastAtan_neg] at this
      linarith

/-- `fastAtan2` of a vector not farther from the axis x than from the axis y. -/
theorem fastAtan2_flat {x y : ℝ} (hx : x ≠ 0) (h : |y| ≤ |x|) : fastAtan2 real x y = some (fastAtan (y / x) + if x < 0 then if y < 0 then -π else π else 0) := by
  have hp : 3 < π := pi_gt_three
  have hx' : 0 < |x| := abs_pos.2 hx
  have z0 : 0 ≤ |y| / |x| := div_nonneg (abs_nonneg _) hx'.le
  have z1 : |y| / |x| ≤ 1 := by rw [div_le_one hx']; exact h
  obtain ⟨b1, b2, -⟩ := fastAtan_bound z0 z1
  unfold fastAtan2 copysign
  simp only [fabs_abs]
  rw [show real.pi = π from rfl]
  simp only [if_neg (not_lt.2 h), if_neg hx'.ne', Option.some.injEq]
  rcases lt_or_gt_of_ne hx with h1 | h1 <;> rcases lt_or_ge y 0 with h2 | h2
  · rw [if_pos h2, if_pos h1, if_pos h1, if_pos h2, abs_of_nonneg (by linarith), abs_of_neg h1, abs_of_neg h2, neg_div_neg_eq]
    ring
  · rw [if_neg (not_lt.2 h2), if_pos h1, if_pos h1, if_neg (not_lt.2 h2), abs_of_nonneg (by linarith), abs_of_neg h1, abs_of_nonneg h2, div_neg, fastAtan_neg]
    ring
  · rw [if_pos h2, if_neg (not_lt.2 h1.le), if_neg (not_lt.2 h1.le), abs_of_nonneg b1, abs_of_pos h1, abs_of_neg h2, neg_div, fastAtan_neg]
    ring
  · rw [if_neg (not_lt.2 h2), if_neg (not_lt.2 h1.le), if_neg (not_lt.2 h1.le), abs_of_nonneg b1, abs_of_pos h1, abs_of_nonneg h2]
    ring

/-- `fastAtan2` of a vector nearer to the axis y. -/
theorem fastAtan2_steep {x y : ℝ} (h : |x| < |y|) : fastAtan2 real x y = some ((if y < 0 then -(π / 2) else π / 2) - fastAtan (x / y)) := by
  have hp : 3 < π := pi_gt_three
  have hy' : 0 < |y| := lt_of_le_of_lt (abs_nonneg x) h
  have hy : y ≠ 0 := abs_pos.1 hy'
  have z0 : 0 ≤ |x| / |y| := div_nonneg (abs_nonneg _) hy'.le
  have z1 : |x| / |y| ≤ 1 := by rw [div_le_one hy']; exact h.le
  obtain ⟨b1, b2, -⟩ := fastAtan_bound z0 z1
  unfold fastAtan2 copysign
  simp only [fabs_abs]
  rw [show real.pi = π from rfl]
  simp only [if_pos h, if_neg hy'.ne', Option.some.injEq]
  rcases lt_or_gt_of_ne hy with h1 | h1 <;> rcases lt_or_ge x 0 with h2 | h2
  · rw [if_pos h1, if_pos h2, if_pos h1, abs_of_nonneg (by linarith), abs_of_neg h1, abs_of_neg h2, neg_div_neg_eq]
    ring
  · rw [if_pos h1, if_neg (not_lt.2 h2), if_pos h1, abs_of_nonneg (by linarith), abs_of_neg h1, abs_of_nonneg h2, div_neg, fastAtan_neg]
    ring
  · rw [if_neg (not_lt.2 h1.le), if_pos h2, if_neg (not_lt.2 h1.le), abs_of_nonneg (by linarith), abs_of_pos h1, abs_of_neg h2, neg_div, fastAtan_neg]
    ring
  · rw [if_neg (not_lt.2 h1.le), if_neg (not_lt.2 h2), if_neg (not_lt.2 h1.le), abs_of_nonneg (by linarith), abs_of_pos h1, abs_of_nonneg h2]

/-- A vector at a larger angle, by less than half a turn, is on the left. -/
theorem cross_pos {x y x' y' : ℝ} (h : x ≠ 0 ∨ y ≠ 0) (h' : x' ≠ 0 ∨ y' ≠ 0) (h1 : Complex.arg ⟨x, y⟩ < Complex.arg ⟨x', y'⟩)
    (h2 : Complex.arg ⟨x', y'⟩ < Complex.arg ⟨x, y⟩ + π) : 0 < x * y' - y * x' := by
  have hv : (⟨x, y⟩ : ℂ) ≠ 0 := fun e => by
    rcases h with h | h
    · exact h (congrArg Complex.re e)
    · exact h (congrArg Complex.im e)
  have hw : (⟨x', y'⟩ : ℂ) ≠ 0 := fun e => by
    rcases h' with h | h
    · exact h (congrArg Complex.re e)
    · exact h (congrArg Complex.im e)
  have e1 := Complex.norm_mul_cos_arg ⟨x, y⟩
  have e2 := Complex.norm_mul_sin_arg ⟨x, y⟩
  have e3 := Complex.norm_mul_cos_arg ⟨x', y'⟩
  have e4 := Complex.norm_mul_sin_arg ⟨x', y'⟩
  dsimp only at e1 e2 e3 e4
  have n1 := norm_pos_iff.2 hv
  have n2 := norm_pos_iff.2 hw
  have hs := sin_pos_of_pos_of_lt_pi (sub_pos.2 h1) (by linarith)
  rw [sin_sub] at hs
  have : x * y' - y * x' = ‖(⟨x, y⟩ : ℂ)‖ * ‖(⟨x', y'⟩ : ℂ)‖ * (sin (Complex.arg ⟨x', y'⟩) * cos (Complex.arg ⟨x, y⟩) - cos (Complex.arg ⟨x', y'⟩) * sin (Complex.arg ⟨x, y⟩)) := by
    generalize ‖(⟨x, y⟩ : ℂ)‖ = N at *
    generalize ‖(⟨x', y'⟩ : ℂ)‖ = M at *
    generalize Complex.arg ⟨x, y⟩ = a at *
    generalize Complex.arg ⟨x', y'⟩ = b at *
    linear_combination (-y') * e1 - N * cos a * e4 + x' * e2 + N * sin a * e3
  rw [this]
  positivity

/-- The two vectors lie in the same of the four sectors bounded by the diagonals; the diagonals belong to the sectors of the axis x. -/
def SameSector (x y x' y' : ℝ) : Prop := (|y| ≤ |x| ∧ |y'| ≤ |x'| ∧ 0 < x * x') ∨ (|x| < |y| ∧ |x'| < |y'| ∧ 0 < y * y')

/-- C169, part: in one sector the order of the angles is kept. Missing: two vectors on different sides of a diagonal, see `C169_violated` and `C169_far_partial`. -/
theorem C169_sector_partial {x y x' y' t t' : ℝ} (hs : SameSector x y x' y') (ht : fastAtan2 real x y = some t) (ht' : fastAtan2 real x' y' = some t')
    (h : Complex.arg ⟨x, y⟩ < Complex.arg ⟨x', y'⟩) : t < t' := by
  have hp : 3 < π := pi_gt_three
  have l1 := Complex.neg_pi_lt_arg ⟨x, y⟩
  have l2 := Complex.arg_le_pi ⟨x', y'⟩
  rcases hs with ⟨f, f', hx⟩ | ⟨f, f', hy⟩
  · have hx0 : x ≠ 0 := by rintro rfl; simp at hx
    have hx0' : x' ≠ 0 := by rintro rfl; simp at hx
    have r1 : |y / x| ≤ 1 := by rw [abs_div, div_le_one (abs_pos.2 hx0)]; exact f
    have r2 : |y' / x'| ≤ 1 := by rw [abs_div, div_le_one (abs_pos.2 hx0')]; exact f'
    rw [fastAtan2_flat hx0 f] at ht
    rw [fastAtan2_flat hx0' f'] at ht'
    obtain rfl := Option.some.inj ht
    obtain rfl := Option.some.inj ht'
    have quot : 0 < x * y' - y * x' → y / x < y' / x' := by
      intro hc
      have : y' / x' - y / x = (x * y' - y * x') / (x * x') := by field_simp
      have := div_pos hc hx
      linarith
    have mono : 0 < x * y' - y * x' → fastAtan (y / x) < fastAtan (y' / x') := fun hc =>
      fastAtan_mono (abs_le.1 r1).1 (quot hc) (abs_le.1 r2).2
    rcases pos_and_pos_or_neg_and_neg_of_mul_pos hx with ⟨p, p'⟩ | ⟨p, p'⟩
    · rw [if_neg (not_lt.2 p.le), if_neg (not_lt.2 p'.le)]
      have a1 := abs_lt.1 (Complex.abs_arg_lt_pi_div_two_iff.2 (Or.inl p : 0 < (⟨x, y⟩ : ℂ).re ∨ _))
      have a2 := abs_lt.1 (Complex.abs_arg_lt_pi_div_two_iff.2 (Or.inl p' : 0 < (⟨x', y'⟩ : ℂ).re ∨ _))
      have := mono (cross_pos (Or.inl hx0) (Or.inl hx0') h (by linarith))
      linarith
    · rw [if_pos p, if_pos p']
      have up : ∀ {a b : ℝ}, a < 0 → 0 ≤ b → π / 2 < Complex.arg ⟨a, b⟩ := by
        intro a b ha hb
        have h0 := Complex.arg_nonneg_iff.2 (show 0 ≤ (⟨a, b⟩ : ℂ).im from hb)
        by_contra hc
        have := (Complex.abs_arg_le_pi_div_two_iff (z := ⟨a, b⟩)).1 (by rw [abs_of_nonneg h0]; exact not_lt.1 hc)
        exact absurd ha (not_lt.2 this)
      have down : ∀ {a b : ℝ}, a < 0 → b < 0 → Complex.arg ⟨a, b⟩ < -(π / 2) := by
        intro a b ha hb
        have h0 := Complex.arg_neg_iff.2 (show (⟨a, b⟩ : ℂ).im < 0 from hb)
        by_contra hc
        have := (Complex.abs_arg_le_pi_div_two_iff (z := ⟨a, b⟩)).1 (by rw [abs_of_neg h0]; linarith [not_lt.1 hc])
        exact absurd ha (not_lt.2 this)
      have bound : ∀ z : ℝ, |z| ≤ 1 → |fastAtan z| ≤ 121 / 100 := by
        intro z hz
        rcases le_total 0 z with h0 | h0
        · rw [abs_of_nonneg h0] at hz
          obtain ⟨b1, b2, -⟩ := fastAtan_bound h0 hz
          rw [abs_of_nonneg b1]
          linarith
        · rw [abs_of_nonpos h0] at hz
          obtain ⟨b1, b2, -⟩ := fastAtan_bound (z := -z) (by linarith) hz
          rw [fastAtan_neg] at b1 b2
          rw [abs_of_nonpos (by linarith)]
          linarith
      rcases lt_or_ge y 0 with g | g <;> rcases lt_or_ge y' 0 with g' | g'
      · rw [if_pos g, if_pos g']
        have := down p' g'
        have := mono (cross_pos (Or.inl hx0) (Or.inl hx0') h (by linarith))
        linarith
      · rw [if_pos g, if_neg (not_lt.2 g')]
        have := abs_le.1 (bound _ r1)
        have := abs_le.1 (bound _ r2)
        linarith
      · have := up p g
        have := down p' g'
        linarith
      · rw [if_neg (not_lt.2 g), if_neg (not_lt.2 g')]
        have := up p g
        have := mono (cross_pos (Or.inl hx0) (Or.inl hx0') h (by linarith))
        linarith
  · have hy0 : y ≠ 0 := by rintro rfl; simp at hy
    have hy0' : y' ≠ 0 := by rintro rfl; simp at hy
    have r1 : |x / y| ≤ 1 := by rw [abs_div, div_le_one (abs_pos.2 hy0)]; exact f.le
    have r2 : |x' / y'| ≤ 1 := by rw [abs_div, div_le_one (abs_pos.2 hy0')]; exact f'.le
    rw [fastAtan2_steep f] at ht
    rw [fastAtan2_steep f'] at ht'
    obtain rfl := Option.some.inj ht
    obtain rfl := Option.some.inj ht'
    have mono : 0 < x * y' - y * x' → fastAtan (x' / y') < fastAtan (x / y) := by
      intro hc
      refine fastAtan_mono (abs_le.1 r2).1 ?_ (abs_le.1 r1).2
      have : x / y - x' / y' = (x * y' - y * x') / (y * y') := by field_simp
      have := div_pos hc hy
      linarith
    rcases pos_and_pos_or_neg_and_neg_of_mul_pos hy with ⟨p, p'⟩ | ⟨p, p'⟩
    · rw [if_neg (not_lt.2 p.le), if_neg (not_lt.2 p'.le)]
      have a1 := Complex.arg_nonneg_iff.2 (show 0 ≤ (⟨x, y⟩ : ℂ).im from p.le)
      have a2 := Complex.arg_lt_pi_iff.2 (show 0 ≤ (⟨x', y'⟩ : ℂ).re ∨ (⟨x', y'⟩ : ℂ).im ≠ 0 from Or.inr hy0')
      have := mono (cross_pos (Or.inr hy0) (Or.inr hy0') h (by linarith))
      linarith
    · rw [if_pos p, if_pos p']
      have a2 := Complex.arg_neg_iff.2 (show (⟨x', y'⟩ : ℂ).im < 0 from p')
      have := mono (cross_pos (Or.inr hy0) (Or.inr hy0') h (by linarith))
      linarith

/-- C169, part: the order is kept for angles that differ by at least 4e-5. -/
theorem C169_far_partial {x y x' y' t t' : ℝ} (hv : x ≠ 0 ∨ y ≠ 0) (hw : x' ≠ 0 ∨ y' ≠ 0) (ht : fastAtan2 real x y = some t) (ht' : fastAtan2 real x' y' = some t')
    (h : Complex.arg ⟨x, y⟩ + 4 / 100000 ≤ Complex.arg ⟨x', y'⟩) : t < t' := by
  obtain ⟨u, e, b⟩ := C74_atan2 x y hv
  obtain ⟨u', e', b'⟩ := C74_atan2 x' y' hw
  rw [ht] at e
  rw [ht'] at e'
  obtain rfl := Option.some.inj e
  obtain rfl := Option.some.inj e'
  have := abs_lt.1 b
  have := abs_lt.1 b'
  linarith

/-- C169: the length of the vector does not matter. -/
theorem C169_length (x y k : ℝ) (hk : 0 < k) : fastAtan2 real (k * x) (k * y) = fastAtan2 real x y := by
  have hneg : ∀ a : ℝ, (k * a < 0) = (a < 0) := fun a => propext (by rw [mul_neg_iff]; constructor <;> [(rintro (⟨_, h⟩ | ⟨h, _⟩) <;> linarith); exact fun h => Or.inl ⟨hk, h⟩])
  rcases lt_or_ge |x| |y| with h | h
  · rw [fastAtan2_steep h, fastAtan2_steep (by rw [abs_mul, abs_mul]; exact mul_lt_mul_of_pos_left h (abs_pos.2 hk.ne')), mul_div_mul_left _ _ hk.ne']
    simp only [hneg]
  · by_cases hx : x = 0
    · subst hx
      rw [abs_zero] at h
      obtain rfl := abs_eq_zero.1 (le_antisymm h (abs_nonneg y))
      simp
    · rw [fastAtan2_flat hx h, fastAtan2_flat (mul_ne_zero hk.ne' hx) (by rw [abs_mul, abs_mul]; exact mul_le_mul_of_nonneg_left h (abs_nonneg k)), mul_div_mul_left _ _ hk.ne']
      simp only [hneg]

/-- C169: a vector turned by a quarter turn gets the angle turned by `π / 2` exactly if it is not on a diagonal. -/
theorem C169_quarter_iff {x y t t' : ℝ} (hv : x ≠ 0 ∨ y ≠ 0) (ht : fastAtan2 real x y = some t) (ht' : fastAtan2 real (-y) x = some t') :
    (∃ k : ℤ, t' = t + π / 2 + k * (2 * π)) ↔ |x| ≠ |y| := by
  have hp1 := pi_gt_d6
  have hp2 := pi_lt_d6
  rcases lt_trichotomy |x| |y| with h | h | h
  · have hy : y ≠ 0 := abs_pos.1 (lt_of_le_of_lt (abs_nonneg x) h)
    rw [fastAtan2_steep h] at ht
    rw [fastAtan2_flat (neg_ne_zero.2 hy) (by rw [abs_neg]; exact h.le), div_neg, fastAtan_neg] at ht'
    obtain rfl := Option.some.inj ht
    obtain rfl := Option.some.inj ht'
    refine ⟨fun _ => h.ne, fun _ => ?_⟩
    rcases lt_or_gt_of_ne hy with g | g
    · rw [if_pos g, if_neg (by linarith)]
      exact ⟨0, by push_cast; ring⟩
    · rw [if_neg (not_lt.2 g.le), if_pos (neg_lt_zero.2 g)]
      split_ifs
      · exact ⟨-1, by push_cast; ring⟩
      · exact ⟨0, by push_cast; ring⟩
  · have hx : x ≠ 0 := by
      rintro rfl
      rw [abs_zero] at h
      exact hv.elim (fun e => e rfl) fun e => e (abs_eq_zero.1 h.symm)
    have hy : y ≠ 0 := by
      rintro rfl
      rw [abs_zero] at h
      exact hx (abs_eq_zero.1 h)
    rw [fastAtan2_flat hx h.ge] at ht
    rw [fastAtan2_flat (neg_ne_zero.2 hy) (by rw [abs_neg]; exact h.le), div_neg, fastAtan_neg] at ht'
    obtain rfl := Option.some.inj ht
    obtain rfl := Option.some.inj ht'
    refine ⟨?_, fun e => absurd h e⟩
    rintro ⟨k, hk⟩ -
    have one : fastAtan (1 : ℝ) = 7854096 / 10000000 := by norm_num [fastAtan]
    obtain ⟨m, hm⟩ : ∃ m : ℤ, (if -y < 0 then if x < 0 then -π else π else 0) - (if x < 0 then if y < 0 then -π else π else 0) = m * π := by
      split_ifs
      all_goals first
        | (refine ⟨-2, ?_⟩; push_cast; ring1)
        | (refine ⟨-1, ?_⟩; push_cast; ring1)
        | (refine ⟨0, ?_⟩; push_cast; ring1)
        | (refine ⟨1, ?_⟩; push_cast; ring1)
        | (refine ⟨2, ?_⟩; push_cast; ring1)
    have key : ∀ (j : ℤ) (c : ℝ), c = 7854096 / 10000000 ∨ c = -(7854096 / 10000000) → 4 * c ≠ π * (2 * j + 1 : ℤ) := by
      intro j c hc e
      rcases lt_or_ge (2 * j + 1 : ℤ) (-1) with h1 | h1
      · have : ((2 * j + 1 : ℤ) : ℝ) ≤ -2 := by exact_mod_cast (by omega : (2 * j + 1 : ℤ) ≤ -2)
        rcases hc with rfl | rfl <;> nlinarith
      · rcases lt_or_ge (1 : ℤ) (2 * j + 1) with h2 | h2
        · have : (2 : ℝ) ≤ ((2 * j + 1 : ℤ) : ℝ) := by exact_mod_cast (by omega : (2 : ℤ) ≤ 2 * j + 1)
          rcases hc with rfl | rfl <;> nlinarith
        · have : (2 * j + 1 : ℤ) = -1 ∨ (2 * j + 1 : ℤ) = 1 := by omega
          rcases this with e1 | e1 <;> rw [e1] at e <;> push_cast at e <;> rcases hc with rfl | rfl <;> linarith
    rcases abs_eq_abs.1 h with e | e
    · rw [e, div_self hy, one] at hk
      rw [e] at hm
      refine key (m - 2 * k - 1) (7854096 / 10000000) (Or.inl rfl) ?_
      push_cast
      linarith
    · rw [e, neg_div, div_neg, div_self hy, fastAtan_neg, one] at hk
      rw [e] at hm
      refine key (m - 2 * k - 1) (-(7854096 / 10000000)) (Or.inr rfl) ?_
      push_cast
      linarith
  · have hx : x ≠ 0 := abs_pos.1 (lt_of_le_of_lt (abs_nonneg y) h)
    rw [fastAtan2_flat hx h.le] at ht
    rw [fastAtan2_steep (by rw [abs_neg]; exact h), neg_div, fastAtan_neg] at ht'
    obtain rfl := Option.some.inj ht
    obtain rfl := Option.some.inj ht'
    refine ⟨fun _ => h.ne', fun _ => ?_⟩
    split_ifs
    · exact ⟨0, by push_cast; ring⟩
    · exact ⟨-1, by push_cast; ring⟩
    · exact ⟨0, by push_cast; ring⟩

/-- The vector (1, 1) gets a larger angle than the vector (0.99999, 1), which is farther to the left. -/
theorem C169_violated : ¬ C169_statement := by
  intro h
  have hp1 := pi_gt_d6
  have hp2 := pi_lt_d6
  have t1 : fastAtan2 real 1 1 = some (7854096 / 10000000) := by
    rw [fastAtan2_flat one_ne_zero le_rfl]
    norm_num [fastAtan]
  have hlt : |(99999 / 100000 : ℝ)| < |1| := by norm_num [abs_of_pos]
  have t2 := fastAtan2_steep hlt
  have harg : Complex.arg ⟨1, 1⟩ < Complex.arg ⟨99999 / 100000, 1⟩ := by
    by_contra hc
    rcases (not_lt.1 hc).lt_or_eq with hc | hc
    · have a1 := abs_lt.1 (Complex.abs_arg_lt_pi_div_two_iff.2 (Or.inl (by norm_num) : 0 < (⟨1, 1⟩ : ℂ).re ∨ _))
      have a2 := abs_lt.1 (Complex.abs_arg_lt_pi_div_two_iff.2 (Or.inl (by norm_num) : 0 < (⟨99999 / 100000, 1⟩ : ℂ).re ∨ _))
      have := cross_pos (x := 99999 / 100000) (y := 1) (x' := 1) (y' := 1) (Or.inr one_ne_zero) (Or.inr one_ne_zero) hc (by linarith)
      norm_num at this
    · have e1 := Complex.tan_arg ⟨1, 1⟩
      have e2 := Complex.tan_arg ⟨99999 / 100000, 1⟩
      rw [hc, e1] at e2
      norm_num at e2
  have := h _ _ _ _ _ _ (Or.inr one_ne_zero) (Or.inr one_ne_zero) t1 t2 harg
  rw [if_neg (by norm_num)] at this
  norm_num [fastAtan] at this
  linarith

/-- On a quarter of a turn the approximation of the sine increases. -/
theorem shape_mono : StrictMonoOn shape (Set.Icc (-(1 / 4)) (1 / 4)) := by
  have key : ∀ a b : ℝ, 0 ≤ a → a < b → b ≤ 1 / 4 → shape a < shape b := by
    intro a b h0 h h1
    have q : ∀ p : ℝ, 0 ≤ p → p ≤ 1 / 4 → 0 ≤ p * (16 * (1 / 2 - p)) := fun p h0 h1 => mul_nonneg h0 (by linarith)
    have hq := q a h0 (by linarith)
    have hq' := q b (by linarith) h1
    unfold shape
    rw [abs_of_nonneg h0, abs_of_nonneg (by linarith : 0 ≤ b), abs_of_nonneg hq, abs_of_nonneg hq']
    have hlt : a * (16 * (1 / 2 - a)) < b * (16 * (1 / 2 - b)) := by nlinarith
    generalize a * (16 * (1 / 2 - a)) = u at *
    generalize b * (16 * (1 / 2 - b)) = v at *
    nlinarith
  intro a ha b hb h
  rcases le_or_gt 0 a with h0 | h0
  · exact key a b h0 h hb.2
  · rcases le_or_gt 0 b with h1 | h1
    · have e := key 0 (-a) le_rfl (by linarith) (by linarith [ha.1])
      have z : shape 0 = 0 := by simp [shape]
      rw [shape_neg, z] at e
      have := (shape_nonneg h1 (by linarith [hb.2])).1
      linarith
    · have := key (-b) (-a) (by linarith) (by linarith) (by linarith [ha.1])
      rw [shape_neg, shape_neg] at this
      linarith

/-- The approximation of the sine and the sine at the same point of a quarter turn. -/
theorem wave_fold (u : ℝ) : ∃ f ∈ Set.Icc (-(1 / 4) : ℝ) (1 / 4), wave u = shape f ∧ sin (2 * π * u) = sin (2 * π * f) := by
  obtain ⟨v, m, h, h1, h2⟩ := wave_rep u
  have hw := wave_eq m h (abs_le.2 ⟨h1, h2.le⟩)
  have hs := sin_rep h
  rcases lt_or_ge v (-(1 / 4)) with g | g
  · refine ⟨-(1 / 2) - v, ⟨by linarith, by linarith⟩, ?_, ?_⟩
    · have := shape_add h1 (by linarith : v ≤ 0)
      rw [hw, show -(1 / 2) - v = -(v + 1 / 2) by ring, shape_neg, this, neg_neg]
    · rw [hs, show 2 * π * (-(1 / 2) - v) = -(2 * π * v + π) by ring, sin_neg, sin_add_pi, neg_neg]
  · rcases le_or_gt v (1 / 4) with g' | g'
    · exact ⟨v, ⟨g, g'⟩, hw, hs⟩
    · refine ⟨1 / 2 - v, ⟨by linarith, by linarith⟩, ?_, ?_⟩
      · have := shape_add (p := -v) (by linarith) (by linarith)
        rw [hw, show 1 / 2 - v = -v + 1 / 2 by ring, this, shape_neg, neg_neg]
      · rw [hs, show 2 * π * (1 / 2 - v) = π - 2 * π * v by ring, sin_pi_sub]

theorem wave_lt_iff (u v : ℝ) : wave u < wave v ↔ sin (2 * π * u) < sin (2 * π * v) := by
  obtain ⟨f, hf, e1, e2⟩ := wave_fold u
  obtain ⟨g, hg, e3, e4⟩ := wave_fold v
  have hp := pi_pos
  rw [e1, e2, e3, e4, shape_mono.lt_iff_lt hf hg]
  have hm : ∀ w ∈ Set.Icc (-(1 / 4) : ℝ) (1 / 4), 2 * π * w ∈ Set.Icc (-(π / 2)) (π / 2) := fun w hw => ⟨by nlinarith [hw.1], by nlinarith [hw.2]⟩
  rw [strictMonoOn_sin.lt_iff_lt (hm f hf) (hm g hg)]
  exact (mul_lt_mul_iff_right₀ (by positivity)).symm

/-- C169: the components of `fastCosSin` at two angles compare like the cosines and the sines. -/
theorem C169_cosSin (x y : ℝ) : ((fastCosSin real x).1 < (fastCosSin real y).1 ↔ cos x < cos y) ∧ ((fastCosSin real x).2 < (fastCosSin real y).2 ↔ sin x < sin y) := by
  have hp : 2 * π ≠ 0 := by have := pi_pos; positivity
  have hx : ∀ x : ℝ, 2 * π * (x / (2 * π)) = x := fun x => mul_div_cancel₀ x hp
  have hc : ∀ x : ℝ, sin (2 * π * (x / (2 * π) + 1 / 4)) = cos x := fun x => by
    rw [mul_add, hx, show 2 * π * (1 / 4) = π / 2 by ring, sin_add_pi_div_two]
  simp only [fastCosSin_eq]
  rw [wave_lt_iff, wave_lt_iff, hc, hc, hx, hx]
  exact ⟨Iff.rfl, Iff.rfl⟩

-- with "π = 3": the values at 1/12 and 1/6 of a turn
example : (fastCosSin (⟨3, id, id, id, id, fun _ _ => 0⟩ : Libm ℚ) (1 / 2)).2 < (fastCosSin (⟨3, id, id, id, id, fun _ _ => 0⟩ : Libm ℚ) 1).2 := by decide +kernel

end Verif.Functions
