import Verif.Geometry2.Model
import Verif.Functions.Props
import Mathlib.Analysis.SpecialFunctions.Complex.Arg
import Mathlib.Analysis.SpecialFunctions.Trigonometric.Bounds

/-! Property theorems C59, C75 and C76 (see properties.jsonl). -/
namespace Verif.Geometry2
open Verif Functions Spec Real

/-- The rotation of a vector by the angle `φ`. -/
noncomputable def rot (φ : ℝ) (p : V2 ℝ) : V2 ℝ := (cos φ * p.1 - sin φ * p.2, sin φ * p.1 + cos φ * p.2)

/-- The triple turns to the left: the second side is obtained turning the first one by an angle between 0 and π, up to the length. -/
def LeftTurn (p1 p2 p3 : V2 ℝ) : Prop := p2 ≠ p1 ∧ ∃ ρ φ : ℝ, 0 < ρ ∧ 0 < φ ∧ φ < π ∧ p3 - p1 = ρ • rot φ (p2 - p1)

/-- C59, orientation: antisymmetry, cyclic symmetry, invariance to rigid motions, sign. -/
theorem C59_ccw (p1 p2 p3 : V2 ℝ) : ccw p1 p3 p2 = -ccw p1 p2 p3 ∧ ccw p2 p3 p1 = ccw p1 p2 p3 ∧
    (∀ φ t, ccw (rot φ p1 + t) (rot φ p2 + t) (rot φ p3 + t) = ccw p1 p2 p3) ∧ (0 < ccw p1 p2 p3 ↔ LeftTurn p1 p2 p3) := by
  refine ⟨by unfold ccw; ring, by unfold ccw; ring, fun φ t => ?_, ?_⟩
  · have h := cos_sq_add_sin_sq φ
    unfold ccw rot
    simp only [Prod.fst_add, Prod.snd_add]
    have e : ((p2.1 - p1.1) * (p3.2 - p1.2) - (p2.2 - p1.2) * (p3.1 - p1.1)) * (cos φ ^ 2 + sin φ ^ 2) =
      ((p2.1 - p1.1) * (p3.2 - p1.2) - (p2.2 - p1.2) * (p3.1 - p1.1)) := by rw [h, mul_one]
    rw [← e]
    ring
  · constructor
    · intro h
      have hne : p2 ≠ p1 := by
        rintro rfl
        unfold ccw at h
        simp at h
      refine ⟨hne, ?_⟩
      set u : ℂ := ⟨p2.1 - p1.1, p2.2 - p1.2⟩ with hu
      set w : ℂ := ⟨p3.1 - p1.1, p3.2 - p1.2⟩ with hw
      have hu0 : u ≠ 0 := by
        intro h0
        apply hne
        have h1 := congrArg Complex.re h0
        have h2 := congrArg Complex.im h0
        simp only [hu, Complex.zero_re, Complex.zero_im] at h1 h2
        exact Prod.ext (by linarith) (by linarith)
      have him : 0 < (w / u).im := by
        rw [Complex.div_im]
        have hn : 0 < Complex.normSq u := Complex.normSq_pos.2 hu0
        have e : w.im * u.re / Complex.normSq u - w.re * u.im / Complex.normSq u = ccw p1 p2 p3 / Complex.normSq u := by
          unfold ccw
          rw [hu, hw]
          ring
        rw [e]
        exact div_pos h hn
      have hz : w / u ≠ 0 := by
        intro h0
        rw [h0] at him
        simp at him
      have harg := Complex.arg_mem_Ioc (w / u)
      have hargpos : 0 < (w / u).arg := by
        rcases lt_or_eq_of_le (Complex.arg_nonneg_iff.2 him.le) with h | h
        · exact h
        · exfalso
          have := Complex.arg_eq_zero_iff.1 h.symm
          rw [this.2] at him
          exact lt_irrefl _ him
      have hargpi : (w / u).arg < π := by
        rcases lt_or_eq_of_le harg.2 with h | h
        · exact h
        · exfalso
          have := (Complex.arg_eq_pi_iff.1 h).2
          rw [this] at him
          exact lt_irrefl _ him
      refine ⟨‖w / u‖, (w / u).arg, norm_pos_iff.2 hz, hargpos, hargpi, ?_⟩
      have e : w = (w / u) * u := (div_mul_cancel₀ w hu0).symm
      have h1 : ‖w / u‖ * cos (w / u).arg = (w / u).re := Complex.norm_mul_cos_arg _
      have h2 : ‖w / u‖ * sin (w / u).arg = (w / u).im := Complex.norm_mul_sin_arg _
      have e1 := congrArg Complex.re e
      have e2 := congrArg Complex.im e
      rw [Complex.mul_re, ← h1, ← h2] at e1
      rw [Complex.mul_im, ← h1, ← h2] at e2
      simp only [hu, hw] at e1 e2
      unfold rot
      refine Prod.ext ?_ ?_
      · simp only [Prod.fst_sub, Prod.snd_sub, Prod.smul_fst, smul_eq_mul]
        rw [e1]
        ring
      · simp only [Prod.fst_sub, Prod.snd_sub, Prod.smul_snd, smul_eq_mul]
        rw [e2]
        ring
    · rintro ⟨hne, ρ, φ, hρ, h0, h1, h⟩
      have a := congrArg Prod.fst h
      have b := congrArg Prod.snd h
      simp only [Prod.fst_sub, Prod.snd_sub, Prod.smul_fst, Prod.smul_snd, smul_eq_mul, rot] at a b
      unfold ccw
      rw [a, b]
      have hs := sin_pos_of_pos_of_lt_pi h0 h1
      have e : (p2.1 - p1.1) * (ρ * (sin φ * (p2.1 - p1.1) + cos φ * (p2.2 - p1.2))) - (p2.2 - p1.2) * (ρ * (cos φ * (p2.1 - p1.1) - sin φ * (p2.2 - p1.2))) =
          ρ * sin φ * ((p2.1 - p1.1) ^ 2 + (p2.2 - p1.2) ^ 2) := by ring
      rw [e]
      have hd : 0 < (p2.1 - p1.1) ^ 2 + (p2.2 - p1.2) ^ 2 := by
        by_contra hc
        have h2 : (p2.1 - p1.1) ^ 2 = 0 := by nlinarith [sq_nonneg (p2.1 - p1.1), sq_nonneg (p2.2 - p1.2)]
        have h3 : (p2.2 - p1.2) ^ 2 = 0 := by nlinarith [sq_nonneg (p2.1 - p1.1), sq_nonneg (p2.2 - p1.2)]
        exact hne (Prod.ext (sub_eq_zero.1 (pow_eq_zero_iff two_ne_zero |>.1 h2)) (sub_eq_zero.1 (pow_eq_zero_iff two_ne_zero |>.1 h3)))
      positivity

example : ccw ((0, 0) : V2 ℚ) (2, 0) (1, 3) = 6 := by decide +kernel

/-- The area of a triangle with a side on the first axis. -/
def baseArea (b h : ℚ) : ℚ := b * h / 2

/-- The documentation says that ccw returns the signed area; it returns twice the area. -/
theorem C59_area_violated : (∀ b h : ℚ, ccw (0, 0) (b, 0) (0, h) = 2 * baseArea b h) ∧ ccw ((0, 0) : V2 ℚ) (1, 0) (0, 1) ≠ baseArea 1 1 := by
  refine ⟨fun b h => by unfold ccw baseArea; ring, by decide +kernel⟩

/-- The angle `a` is met going counter-clockwise from `b`, included, to `e`; the turn is `t`; the end is met if `closed`. -/
def Met (t : ℝ) (closed : Bool) (a b e : ℝ) : Prop := ∃ δ w, 0 ≤ δ ∧ 0 ≤ w ∧ w < t ∧ SameAngle t e (b + w) ∧ SameAngle t a (b + δ) ∧
  (δ < w ∨ closed = true ∧ δ = w)

/-- C59 for the angle intervals, with turn `t`. -/
def C59_angles (t : ℝ) : Prop := ∀ a b e : ℝ, (insideAngleInterval a b e = true ↔ Met t false a b e) ∧ (insideAngleIntervalEq a b e = true ↔ Met t true a b e)

/-- The full statement of C59: the orientation predicate (C59_ccw) and the angle intervals with the turn 2π. -/
def C59_statement : Prop := (∀ p1 p2 p3 : V2 ℝ, 0 < ccw p1 p2 p3 ↔ LeftTurn p1 p2 p3) ∧ C59_angles (2 * π)

theorem sameAngle_norm {t : ℝ} (ht : 0 < t) {x b δ : ℝ} (h : SameAngle t x (b + δ)) (h0 : 0 ≤ δ) (h1 : δ < t) :
    x - b - t * ⌊(x - b) / t⌋ = δ := by
  obtain ⟨m, hm⟩ := h
  have e : (x - b) / t = δ / t + m := by
    field_simp
    linarith
  have : ⌊(x - b) / t⌋ = m := by
    rw [e, Int.floor_add_intCast, Int.floor_eq_zero_iff.2 ⟨div_nonneg h0 ht.le, by rwa [div_lt_one ht]⟩, zero_add]
  rw [this]
  linarith

/-- C59, angle intervals: correct for the turn K_2PI of the code. Missing for C59: K_2PI is not 2π. -/
theorem C59_angles_partial : C59_angles (13176795 / 2 ^ 21) := by
  intro a b e
  have ht : (0 : ℝ) < 13176795 / 2 ^ 21 := by norm_num
  have hk : (k2pif : ℝ) = 13176795 / 2 ^ 21 := by unfold k2pif; norm_num
  unfold insideAngleInterval insideAngleIntervalEq normalizeAngle2Pi
  rw [decide_eq_true_eq, decide_eq_true_eq, hk]
  generalize (13176795 / 2 ^ 21 : ℝ) = t at ht
  obtain ⟨e1, e2, me, e3⟩ := norm_mem ht (e - b)
  obtain ⟨a1, a2, ma, a3⟩ := norm_mem ht (a - b)
  have he : SameAngle t e (b + (e - b - t * ⌊(e - b) / t⌋)) := ⟨me, by linarith⟩
  have ha : SameAngle t a (b + (a - b - t * ⌊(a - b) / t⌋)) := ⟨ma, by linarith⟩
  constructor
  · constructor
    · intro h
      exact ⟨_, _, a1, e1, e2, he, ha, Or.inl h⟩
    · rintro ⟨δ, w, h1, h2, h3, h4, h5, h6 | h6⟩
      · rw [sameAngle_norm ht h4 h2 h3, sameAngle_norm ht h5 h1 (by linarith)]
        exact h6
      · cases h6.1
  · constructor
    · intro h
      rcases lt_or_eq_of_le h with h | h
      · exact ⟨_, _, a1, e1, e2, he, ha, Or.inl h⟩
      · exact ⟨_, _, a1, e1, e2, he, ha, Or.inr ⟨rfl, h⟩⟩
    · rintro ⟨δ, w, h1, h2, h3, h4, h5, h6⟩
      have h7 : δ ≤ w := by
        rcases h6 with h6 | h6
        · exact h6.le
        · exact h6.2.le
      rw [sameAngle_norm ht h4 h2 h3, sameAngle_norm ht h5 h1 (by linarith)]
      exact h7

-- 6.5 is met going from 6 to 1, 2 is not
example : insideAngleInterval (13 / 2 : ℚ) 6 1 = true ∧ insideAngleInterval (2 : ℚ) 6 1 = false := by decide +kernel
example : insideAngleIntervalEq (1 : ℚ) 6 1 = true ∧ insideAngleInterval (1 : ℚ) 6 1 = false := by decide +kernel

/-- With the turn 2π it fails: 2π is the same angle as 0, which is met going from 0 to 1. -/
theorem C59_turn_violated : insideAngleInterval (2 * π) 0 1 = false ∧ Met (2 * π) false (2 * π) 0 1 := by
  have hp : 3 < π := pi_gt_three
  constructor
  · unfold insideAngleInterval
    rw [decide_eq_false_iff_not, sub_zero, sub_zero, C51_range_violated.2]
    have h1 : normalizeAngle2Pi (1 : ℝ) = 1 := by
      unfold normalizeAngle2Pi
      have : ⌊(1 : ℝ) / k2pif⌋ = 0 := by
        rw [Int.floor_eq_zero_iff]
        unfold k2pif
        constructor <;> norm_num
      rw [this]
      simp
    rw [h1]
    linarith
  · exact ⟨0, 1, le_refl _, by norm_num, by linarith, ⟨0, by simp⟩, ⟨1, by simp⟩, Or.inl (by norm_num)⟩

theorem C59_violated : ¬ C59_statement := fun h => by
  have := ((h.2 (2 * π) 0 1).1).2 C59_turn_violated.2
  rw [C59_turn_violated.1] at this
  cases this

/-- The documented interval [b, b + turn] has nothing inside. -/
theorem C59_full_turn_violated (a b : ℝ) : insideAngleInterval a b (b + k2pif) = false := by
  have ht : (0 : ℝ) < k2pif := by unfold k2pif; norm_num
  unfold insideAngleInterval
  rw [decide_eq_false_iff_not, not_lt]
  have : normalizeAngle2Pi (b + k2pif - b : ℝ) = 0 := by
    unfold normalizeAngle2Pi
    rw [add_sub_cancel_left, div_self ht.ne']
    simp
  rw [this]
  exact (norm_mem ht (a - b)).1

/-- C59, cone test: for a vector at angle δ from the begin, and an end at angle w, the test is 0 < δ < w if w ≤ π and δ ≤ w otherwise: the
limits are excluded in the first case and included in the second. -/
theorem C59_cone (b : V2 ℝ) (hb : b ≠ 0) {r w ρ δ : ℝ} (hr : 0 < r) (hρ : 0 < ρ) (w0 : 0 ≤ w) (w1 : w < 2 * π) (d0 : 0 ≤ δ) (d1 : δ < 2 * π) :
    insideCone (ρ • rot δ b).1 (ρ • rot δ b).2 b (r • rot w b) = true ↔ if w ≤ π then 0 < δ ∧ δ < w else δ ≤ w := by
  have hn : 0 < b.1 ^ 2 + b.2 ^ 2 := by
    by_contra hc
    have h2 : b.1 ^ 2 = 0 := by nlinarith [sq_nonneg b.1, sq_nonneg b.2]
    have h3 : b.2 ^ 2 = 0 := by nlinarith [sq_nonneg b.1, sq_nonneg b.2]
    exact hb (Prod.ext (pow_eq_zero_iff two_ne_zero |>.1 h2) (pow_eq_zero_iff two_ne_zero |>.1 h3))
  have c1 : b.1 * (r • rot w b).2 - (r • rot w b).1 * b.2 = (b.1 ^ 2 + b.2 ^ 2) * r * sin w := by
    simp only [rot, Prod.smul_fst, Prod.smul_snd, smul_eq_mul]
    ring
  have c2 : b.1 * (ρ • rot δ b).2 - b.2 * (ρ • rot δ b).1 = (b.1 ^ 2 + b.2 ^ 2) * ρ * sin δ := by
    simp only [rot, Prod.smul_fst, Prod.smul_snd, smul_eq_mul]
    ring
  have c3 : -(r • rot w b).1 * (ρ • rot δ b).2 + (r • rot w b).2 * (ρ • rot δ b).1 = (b.1 ^ 2 + b.2 ^ 2) * r * ρ * sin (w - δ) := by
    rw [sin_sub]
    simp only [rot, Prod.smul_fst, Prod.smul_snd, smul_eq_mul]
    ring
  unfold insideCone
  dsimp only
  rw [c1, c2, c3]
  have m1 : 0 < (b.1 ^ 2 + b.2 ^ 2) * r := mul_pos hn hr
  have m2 : 0 < (b.1 ^ 2 + b.2 ^ 2) * ρ := mul_pos hn hρ
  have m3 : 0 < (b.1 ^ 2 + b.2 ^ 2) * r * ρ := mul_pos m1 hρ
  by_cases hw : w ≤ π
  · have hs : 0 ≤ sin w := sin_nonneg_of_nonneg_of_le_pi w0 hw
    rw [if_neg (not_lt.2 (mul_nonneg m1.le hs)), if_pos hw, Bool.and_eq_true, decide_eq_true_eq, decide_eq_true_eq, gt_iff_lt, gt_iff_lt,
      mul_pos_iff_of_pos_left m3, mul_pos_iff_of_pos_left m2]
    constructor
    · rintro ⟨h1, h2⟩
      have a1 : 0 < δ := by
        rcases lt_or_eq_of_le d0 with h | h
        · exact h
        · rw [← h, sin_zero] at h2; exact absurd h2 (lt_irrefl _)
      have a2 : δ < π := by
        by_contra h
        have h := not_lt.1 h
        have := sin_nonneg_of_nonneg_of_le_pi (x := δ - π) (by linarith) (by linarith)
        rw [sin_sub_pi] at this
        linarith
      refine ⟨a1, ?_⟩
      by_contra h
      have := sin_nonpos_of_nonpos_of_neg_pi_le (x := w - δ) (by linarith) (by linarith)
      linarith
    · rintro ⟨h1, h2⟩
      exact ⟨sin_pos_of_pos_of_lt_pi (by linarith) (by linarith), sin_pos_of_pos_of_lt_pi h1 (by linarith)⟩
  · have hw' := not_le.1 hw
    have hs : sin w < 0 := by
      have := sin_pos_of_pos_of_lt_pi (x := w - π) (by linarith) (by linarith)
      rw [sin_sub_pi] at this
      linarith
    rw [if_pos (mul_neg_of_pos_of_neg m1 hs), if_neg hw, Bool.not_eq_true', Bool.and_eq_false_iff, decide_eq_false_iff_not, decide_eq_false_iff_not,
      gt_iff_lt, gt_iff_lt, ← mul_neg, ← mul_neg, mul_pos_iff_of_pos_left m3, mul_pos_iff_of_pos_left m2]
    constructor
    · intro h
      by_contra hc
      have hc := not_le.1 hc
      have h1 := sin_neg_of_neg_of_neg_pi_lt (x := w - δ) (by linarith) (by linarith)
      have h2 := sin_pos_of_pos_of_lt_pi (x := δ - π) (by linarith) (by linarith)
      rw [sin_sub_pi] at h2
      rcases h with h | h
      · exact h (by linarith)
      · exact h (by linarith)
    · intro h
      rcases le_or_gt δ π with h1 | h1
      · right
        have := sin_nonneg_of_nonneg_of_le_pi d0 h1
        linarith
      · left
        have := sin_nonneg_of_nonneg_of_le_pi (x := w - δ) (by linarith) (by linarith)
        linarith

-- (1, 1) is between the axes; (1, 0) is not between the axes, but is between the second and the first axis
example : insideCone (1 : ℚ) 1 (1, 0) (0, 1) = true ∧ insideCone (1 : ℚ) 0 (1, 0) (0, 1) = false ∧ insideCone (1 : ℚ) 0 (0, 1) (1, 0) = true := by
  decide +kernel

/-- C76: the transformation of a pose rotates and translates; it preserves distances and orientation. -/
theorem C76_pose (x y θ : ℝ) (p q s : V2 ℝ) : (poseToIsometry2 real x y θ).apply p = rot θ p + (x, y) ∧
    ((((poseToIsometry2 real x y θ).apply p).1 - ((poseToIsometry2 real x y θ).apply q).1) ^ 2 +
      (((poseToIsometry2 real x y θ).apply p).2 - ((poseToIsometry2 real x y θ).apply q).2) ^ 2 = (p.1 - q.1) ^ 2 + (p.2 - q.2) ^ 2) ∧
    ccw ((poseToIsometry2 real x y θ).apply p) ((poseToIsometry2 real x y θ).apply q) ((poseToIsometry2 real x y θ).apply s) = ccw p q s := by
  have h : ∀ p : V2 ℝ, (poseToIsometry2 real x y θ).apply p = rot θ p + (x, y) := by
    intro p
    unfold poseToIsometry2 T2.prerotate T2.pretranslate T2.apply T2.id rot
    show _ = ((cos θ * p.1 - sin θ * p.2, sin θ * p.1 + cos θ * p.2) : V2 ℝ) + (x, y)
    have hc : real.cos θ = cos θ := rfl
    have hs : real.sin θ = sin θ := rfl
    refine Prod.ext ?_ ?_ <;> simp only [hc, hs, Prod.fst_add, Prod.snd_add] <;> ring
  refine ⟨h p, ?_, ?_⟩
  · rw [h, h]
    unfold rot
    simp only [Prod.fst_add, Prod.snd_add]
    have e := cos_sq_add_sin_sq θ
    have : ((p.1 - q.1) ^ 2 + (p.2 - q.2) ^ 2) * (cos θ ^ 2 + sin θ ^ 2) = (p.1 - q.1) ^ 2 + (p.2 - q.2) ^ 2 := by rw [e, mul_one]
    rw [← this]
    ring
  · rw [h, h, h]
    exact (C59_ccw p q s).2.2.1 θ (x, y)

/-- C76: the two steps of `poseToIsometry2` compose a rotation and a translation with any transformation. -/
theorem C76_compose (T : T2 ℝ) (θ : ℝ) (v p : V2 ℝ) : (T.prerotate real θ).apply p = rot θ (T.apply p) ∧ (T.pretranslate v).apply p = T.apply p + v := by
  have hc : real.cos θ = cos θ := rfl
  have hs : real.sin θ = sin θ := rfl
  constructor
  · unfold T2.prerotate T2.apply rot
    refine Prod.ext ?_ ?_ <;> simp only [hc, hs] <;> ring
  · unfold T2.pretranslate T2.apply
    refine Prod.ext ?_ ?_ <;> simp only [Prod.fst_add, Prod.snd_add] <;> ring

-- with "cos = 0, sin = 1": (1, 0) goes to (5, 6 + 1)
example : (poseToIsometry2 (⟨3, fun _ => 0, fun _ => 1, id, id, fun _ _ => 0⟩ : Libm ℚ) 5 6 1).apply (1, 0) = (5, 7) := by decide +kernel

/-- A loop that changes each component from its own old value. -/
theorem foldl_upd {T : Type} (f : (ℕ → T) → ℕ → T) (g : ℕ → T) (a : ℕ → T) (n : ℕ)
    (h : ∀ d < n, f (fun i => if i < d then g i else a i) d = g d) :
    (List.range n).foldl (fun a d => upd a d (f a d)) a = fun i => if i < n then g i else a i := by
  induction n with
  | zero => rfl
  | succ n ih =>
    rw [List.range_succ, List.foldl_append, ih fun d hd => h d (by omega)]
    show upd _ n _ = _
    rw [h n (by omega)]
    funext i
    unfold upd
    by_cases h1 : i = n
    · rw [if_pos h1, if_pos (by omega), h1]
    · rw [if_neg h1]
      dsimp only
      by_cases h2 : i < n
      · rw [if_pos h2, if_pos (by omega)]
      · rw [if_neg h2, if_neg (by omega)]

/-- C75 with the operands read on entry. -/
def C75_statement (T : Type) [Add T] [Mul T] : Prop := ∀ (dim : ℕ) (a : ℕ → T), ∀ d < dim,
  (∀ o, addAssign dim a o d = a d + o.vec a d) ∧ (∀ o, mulAssign dim a o d = a d * o.vec a d) ∧
  (∀ s, (∀ j, s = .comp j → j < dim) → scaleAssign dim a s d = a d * s.read a)

/-- C75: sum and product by an array, also by itself, and product by a scalar that is not a component other than the last.
Missing for C75: the scalar may be one of the other components. -/
theorem C75_operators_partial (T : Type) [Add T] [Mul T] (dim : ℕ) (a : ℕ → T) (d : ℕ) (hd : d < dim) :
    (∀ o, addAssign dim a o d = a d + o.vec a d) ∧ (∀ o, mulAssign dim a o d = a d * o.vec a d) ∧
    (∀ s, (∀ j, s = .comp j → j + 1 = dim) → scaleAssign dim a s d = a d * s.read a) := by
  refine ⟨fun o => ?_, fun o => ?_, fun s hs => ?_⟩
  · unfold addAssign
    rw [foldl_upd (fun a d => a d + o.vec a d) (fun d => a d + o.vec a d)]
    · exact if_pos hd
    · intro e he
      dsimp only
      cases o with
      | other b => simp only [Arg.vec]; rw [if_neg (lt_irrefl _)]
      | self => simp only [Arg.vec]; rw [if_neg (lt_irrefl _)]
  · unfold mulAssign
    rw [foldl_upd (fun a d => a d * o.vec a d) (fun d => a d * o.vec a d)]
    · exact if_pos hd
    · intro e he
      dsimp only
      cases o with
      | other b => simp only [Arg.vec]; rw [if_neg (lt_irrefl _)]
      | self => simp only [Arg.vec]; rw [if_neg (lt_irrefl _)]
  · unfold scaleAssign
    rw [foldl_upd (fun a d => a d * s.read a) (fun d => a d * s.read a)]
    · exact if_pos hd
    · intro e he
      dsimp only
      cases s with
      | other b => simp only [ScalarArg.read]; rw [if_neg (lt_irrefl _)]
      | comp j =>
        have := hs j rfl
        simp only [ScalarArg.read]
        rw [if_neg (lt_irrefl _), if_neg (by omega)]

example : [0, 1, 2].map (addAssign 3 (fun i => (i : ℤ) + 1) .self) = [2, 4, 6] := by decide +kernel
example : [0, 1, 2].map (mulAssign 3 (fun i => (i : ℤ) + 1) (.other fun i => 10 * (i : ℤ))) = [0, 20, 60] := by decide +kernel
example : [0, 1, 2].map (scaleAssign 2 (fun i => (i : ℤ) + 1) (.other 5)) = [5, 10, 3] := by decide +kernel

/-- `v *= v[0]` for v = (2, 3) gives (4, 12) instead of (4, 6). -/
theorem C75_alias_violated : [0, 1].map (scaleAssign 2 (fun i => (i : ℤ) + 2) (.comp 0)) = [4, 12] ∧ ¬ C75_statement ℤ := by
  refine ⟨by decide +kernel, fun h => ?_⟩
  have := (h 2 (fun i => (i : ℤ) + 2) 1 (by norm_num)).2.2 (.comp 0) (fun j hj => by cases hj; norm_num)
  revert this
  decide +kernel

end Verif.Geometry2
