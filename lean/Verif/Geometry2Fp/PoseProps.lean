import Verif.Geometry2Fp.PoseModel
import Verif.Geometry2.Props
import Verif.GisFp.Props
import Verif.TlsFp.Lemmas

/-! Property theorems C138 (see properties.jsonl). -/
namespace Verif.Geometry2Fp
open Ieee Fp Float.Model FunctionsFp Geometry2 Real

theorem zerof_x : zerof.x = .zero .positive := by decide +kernel

theorem onef_is : onef.Fin ∧ onef.val = 1 := by
  have e : onef.x = .finite .positive (2 ^ 23) (-23) (by norm_num) := by decide +kernel
  unfold Fp.Fin Fp.val
  rw [e]
  exact ⟨trivial, by norm_num [Ieee.val, sgn]⟩

/-- A product with the zero of a matrix. -/
theorem mul_zerof {a : Flt} (h : a.Fin) : ∃ s, (a * zerof).x = .zero s := by
  have e : (a * zerof).x = (ofU .binary32 (UnpackedFloat.mul .binary32 a.x zerof.x)).x := rfl
  rw [e, zerof_x]
  unfold Fp.Fin at h
  cases ha : a.x with
  | notANumber => rw [ha] at h; exact h.elim
  | infinity s => rw [ha] at h; exact h.elim
  | zero s => exact ⟨s * .positive, by rw [show UnpackedFloat.mul .binary32 (.zero s) (.zero .positive) = .zero (s * .positive) from rfl, ofU_repr (by trivial)]⟩
  | finite s m e hm =>
    exact ⟨s * .positive, by rw [show UnpackedFloat.mul .binary32 (.finite s m e hm) (.zero .positive) = .zero (s * .positive) from rfl, ofU_repr (by trivial)]⟩

/-- A product with the one of a matrix. -/
theorem mul_onef {a : Flt} (h : a.Fin) (h1 : |a.val| ≤ 2) : (a * onef).Fin ∧ (a * onef).val = a.val := by
  have e : a.val * onef.val = a.val := by rw [onef_is.2, mul_one]
  have := mul_exact h onef_is.1 (by
    rw [e]
    exact h1.trans (le_trans (by norm_num : (2 : ℝ) ≤ 2 ^ (1 : ℤ)) (two_pow_le (by decide)))) (by rw [e]; exact a.grid)
  rwa [e] at this

/-- A zero of either sign added to a number. -/
theorem zero_add {a b : Flt} {s : UnpackedFloat.Sign} (ha : a.x = .zero s) (hb : b.Fin) : (a + b).Fin ∧ (a + b).val = b.val := by
  have e : (a + b).x = (ofU .binary32 (UnpackedFloat.add .binary32 a.x b.x)).x := rfl
  unfold Fp.Fin Fp.val
  rw [e, ha]
  unfold Fp.Fin at hb
  have hr := b.repr
  cases h : b.x with
  | notANumber => rw [h] at hb; exact hb.elim
  | infinity t => rw [h] at hb; exact hb.elim
  | zero t => cases s <;> cases t <;> rw [show UnpackedFloat.add .binary32 _ _ = _ from rfl, ofU_repr (by trivial)] <;> exact ⟨trivial, rfl⟩
  | finite t m e hm =>
    rw [h] at hr
    rw [show UnpackedFloat.add .binary32 (.zero s) (.finite t m e hm) = .finite t m e hm from rfl, ofU_repr hr]
    exact ⟨trivial, rfl⟩

theorem add_zero {a b : Flt} {s : UnpackedFloat.Sign} (ha : a.x = .zero s) (hb : b.Fin) : (b + a).Fin ∧ (b + a).val = b.val := by
  have e : (b + a).x = (ofU .binary32 (UnpackedFloat.add .binary32 b.x a.x)).x := rfl
  unfold Fp.Fin Fp.val
  rw [e, ha]
  unfold Fp.Fin at hb
  have hr := b.repr
  cases h : b.x with
  | notANumber => rw [h] at hb; exact hb.elim
  | infinity t => rw [h] at hb; exact hb.elim
  | zero t => cases s <;> cases t <;> rw [show UnpackedFloat.add .binary32 _ _ = _ from rfl, ofU_repr (by trivial)] <;> exact ⟨trivial, rfl⟩
  | finite t m e hm =>
    rw [h] at hr
    rw [show UnpackedFloat.add .binary32 (.finite t m e hm) (.zero s) = .finite t m e hm from rfl, ofU_repr hr]
    exact ⟨trivial, rfl⟩

/-- The transformation has finite coefficients with the given values. -/
def Holds (T : T2 Flt) (c s x y : ℝ) : Prop :=
  (T.l00.Fin ∧ T.l00.val = c) ∧ (T.l01.Fin ∧ T.l01.val = -s) ∧ (T.l10.Fin ∧ T.l10.val = s) ∧ (T.l11.Fin ∧ T.l11.val = c) ∧ (T.t0.Fin ∧ T.t0.val = x) ∧ (T.t1.Fin ∧ T.t1.val = y)

/-- C138, the coefficients: whatever the results of `cos` and `sin`, the matrix holds exactly them and the translation exactly the position. -/
theorem C138_matrix (L : Trigf) {x y theta : Flt} (hx : x.Fin) (hy : y.Fin) (hc : (L.cos theta).Fin ∧ |(L.cos theta).val| ≤ 2) (hs : (L.sin theta).Fin ∧ |(L.sin theta).val| ≤ 2) :
    Holds (poseToIsometry2 L x y theta) (L.cos theta).val (L.sin theta).val x.val y.val := by
  unfold poseToIsometry2 prerotate pretranslate identity Holds
  simp only
  generalize L.cos theta = c at *
  generalize L.sin theta = s at *
  have hn : (-s).Fin ∧ |(-s).val| ≤ 2 := ⟨neg_fin.2 hs.1, by rw [neg_val, abs_neg]; exact hs.2⟩
  obtain ⟨_, c0⟩ := mul_zerof hc.1
  obtain ⟨_, s0⟩ := mul_zerof hs.1
  obtain ⟨_, n0⟩ := mul_zerof hn.1
  have c1 := mul_onef hc.1 hc.2
  have s1 := mul_onef hs.1 hs.2
  have n1 := mul_onef hn.1 hn.2
  have z : ∀ {a b : Flt} {p q : UnpackedFloat.Sign}, a.x = .zero p → b.x = .zero q → ∃ r, (a + b).x = .zero r := by
    intro a b p q ha hb
    have e : (a + b).x = (ofU .binary32 (UnpackedFloat.add .binary32 a.x b.x)).x := rfl
    rw [e, ha, hb]
    cases p <;> cases q <;> exact ⟨_, by rw [show UnpackedFloat.add .binary32 _ _ = _ from rfl, ofU_repr (by trivial)]; rfl⟩
  obtain ⟨_, z0⟩ := z c0 n0
  obtain ⟨_, z1⟩ := z s0 c0
  have a00 := add_zero n0 c1.1
  have a01 := zero_add c0 n1.1
  have a10 := add_zero c0 s1.1
  have a11 := zero_add s0 c1.1
  exact ⟨⟨a00.1, a00.2.trans c1.2⟩, ⟨a01.1, a01.2.trans (n1.2.trans (neg_val s))⟩, ⟨a10.1, a10.2.trans s1.2⟩, ⟨a11.1, a11.2.trans c1.2⟩, zero_add z0 hx, zero_add z1 hy⟩

/-- The exact map of a transformation. -/
noncomputable def act (T : T2 Flt) (p : ℝ × ℝ) : ℝ × ℝ := (T.l00.val * p.1 + T.l01.val * p.2 + T.t0.val, T.l10.val * p.1 + T.l11.val * p.2 + T.t1.val)

/-- The squared distance. -/
def dist2 (p q : ℝ × ℝ) : ℝ := (p.1 - q.1) ^ 2 + (p.2 - q.2) ^ 2

/-- The assumption on the C library: for all finite angles, errors up to 2^-23 of the results (a unit in the last place) and 2^-100. -/
structure Accuratef (L : Trigf) : Prop where
  cos : ∀ y : Flt, y.Fin → Approx (L.cos y) (Real.cos y.val) (|Real.cos y.val| / 2 ^ 23 + 1 / 2 ^ 100)
  sin : ∀ y : Flt, y.Fin → Approx (L.sin y) (Real.sin y.val) (|Real.sin y.val| / 2 ^ 23 + 1 / 2 ^ 100)

/-- C138: the map of the transformation is the rotation by the angle followed by the translation: the distances and the areas are preserved. -/
def C138_statement : Prop := ∀ L : Trigf, Accuratef L → ∀ x y theta : Flt, x.Fin → y.Fin → theta.Fin → ∀ p q : ℝ × ℝ,
  dist2 (act (poseToIsometry2 L x y theta) p) (act (poseToIsometry2 L x y theta) q) = dist2 p q

theorem lib_two {a : Flt} {v : ℝ} (h : Approx a v (|v| / 2 ^ 23 + 1 / 2 ^ 100)) (hv : |v| ≤ 1) : |a.val| ≤ 2 := by
  have := h.abs_le hv
  norm_num at *
  linarith

/-- What the transformation does, in terms of the coefficients. -/
theorem Holds.act {T : T2 Flt} {c s x y : ℝ} (h : Holds T c s x y) (p : ℝ × ℝ) : act T p = (c * p.1 - s * p.2 + x, s * p.1 + c * p.2 + y) := by
  obtain ⟨⟨-, h1⟩, ⟨-, h2⟩, ⟨-, h3⟩, ⟨-, h4⟩, ⟨-, h5⟩, -, h6⟩ := h
  unfold Geometry2Fp.act
  rw [h1, h2, h3, h4, h5, h6]
  ring_nf

theorem Holds.dist2 {T : T2 Flt} {c s x y : ℝ} (h : Holds T c s x y) (p q : ℝ × ℝ) : dist2 (Geometry2Fp.act T p) (Geometry2Fp.act T q) = (c ^ 2 + s ^ 2) * dist2 p q := by
  rw [h.act, h.act]
  unfold Geometry2Fp.dist2
  ring

theorem pose_holds {L : Trigf} (hL : Accuratef L) {x y theta : Flt} (hx : x.Fin) (hy : y.Fin) (ht : theta.Fin) :
    Holds (poseToIsometry2 L x y theta) (L.cos theta).val (L.sin theta).val x.val y.val :=
  C138_matrix L hx hy ⟨(hL.cos theta ht).1, lib_two (hL.cos theta ht) (abs_cos_le_one _)⟩ ⟨(hL.sin theta ht).1, lib_two (hL.sin theta ht) (abs_sin_le_one _)⟩

/-- The squares of the coefficients. -/
theorem norm_near {L : Trigf} (hL : Accuratef L) {theta : Flt} (ht : theta.Fin) : |(L.cos theta).val ^ 2 + (L.sin theta).val ^ 2 - 1| ≤ 1 / 2 ^ 21 := by
  have key : ∀ {a : Flt} {v : ℝ}, Approx a v (|v| / 2 ^ 23 + 1 / 2 ^ 100) → |v| ≤ 1 → |a.val ^ 2 - v ^ 2| ≤ 3 / 2 ^ 23 * v ^ 2 + 4 / 2 ^ 100 := by
    intro a v h hv
    have h1 := h.2
    have h0 := abs_nonneg v
    have h2 : |a.val + v| ≤ 2 * |v| + (|v| / 2 ^ 23 + 1 / 2 ^ 100) := by
      have : a.val + v = 2 * v + (a.val - v) := by ring
      rw [this]
      refine (abs_add_le _ _).trans (add_le_add ?_ h1)
      rw [abs_mul, abs_two]
    rw [show a.val ^ 2 - v ^ 2 = (a.val - v) * (a.val + v) by ring, abs_mul, ← sq_abs v]
    refine (mul_le_mul h1 h2 (abs_nonneg _) (by positivity)).trans ?_
    generalize |v| = w at *
    have h3 : (w / 2 ^ 23 + 1 / 2 ^ 100) * (2 * w + (w / 2 ^ 23 + 1 / 2 ^ 100)) = (2 / 2 ^ 23 + 1 / 2 ^ 46) * w ^ 2 + (2 * w + 2 * w / 2 ^ 23 + 1 / 2 ^ 100) * (1 / 2 ^ 100) := by ring
    have h4 := sq_nonneg w
    rw [h3]
    refine add_le_add (mul_le_mul_of_nonneg_right (by norm_num) h4) ?_
    refine (mul_le_mul_of_nonneg_right (show _ ≤ (4 : ℝ) by norm_num; linarith) (by positivity)).trans (le_of_eq (by ring))
  have a := key (hL.cos theta ht) (abs_cos_le_one _)
  have b := key (hL.sin theta ht) (abs_sin_le_one _)
  have e := sin_sq_add_cos_sq theta.val
  rw [show (L.cos theta).val ^ 2 + (L.sin theta).val ^ 2 - 1 = ((L.cos theta).val ^ 2 - cos theta.val ^ 2) + ((L.sin theta).val ^ 2 - sin theta.val ^ 2) by linarith]
  refine (abs_add_le _ _).trans ((add_le_add a b).trans ?_)
  have e' : cos theta.val ^ 2 = 1 - sin theta.val ^ 2 := by linarith
  rw [e', show 3 / 2 ^ 23 * (1 - sin theta.val ^ 2) + 4 / 2 ^ 100 + (3 / 2 ^ 23 * sin theta.val ^ 2 + 4 / 2 ^ 100) = (3 / 2 ^ 23 + 8 / 2 ^ 100 : ℝ) by ring]
  norm_num

/-- C138, part: the map is the rotation followed by the translation up to 2^-22 of the coordinates, the origin goes exactly to the position, squared distances are preserved up to
2^-21 of them, and so are the areas of the triangles with their orientation. Missing: the preservation of the distances, which is false (`C138_violated`). -/
theorem C138_pose_partial {L : Trigf} (hL : Accuratef L) {x y theta : Flt} (hx : x.Fin) (hy : y.Fin) (ht : theta.Fin) (p q r : ℝ × ℝ) :
    let f := act (poseToIsometry2 L x y theta)
    (|(f p).1 - (cos theta.val * p.1 - sin theta.val * p.2 + x.val)| ≤ (|p.1| + |p.2|) / 2 ^ 22 ∧ |(f p).2 - (sin theta.val * p.1 + cos theta.val * p.2 + y.val)| ≤ (|p.1| + |p.2|) / 2 ^ 22) ∧
    f (0, 0) = (x.val, y.val) ∧ |dist2 (f p) (f q) - dist2 p q| ≤ dist2 p q / 2 ^ 21 ∧
    |Geometry2.ccw (f p) (f q) (f r) - Geometry2.ccw p q r| ≤ |Geometry2.ccw p q r| / 2 ^ 21 ∧ (0 < Geometry2.ccw (f p) (f q) (f r) ↔ 0 < Geometry2.ccw p q r) := by
  have h := pose_holds hL hx hy ht
  have hn := norm_near hL ht
  have hc := (hL.cos theta ht).2
  have hs := (hL.sin theta ht).2
  generalize poseToIsometry2 L x y theta = T at *
  generalize (L.cos theta).val = c at *
  generalize (L.sin theta).val = s at *
  have lin : ∀ {a b u v e f : ℝ}, |a - u| ≤ e → |b - v| ≤ f → e ≤ 1 / 2 ^ 22 → f ≤ 1 / 2 ^ 22 → ∀ m n : ℝ, |(a - u) * m + (b - v) * n| ≤ (|m| + |n|) / 2 ^ 22 := by
    intro a b u v e f h1 h2 h3 h4 m n
    refine (abs_add_le _ _).trans ?_
    rw [abs_mul, abs_mul, add_div]
    refine add_le_add ?_ ?_
    · refine (mul_le_mul_of_nonneg_right (h1.trans h3) (abs_nonneg _)).trans (le_of_eq (by ring))
    · refine (mul_le_mul_of_nonneg_right (h2.trans h4) (abs_nonneg _)).trans (le_of_eq (by ring))
  have c1 : |cos theta.val| / 2 ^ 23 + 1 / 2 ^ 100 ≤ 1 / 2 ^ 22 := by
    have := abs_cos_le_one theta.val
    norm_num
    linarith
  have s1 : |sin theta.val| / 2 ^ 23 + 1 / 2 ^ 100 ≤ 1 / 2 ^ 22 := by
    have := abs_sin_le_one theta.val
    norm_num
    linarith
  have hccw : Geometry2.ccw (act T p) (act T q) (act T r) = (c ^ 2 + s ^ 2) * Geometry2.ccw p q r := by
    rw [h.act, h.act, h.act]
    unfold Geometry2.ccw
    ring
  have hpos : 0 < c ^ 2 + s ^ 2 := by
    have := (_root_.abs_le.1 hn).1
    norm_num at this
    linarith
  intro f
  refine ⟨⟨?_, ?_⟩, ?_, ?_, ?_, ?_⟩
  · show |(act T p).1 - _| ≤ _
    rw [h.act]
    have := lin hc hs c1 s1 p.1 (-p.2)
    rw [abs_neg] at this
    rw [show c * p.1 - s * p.2 + x.val - (cos theta.val * p.1 - sin theta.val * p.2 + x.val) = (c - cos theta.val) * p.1 + (s - sin theta.val) * -p.2 by ring]
    exact this
  · show |(act T p).2 - _| ≤ _
    rw [h.act]
    rw [show s * p.1 + c * p.2 + y.val - (sin theta.val * p.1 + cos theta.val * p.2 + y.val) = (s - sin theta.val) * p.1 + (c - cos theta.val) * p.2 by ring]
    exact lin hs hc s1 c1 p.1 p.2
  · show act T (0, 0) = _
    rw [h.act]
    simp
  · show |dist2 (act T p) (act T q) - _| ≤ _
    have hd : 0 ≤ dist2 p q := by unfold dist2; positivity
    rw [h.dist2, show (c ^ 2 + s ^ 2) * dist2 p q - dist2 p q = (c ^ 2 + s ^ 2 - 1) * dist2 p q by ring, abs_mul, abs_of_nonneg hd]
    exact (mul_le_mul_of_nonneg_right hn hd).trans (le_of_eq (by ring))
  · show |Geometry2.ccw (act T p) (act T q) (act T r) - _| ≤ _
    rw [hccw, show (c ^ 2 + s ^ 2) * Geometry2.ccw p q r - Geometry2.ccw p q r = (c ^ 2 + s ^ 2 - 1) * Geometry2.ccw p q r by ring, abs_mul]
    exact (mul_le_mul_of_nonneg_right hn (abs_nonneg _)).trans (le_of_eq (by ring))
  · show 0 < Geometry2.ccw (act T p) (act T q) (act T r) ↔ _
    rw [hccw]
    exact mul_pos_iff_of_pos_left hpos

/-- A power of four is a sum of two squares only if one of them is zero. -/
theorem sum_sq_pow : ∀ (n : ℕ) (a b : ℤ), a ^ 2 + b ^ 2 = 4 ^ n → a = 0 ∨ b = 0
  | 0, a, b, h => by
    rw [pow_zero] at h
    by_contra hn
    push_neg at hn
    have h1 : 0 < a ^ 2 := sq_pos_of_ne_zero hn.1
    have h2 : 0 < b ^ 2 := sq_pos_of_ne_zero hn.2
    omega
  | n + 1, a, b, h => by
    have ha : a % 2 = 0 ∧ b % 2 = 0 := by
      have h4 : (a ^ 2 + b ^ 2) % 4 = 0 := by rw [h, pow_succ]; omega
      rcases Int.emod_two_eq_zero_or_one a with e | e <;> rcases Int.emod_two_eq_zero_or_one b with f | f
      · exact ⟨e, f⟩
      all_goals
        exfalso
        obtain ⟨m, hm⟩ : ∃ m, a = 2 * m + a % 2 := ⟨a / 2, by omega⟩
        obtain ⟨k, hk⟩ : ∃ k, b = 2 * k + b % 2 := ⟨b / 2, by omega⟩
        rw [e] at hm
        rw [f] at hk
        subst hm hk
        ring_nf at h4
        omega
    obtain ⟨m, rfl⟩ := Int.dvd_of_emod_eq_zero ha.1
    obtain ⟨k, rfl⟩ := Int.dvd_of_emod_eq_zero ha.2
    have : m ^ 2 + k ^ 2 = 4 ^ n := by rw [pow_succ (4 : ℤ) n] at h; linarith
    rcases sum_sq_pow n m k this with e | e
    · exact .inl (by rw [e]; rfl)
    · exact .inr (by rw [e]; rfl)

/-- Two numbers of type `float` with squares of sum one: one of them is zero. -/
theorem unit_dyadic {a b : Flt} (h : a.val ^ 2 + b.val ^ 2 = 1) : a.val = 0 ∨ b.val = 0 := by
  obtain ⟨m, hm⟩ := a.grid.multiple
  obtain ⟨k, hk⟩ := b.grid.multiple
  rw [show Format.binary32.minExponent = -149 by decide] at hm hk
  have h1 : ((m ^ 2 + k ^ 2 : ℤ) : ℝ) = ((4 ^ 149 : ℤ) : ℝ) := by
    rw [hm, hk] at h
    push_cast
    norm_num at h ⊢
    linarith
  rcases sum_sq_pow 149 m k (by exact_mod_cast h1) with e | e
  · exact .inl (by rw [hm, e]; simp)
  · exact .inr (by rw [hk, e]; simp)

/-- C138, for which angles: the distances are preserved only if the cosine or the sine computed by the library is zero. -/
theorem C138_isometry_iff (L : Trigf) {x y theta : Flt} (hx : x.Fin) (hy : y.Fin) (hc : (L.cos theta).Fin ∧ |(L.cos theta).val| ≤ 2) (hs : (L.sin theta).Fin ∧ |(L.sin theta).val| ≤ 2) :
    (∀ p q, dist2 (act (poseToIsometry2 L x y theta) p) (act (poseToIsometry2 L x y theta) q) = dist2 p q) ↔
      ((L.cos theta).val = 0 ∧ |(L.sin theta).val| = 1) ∨ (|(L.cos theta).val| = 1 ∧ (L.sin theta).val = 0) := by
  have h := C138_matrix L hx hy hc hs
  have e : (∀ p q, dist2 (act (poseToIsometry2 L x y theta) p) (act (poseToIsometry2 L x y theta) q) = dist2 p q) ↔ (L.cos theta).val ^ 2 + (L.sin theta).val ^ 2 = 1 := by
    constructor
    · intro hp
      have := hp (1, 0) (0, 0)
      rw [h.dist2] at this
      unfold dist2 at this
      norm_num at this
      exact this
    · intro hp p q
      rw [h.dist2, hp, one_mul]
  rw [e]
  constructor
  · intro h1
    rcases unit_dyadic h1 with h0 | h0
    · refine .inl ⟨h0, ?_⟩
      rw [h0] at h1
      rw [← sq_eq_sq₀ (abs_nonneg _) zero_le_one, sq_abs]
      linarith
    · refine .inr ⟨?_, h0⟩
      rw [h0] at h1
      rw [← sq_eq_sq₀ (abs_nonneg _) zero_le_one, sq_abs]
      linarith
  · rintro (⟨h0, h1⟩ | ⟨h1, h0⟩)
    · rw [h0, ← sq_abs (L.sin theta).val, h1]; norm_num
    · rw [h0, ← sq_abs (L.cos theta).val, h1]; norm_num

/-- C138 fails for every library and every angle with a cosine and a sine that are not tiny: the transformation is not an isometry. -/
theorem C138_angles_violated {L : Trigf} (hL : Accuratef L) {x y theta : Flt} (hx : x.Fin) (hy : y.Fin) (ht : theta.Fin) (hc : 1 / 2 ^ 90 ≤ |cos theta.val|) (hs : 1 / 2 ^ 90 ≤ |sin theta.val|) :
    ¬ ∀ p q, dist2 (act (poseToIsometry2 L x y theta) p) (act (poseToIsometry2 L x y theta) q) = dist2 p q := by
  have key : ∀ {a : Flt} {v : ℝ}, Approx a v (|v| / 2 ^ 23 + 1 / 2 ^ 100) → 1 / 2 ^ 90 ≤ |v| → a.val ≠ 0 := by
    intro a v h hv h0
    have h1 := h.2
    rw [h0, zero_sub, abs_neg] at h1
    norm_num at h1 hv
    linarith
  have c0 := key (hL.cos theta ht) hc
  have s0 := key (hL.sin theta ht) hs
  rw [C138_isometry_iff L hx hy ⟨(hL.cos theta ht).1, lib_two (hL.cos theta ht) (abs_cos_le_one _)⟩ ⟨(hL.sin theta ht).1, lib_two (hL.sin theta ht) (abs_sin_le_one _)⟩]
  rintro (h | h)
  · exact c0 h.1
  · exact s0 h.2

/-- There are libraries as required. -/
theorem accuratef_exists : ∃ L : Trigf, Accuratef L := by
  have kf : ∀ v : ℝ, ∃ a : Flt, |v| ≤ 1 → Approx a v (|v| / 2 ^ 23 + 1 / 2 ^ 100) := fun v => by
    by_cases h : |v| ≤ 1
    · obtain ⟨a, ha⟩ := GisFp.near_exists (spec := .binary32) (by decide) (by decide) (by decide) h
      refine ⟨a, fun _ => ha.weaken ?_⟩
      have : |v| / 2 ^ (Format.binary32.mantissaBits : ℤ) ≤ |v| / 2 ^ 23 := by
        rw [mb.2]
        exact div_le_div_of_nonneg_left (abs_nonneg v) (by norm_num) (by norm_num)
      linarith
    · exact ⟨0, fun h' => absurd h' h⟩
  choose gf hf using kf
  exact ⟨⟨fun y => gf (Real.cos y.val), fun y => gf (Real.sin y.val)⟩, fun _ _ => hf _ (abs_cos_le_one _), fun _ _ => hf _ (abs_sin_le_one _)⟩

/-- C138 fails: a pose with the angle 1. -/
theorem C138_violated : ¬ C138_statement := by
  intro h
  obtain ⟨L, hL⟩ := accuratef_exists
  have z : zerof.Fin := by unfold Fp.Fin; rw [zerof_x]; trivial
  refine C138_angles_violated hL z z onef_is.1 ?_ ?_ (h L hL zerof zerof onef z z onef_is.1)
  · rw [onef_is.2]
    have := cos_one_pos
    have := one_sub_sq_div_two_le_cos (x := 1)
    rw [abs_of_pos (by linarith)]
    norm_num at *
    linarith
  · rw [onef_is.2]
    have := sin_gt_sub_cube (x := 1) (by norm_num)
    rw [abs_of_pos (by norm_num at *; linarith)]
    norm_num at *
    linarith

/-- C138 with an angle that is not a number (`cos` and `sin` return NaN, as they do for an infinite one): all the coefficients are NaN, also those of the translation. -/
theorem C138_nan (L : Trigf) (x y : Flt) {theta : Flt} (hc : (L.cos theta).NaN) (hs : (L.sin theta).NaN) : let T := poseToIsometry2 L x y theta
    T.l00.NaN ∧ T.l01.NaN ∧ T.l10.NaN ∧ T.l11.NaN ∧ T.t0.NaN ∧ T.t1.NaN :=
  ⟨NaN.add (.inl (NaN.mul (.inl hc))), NaN.add (.inl (NaN.mul (.inl hc))), NaN.add (.inl (NaN.mul (.inl hs))), NaN.add (.inl (NaN.mul (.inl hs))),
    NaN.add (.inl (NaN.add (.inl (NaN.mul (.inl hc))))), NaN.add (.inl (NaN.add (.inl (NaN.mul (.inl hs)))))⟩

-- the pose (5, 6) with a cosine 0.6 and a sine 0.8 rounded to `float`: the coefficients
example : Holds (poseToIsometry2 ⟨fun _ => narrow (d 6 1), fun _ => narrow (d 8 1)⟩ (narrow (d 50 1)) (narrow (d 60 1)) onef) (10066330 / 2 ^ 24) (13421773 / 2 ^ 24) 5 6 := by
  have v1 := val_finite (a := narrow (d 6 1)) (s := .positive) (m := 10066330) (e := -24) (h := by decide) (by decide +kernel)
  have v2 := val_finite (a := narrow (d 8 1)) (s := .positive) (m := 13421773) (e := -24) (h := by decide) (by decide +kernel)
  have v3 := val_finite (a := narrow (d 50 1)) (s := .positive) (m := 10485760) (e := -21) (h := by decide) (by decide +kernel)
  have v4 := val_finite (a := narrow (d 60 1)) (s := .positive) (m := 12582912) (e := -21) (h := by decide) (by decide +kernel)
  have h := C138_matrix ⟨fun _ => narrow (d 6 1), fun _ => narrow (d 8 1)⟩ (theta := onef) v3.1 v4.1 ⟨v1.1, by rw [v1.2]; norm_num [sgn]⟩ ⟨v2.1, by rw [v2.2]; norm_num [sgn]⟩
  simp only [v1.2, v2.2, v3.2, v4.2] at h
  norm_num [sgn] at h ⊢
  exact h

/-- C138 for the overload with a vector: its coefficients are the position and the angle in this order. -/
theorem C138_vector (L : Trigf) {p : Flt × Flt × Flt} (hx : p.1.Fin) (hy : p.2.1.Fin) (hc : (L.cos p.2.2).Fin ∧ |(L.cos p.2.2).val| ≤ 2)
    (hs : (L.sin p.2.2).Fin ∧ |(L.sin p.2.2).val| ≤ 2) :
    Holds (poseToIsometry2v L p) (L.cos p.2.2).val (L.sin p.2.2).val p.1.val p.2.1.val := C138_matrix L hx hy hc hs

end Verif.Geometry2Fp
