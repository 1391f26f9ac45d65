import Verif.Functions.Props

/-! Property theorem C145 (see properties.jsonl): what branch and bound needs of `findLUCos` and `findLUFourier`. -/
namespace Verif.Functions
open Real Spec

/-- Amplitude of the harmonic `k`. -/
noncomputable def amp (c : Vec ℝ) (k : ℕ) : ℝ := √(c.val (2 * k) * c.val (2 * k) + c.val (2 * k + 1) * c.val (2 * k + 1))

/-- The bounds of the harmonic `k`. -/
noncomputable def harmonic (c : Vec ℝ) (t0 t1 : ℝ) (k : ℕ) : ℝ × ℝ :=
  findLUCos real (2 * k * t0 - real.atan2 (c.val (2 * k + 1)) (c.val (2 * k))) (2 * k * t1 - real.atan2 (c.val (2 * k + 1)) (c.val (2 * k)))

theorem luFourierLoop_sum (c : Vec ℝ) (t0 t1 : ℝ) (h' : c.len ≤ 2 ^ 31) (m k : ℕ) (h : 2 * (k + m) ≤ c.len) (lo hi : ℝ) :
    luFourierLoop real c t0 t1 m k lo hi = .ok (lo + ∑ i ∈ Finset.range m, amp c (k + i) * (harmonic c t0 t1 (k + i)).1,
      hi + ∑ i ∈ Finset.range m, amp c (k + i) * (harmonic c t0 t1 (k + i)).2) := by
  induction m generalizing k lo hi with
  | zero => simp [luFourierLoop]
  | succ m ih =>
    obtain ⟨g1, g2, g3, g4⟩ := get_two (c := c) (k := k) (by omega) h'
    simp only [luFourierLoop, g1, g2, g3, g4, bind_ok]
    have e : ((k : ℤ) + 1) = ((k + 1 : ℕ) : ℤ) := by push_cast; rfl
    rw [e, ih (k + 1) (by omega)]
    rw [Finset.sum_range_succ', Finset.sum_range_succ', Nat.add_zero]
    simp only [Nat.add_right_comm k _ 1, ← Nat.add_assoc]
    have e2 : (((2 * (k : ℤ) : ℤ)) : ℝ) = 2 * (k : ℝ) := by push_cast; rfl
    rw [e2]
    have e3 : real.sqrt (c.val (2 * k) * c.val (2 * k) + c.val (2 * k + 1) * c.val (2 * k + 1)) = amp c k := rfl
    have e4 : findLUCos real (2 * k * t0 - real.atan2 (c.val (2 * k + 1)) (c.val (2 * k))) (2 * k * t1 - real.atan2 (c.val (2 * k + 1)) (c.val (2 * k))) =
      harmonic c t0 t1 k := rfl
    rw [e3, e4, add_assoc lo, add_assoc hi, add_comm (amp c k * _), add_comm (amp c k * _)]
    rfl

/-- The result in closed form. -/
theorem findLUFourier_sum (c : Vec ℝ) (t0 t1 : ℝ) (h : 1 < c.len) (h' : c.len ≤ 2 ^ 31) :
    findLUFourier real c t0 t1 = .ok (c.val 0 + ∑ i ∈ Finset.range (c.len / 2 - 1), amp c (1 + i) * (harmonic c (min t0 t1) (max t0 t1) (1 + i)).1,
      c.val 0 + ∑ i ∈ Finset.range (c.len / 2 - 1), amp c (1 + i) * (harmonic c (min t0 t1) (max t0 t1) (1 + i)).2) := by
  unfold findLUFourier
  dsimp only
  rw [fourierOrder_eq h', show ((c.len / 2 : ℕ) - 1 : ℤ).toNat = c.len / 2 - 1 by omega, show c.get 0 = .ok (c.val 0) from c.get_nat (i := 0) (by omega), bind_ok]
  exact luFourierLoop_sum c _ _ h' (c.len / 2 - 1) 1 (by omega) _ _

/-- C145, cosine: a part of an interval has narrower bounds, and the bounds are no further apart than the ends of the interval. -/
theorem C145_cos (a b a' b' : ℝ) (h : Set.uIcc a b ⊆ Set.uIcc a' b') :
    (findLUCos real a' b').1 ≤ (findLUCos real a b).1 ∧ (findLUCos real a b).2 ≤ (findLUCos real a' b').2 ∧
      (findLUCos real a b).1 ≤ (findLUCos real a b).2 ∧ (findLUCos real a b).2 - (findLUCos real a b).1 ≤ |b - a| := by
  obtain ⟨⟨⟨x, hx, hx'⟩, l2⟩, ⟨y, hy, hy'⟩, g2⟩ := C52_findLUCos a b
  obtain ⟨l', g'⟩ := C52_findLUCos a' b'
  refine ⟨?_, ?_, ?_, ?_⟩
  · rw [← hx']; exact l'.2 ⟨x, h hx, rfl⟩
  · rw [← hy']; exact g'.2 ⟨y, h hy, rfl⟩
  · rw [← hx']; exact g2 ⟨x, hx, rfl⟩
  · rw [← hx', ← hy']
    refine (le_abs_self _).trans ((abs_cos_sub_cos_le y x).trans ?_)
    exact Set.abs_sub_le_of_uIcc_subset_uIcc (Set.uIcc_subset_uIcc hx hy) |>.trans (le_refl _)

theorem harmonic_sub {c : Vec ℝ} {t0 t1 u0 u1 : ℝ} (ht : t0 ≤ t1) (hu : u0 ≤ u1) (h0 : u0 ≤ t0) (h1 : t1 ≤ u1) (k : ℕ) :
    Set.uIcc (2 * k * t0 - real.atan2 (c.val (2 * k + 1)) (c.val (2 * k))) (2 * k * t1 - real.atan2 (c.val (2 * k + 1)) (c.val (2 * k))) ⊆
    Set.uIcc (2 * k * u0 - real.atan2 (c.val (2 * k + 1)) (c.val (2 * k))) (2 * k * u1 - real.atan2 (c.val (2 * k + 1)) (c.val (2 * k))) := by
  have hk : (0 : ℝ) ≤ 2 * k := by positivity
  have a1 := mul_le_mul_of_nonneg_left ht hk
  have a2 := mul_le_mul_of_nonneg_left hu hk
  have a3 := mul_le_mul_of_nonneg_left h0 hk
  have a4 := mul_le_mul_of_nonneg_left h1 hk
  rw [Set.uIcc_of_le (by linarith), Set.uIcc_of_le (by linarith)]
  exact Set.Icc_subset_Icc (by linarith) (by linarith)

theorem amp_nonneg (c : Vec ℝ) (k : ℕ) : 0 ≤ amp c k := Real.sqrt_nonneg _

/-- C145, inclusion: the bounds over a part of an interval are within the bounds over the interval. -/
theorem C145_inclusion (c : Vec ℝ) (t0 t1 u0 u1 : ℝ) (h : 1 < c.len) (h' : c.len ≤ 2 ^ 31) (hs : Set.uIcc t0 t1 ⊆ Set.uIcc u0 u1) :
    ∃ r s, findLUFourier real c t0 t1 = .ok r ∧ findLUFourier real c u0 u1 = .ok s ∧ s.1 ≤ r.1 ∧ r.1 ≤ r.2 ∧ r.2 ≤ s.2 := by
  refine ⟨_, _, findLUFourier_sum c t0 t1 h h', findLUFourier_sum c u0 u1 h h', ?_, ?_, ?_⟩
  all_goals
    have hi := (Set.uIcc_subset_uIcc_iff_le).1 hs
    have key := fun k => C145_cos _ _ _ _ (harmonic_sub (c := c) (min_le_max (a := t0) (b := t1)) (min_le_max (a := u0) (b := u1)) hi.1 hi.2 k)
    refine add_le_add (le_refl _) (Finset.sum_le_sum fun i _ => mul_le_mul_of_nonneg_left ?_ (amp_nonneg _ _))
  · exact (key (1 + i)).1
  · exact (key (1 + i)).2.2.1
  · exact (key (1 + i)).2.1

/-- C145, convergence: the gap between the bounds is at most the width of the interval times `∑ 2 k aₖ`, with `aₖ` the amplitude of the harmonic `k`. -/
theorem C145_gap (c : Vec ℝ) (t0 t1 : ℝ) (h : 1 < c.len) (h' : c.len ≤ 2 ^ 31) :
    ∃ r, findLUFourier real c t0 t1 = .ok r ∧
      r.2 - r.1 ≤ |t1 - t0| * ∑ k ∈ Finset.range (c.len / 2), 2 * k * √(c.val (2 * k) ^ 2 + c.val (2 * k + 1) ^ 2) := by
  refine ⟨_, findLUFourier_sum c t0 t1 h h', ?_⟩
  dsimp only
  rw [add_sub_add_left_eq_sub, ← Finset.sum_sub_distrib]
  have e : c.len / 2 = (c.len / 2 - 1) + 1 := by omega
  rw [e, Finset.sum_range_succ' _ (c.len / 2 - 1), Nat.add_sub_cancel]
  simp only [Nat.cast_zero, mul_zero, zero_mul, add_zero]
  rw [Finset.mul_sum]
  refine Finset.sum_le_sum fun i _ => ?_
  have key := (C145_cos _ _ _ _ (harmonic_sub (c := c) (min_le_max (a := t0) (b := t1)) (min_le_max (a := t0) (b := t1)) (le_refl _) (le_refl _) (1 + i))).2.2.2
  rw [sub_sub_sub_cancel_right, ← mul_sub, abs_mul, max_sub_min_eq_abs, abs_abs] at key
  have e2 : amp c (1 + i) = √(c.val (2 * (i + 1)) ^ 2 + c.val (2 * (i + 1) + 1) ^ 2) := by
    unfold amp
    rw [Nat.add_comm 1 i]
    congr 1; ring
  rw [← mul_sub, e2]
  have hk : |(2 * ((1 + i : ℕ) : ℝ))| = 2 * ((i + 1 : ℕ) : ℝ) := by
    rw [abs_of_nonneg (by positivity)]; push_cast; ring
  rw [hk] at key
  calc _ ≤ √(c.val (2 * (i + 1)) ^ 2 + c.val (2 * (i + 1) + 1) ^ 2) * (2 * ((i + 1 : ℕ) : ℝ) * |t1 - t0|) :=
        mul_le_mul_of_nonneg_left key (Real.sqrt_nonneg _)
    _ = _ := by ring

/-- C145, points: over a single angle both bounds are the value of the series. -/
theorem C145_point (c : Vec ℝ) (t : ℝ) (h : 1 < c.len) (h' : c.len ≤ 2 ^ 31) :
    ∃ v, findLUFourier real c t t = .ok (v, v) ∧
      v = ∑ k ∈ Finset.range (c.len / 2), (c.val (2 * k) * cos (2 * k * t) + c.val (2 * k + 1) * sin (2 * k * t)) := by
  obtain ⟨r, hr, hb⟩ := C53_findLUFourier c t t h h'
  obtain ⟨r', hr', hg⟩ := C145_gap c t t h h'
  rw [hr] at hr'
  cases hr'
  have hv := hb t (by simp)
  simp only [sub_self, abs_zero, zero_mul] at hg
  refine ⟨_, ?_, rfl⟩
  rw [hr]
  have e1 : r.1 = ∑ k ∈ Finset.range (c.len / 2), (c.val (2 * k) * cos (2 * k * t) + c.val (2 * k + 1) * sin (2 * k * t)) := by linarith [hv.1, hv.2]
  have e2 : r.2 = ∑ k ∈ Finset.range (c.len / 2), (c.val (2 * k) * cos (2 * k * t) + c.val (2 * k + 1) * sin (2 * k * t)) := by linarith [hv.1, hv.2]
  exact congrArg _ (Prod.ext e1 e2)

/-- The bounds of `3 + 4 cos 2θ` over a single angle. -/
example : ∃ v, findLUFourier real ⟨4, fun i => if i = 0 then 3 else if i = 2 then 4 else 0⟩ (π / 2) (π / 2) = .ok (v, v) ∧ v = -1 := by
  obtain ⟨v, h1, h2⟩ := C145_point ⟨4, fun i => if i = 0 then 3 else if i = 2 then 4 else 0⟩ (π / 2) (by norm_num) (by norm_num)
  refine ⟨v, h1, ?_⟩
  rw [h2]
  have e : 2 * 1 * (π / 2) = π := by ring
  simp [Finset.sum_range_succ]
  rw [show 2 * (π / 2) = π by ring]
  norm_num

end Verif.Functions
