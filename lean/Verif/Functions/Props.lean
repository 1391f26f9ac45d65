import Verif.Functions.Spec
import Mathlib.Analysis.Real.Pi.Bounds
import Mathlib.Tactic.Linarith
import Mathlib.Tactic.NormNum

/-! Property theorems C50 to C53 (see properties.jsonl). -/
namespace Verif.Functions
open Real Spec

theorem bind_ok {α β : Type} (x : α) (f : α → Outcome β) : (Except.ok x >>= f) = f x := rfl

theorem int_ok {z : ℤ} (h : -2147483648 ≤ z) (h' : z ≤ 2147483647) : Cxx.int z = .ok z := if_pos ⟨h, h'⟩

/-! ### C50 -/

theorem fourierOrder_eq {n : ℕ} (h : n ≤ 2 ^ 31) : fourierOrder n = (n / 2 : ℕ) - 1 := by
  unfold fourierOrder Cxx.ofSize Cxx.toSize
  rw [Int.bmod_def]
  omega

theorem get_two {c : Vec ℝ} {k : ℕ} (h : 2 * k + 1 < c.len) (h' : c.len ≤ 2 ^ 31) :
    Cxx.int (2 * (k : ℤ)) = .ok (2 * (k : ℤ)) ∧ c.get (2 * (k : ℤ)) = .ok (c.val (2 * k)) ∧
    Cxx.int (2 * (k : ℤ) + 1) = .ok (2 * (k : ℤ) + 1) ∧ c.get (2 * (k : ℤ) + 1) = .ok (c.val (2 * k + 1)) := by
  refine ⟨int_ok (by omega) (by omega), ?_, int_ok (by omega) (by omega), ?_⟩
  · exact_mod_cast c.get_nat (i := 2 * k) (by omega)
  · exact_mod_cast c.get_nat (i := 2 * k + 1) h

theorem fourierLoop_eq (c : Vec ℝ) (θ : ℝ) (h' : c.len ≤ 2 ^ 31) (m k : ℕ) (h : 2 * (k + m) ≤ c.len) :
    fourierLoop (cos θ) (sin θ) c m (k : ℤ) (cos (k * θ)) (sin (k * θ)) (series 1 c k θ) = .ok (series 1 c (k + m) θ) := by
  induction m generalizing k with
  | zero => rfl
  | succ m ih =>
    obtain ⟨h1, h2, h3, h4⟩ := get_two (c := c) (k := k) (by omega) h'
    rw [fourierLoop, h1, bind_ok, h2, bind_ok, h3, bind_ok, h4, bind_ok]
    dsimp only
    have hs : series 1 c k θ + (c.val (2 * k) * cos (k * θ) + c.val (2 * k + 1) * sin (k * θ)) = series 1 c (k + 1) θ := by
      unfold series; rw [Finset.sum_range_succ, one_mul]
    have hc : cos θ * cos (k * θ) - sin θ * sin (k * θ) = cos ((k + 1 : ℕ) * θ) := by
      rw [Nat.cast_add, Nat.cast_one, add_mul, one_mul, cos_add]; ring
    have hn : sin θ * cos (k * θ) + cos θ * sin (k * θ) = sin ((k + 1 : ℕ) * θ) := by
      rw [Nat.cast_add, Nat.cast_one, add_mul, one_mul, sin_add]; ring
    rw [hs, hc, hn, show (k : ℤ) + 1 = ((k + 1 : ℕ) : ℤ) by push_cast; rfl, ih (k + 1) (by omega)]
    rw [show k + 1 + m = k + (m + 1) by omega]

/-- C50. A last coefficient without partner is ignored. -/
theorem C50_fourier (c : Vec ℝ) (θ : ℝ) (h : c.len ≤ 2 ^ 31) :
    evaluateFourier real c θ =
      .ok (∑ k ∈ Finset.range (c.len / 2), (c.val (2 * k) * cos (k * θ) + c.val (2 * k + 1) * sin (k * θ))) := by
  have h0 := fourierLoop_eq c θ h (c.len / 2) 0 (by omega)
  unfold evaluateFourier
  rw [fourierOrder_eq h, show (((c.len / 2 : ℕ) : ℤ) - 1 + 1).toNat = c.len / 2 by omega]
  simp only [Nat.cast_zero, zero_mul, cos_zero, sin_zero, Nat.zero_add] at h0
  rw [show series 1 c 0 θ = 0 from Finset.sum_range_zero _] at h0
  refine Eq.trans h0 ?_
  simp only [series, one_mul]

/-- With a larger vector the index `2 * k` overflows. -/
theorem C50_overflow_violated (L : Libm ℚ) (c : Vec ℚ) (θ : ℚ) (h : c.len = 2 ^ 31 + 2) :
    evaluateFourier L c θ = .error (.ub .overflow) := by
  have key : ∀ (a b : ℚ) (m k : ℕ) (x y z : ℚ), k + m = 2 ^ 30 → fourierLoop a b c (m + 1) (k : ℤ) x y z = .error (.ub .overflow) := by
    intro a b m
    induction m with
    | zero =>
      intro k x y z hk
      rw [fourierLoop, show Cxx.int (2 * (k : ℤ)) = .error (.ub .overflow) from if_neg (by omega)]
      rfl
    | succ m ih =>
      intro k x y z hk
      have h2 : c.get (2 * (k : ℤ)) = .ok (c.val (2 * k)) := by exact_mod_cast c.get_nat (i := 2 * k) (by omega)
      have h4 : c.get (2 * (k : ℤ) + 1) = .ok (c.val (2 * k + 1)) := by exact_mod_cast c.get_nat (i := 2 * k + 1) (by omega)
      have h1 : Cxx.int (2 * (k : ℤ)) = .ok (2 * (k : ℤ)) := int_ok (by omega) (by omega)
      have h3 : Cxx.int (2 * (k : ℤ) + 1) = .ok (2 * (k : ℤ) + 1) := int_ok (by omega) (by omega)
      rw [fourierLoop, h1, bind_ok, h2, bind_ok, h3, bind_ok, h4, bind_ok]
      have := ih (k + 1) (a * x - b * y) (b * x + a * y) (z + (c.val (2 * k) * x + c.val (2 * k + 1) * y)) (by omega)
      rw [Nat.cast_add, Nat.cast_one] at this
      exact this
  obtain ⟨m, hm, hm'⟩ : ∃ m : ℕ, (fourierOrder c.len + 1).toNat = m + 1 ∧ 0 + m = 2 ^ 30 :=
    ⟨2 ^ 30, by rw [h]; decide +kernel, Nat.zero_add _⟩
  unfold evaluateFourier
  rw [hm]
  exact key _ _ m 0 _ _ _ hm'

-- 1 + 2 cos + 3 sin at "cos = 3/5, sin = 4/5"
example : evaluateFourier (⟨3, fun _ => 3 / 5, fun _ => 4 / 5, id, id, fun _ _ => 0⟩ : Libm ℚ) ⟨4, fun i => [1, 7, 2, 3].getD i 0⟩ 1 = .ok (23 / 5) := by
  decide +kernel

/-! ### C51 -/

/-- C51 for a function: the result is in [0, turn) and the difference is an integer number of turns. -/
def C51_at (f : ℝ → ℝ) (turn : ℝ) : Prop := ∀ a, 0 ≤ f a ∧ f a < turn ∧ SameAngle turn a (f a)

/-- C51. -/
def C51_statement : Prop := C51_at normalize360 (2 * π) ∧ C51_at (normalize180 real) π ∧ C51_at normalizeAngle2Pi (2 * π)

theorem norm_mem {t : ℝ} (ht : 0 < t) (a : ℝ) : 0 ≤ a - t * ⌊a / t⌋ ∧ a - t * ⌊a / t⌋ < t ∧ SameAngle t a (a - t * ⌊a / t⌋) := by
  have h1 := Int.floor_le (a / t)
  have h2 := Int.lt_floor_add_one (a / t)
  rw [le_div_iff₀ ht] at h1
  rw [div_lt_iff₀ ht] at h2
  exact ⟨by linarith, by linarith, ⌊a / t⌋, by ring⟩

/-- normalize180 is correct; the other two are correct for their own constants in place of 2π. Missing for C51: the constants are not 2π. -/
theorem C51_normalize_partial : C51_at (normalize180 real) π ∧ C51_at normalize360 6.28318530718 ∧ C51_at normalizeAngle2Pi (13176795 / 2 ^ 21) := by
  refine ⟨fun a => norm_mem pi_pos a, fun a => ?_, fun a => ?_⟩
  · have := norm_mem (t := k2pi) (by unfold k2pi; norm_num) a
    rwa [show (6.28318530718 : ℝ) = k2pi by unfold k2pi; norm_num]
  · have := norm_mem (t := k2pif) (by unfold k2pif; norm_num) a
    rwa [show (13176795 / 2 ^ 21 : ℝ) = k2pif by unfold k2pif; norm_num]

example : normalize360 (7 : ℚ) = 7 - 6.28318530718 ∧ normalize360 (-1 : ℚ) = 5.28318530718 := by decide +kernel

theorem k2pi_lt : 2 * π < k2pi ∧ (k2pi : ℝ) < 2 * π + 5e-13 := by
  have h1 := pi_lt_d20
  have h2 := pi_gt_d20
  unfold k2pi
  constructor <;> norm_num at * <;> linarith

theorem k2pif_lt : 2 * π < k2pif ∧ (k2pif : ℝ) < 2 * π + 2e-7 := by
  have h1 := pi_lt_d20
  have h2 := pi_gt_d20
  unfold k2pif
  constructor <;> norm_num at * <;> linarith

/-- The angle 2π is returned unchanged by the functions with truncated constants: it is outside the documented interval [0, 2π). -/
theorem C51_range_violated : normalize360 (2 * π) = 2 * π ∧ normalizeAngle2Pi (2 * π) = 2 * π := by
  have key : ∀ t : ℝ, 2 * π < t → 2 * π - t * ⌊2 * π / t⌋ = 2 * π := by
    intro t ht
    have hp := pi_pos
    have : ⌊2 * π / t⌋ = 0 := by
      rw [Int.floor_eq_zero_iff]
      exact ⟨div_nonneg (by linarith) (by linarith), by rw [div_lt_one (by linarith)]; exact ht⟩
    rw [this]; simp
  exact ⟨key _ k2pi_lt.1, key _ k2pif_lt.1⟩

/-- One turn of the truncated constant is returned as 0, which is another angle. -/
theorem C51_turn_violated : normalize360 (k2pi : ℝ) = 0 ∧ ¬ SameAngle (2 * π) k2pi (normalize360 k2pi) := by
  have h : (k2pi : ℝ) ≠ 0 := by unfold k2pi; norm_num
  have e : normalize360 (k2pi : ℝ) = 0 := by unfold normalize360; rw [div_self h]; simp
  refine ⟨e, ?_⟩
  rw [e]
  rintro ⟨m, hm⟩
  obtain ⟨h1, h2⟩ := k2pi_lt
  have hp := pi_gt_three
  rw [sub_zero] at hm
  have m1 : (1 : ℝ) < m := by
    by_contra hc
    rw [not_lt] at hc
    nlinarith
  have m2 : (m : ℝ) < 2 := by
    by_contra hc
    rw [not_lt] at hc
    norm_num at h2
    nlinarith
  have m1' : (1 : ℤ) < m := by exact_mod_cast m1
  have m2' : m < (2 : ℤ) := by exact_mod_cast m2
  omega

theorem C51_violated : ¬ C51_statement := by
  intro h
  have := (h.1 (2 * π)).2.1
  rw [C51_range_violated.1] at this
  exact lt_irrefl _ this

/-! ### C52 -/

theorem normMod_eq (a : ℝ) : ∃ m : ℤ, normMod real a = a - m * (2 * π) ∧ 0 ≤ normMod real a ∧ normMod real a < 2 * π := by
  have hp : 0 < 2 * π := by have := pi_pos; linarith
  unfold normMod
  dsimp only
  unfold fmod
  rw [show real.pi = π from rfl]
  by_cases h0 : 0 ≤ a / (2 * π)
  · obtain ⟨h1, h2, -⟩ := norm_mem hp a
    rw [if_pos h0, if_neg (not_lt.2 h1)]
    exact ⟨⌊a / (2 * π)⌋, by ring, h1, h2⟩
  · rw [if_neg h0]
    have h1 := Int.le_ceil (a / (2 * π))
    have h2 := Int.ceil_lt_add_one (a / (2 * π))
    rw [div_le_iff₀ hp] at h1
    rw [← sub_lt_iff_lt_add, lt_div_iff₀ hp] at h2
    by_cases hneg : a - 2 * π * ⌈a / (2 * π)⌉ < 0
    · rw [if_pos hneg]
      exact ⟨⌈a / (2 * π)⌉ - 1, by push_cast; ring, by linarith, by linarith⟩
    · rw [if_neg hneg]
      exact ⟨⌈a / (2 * π)⌉, by ring, by linarith, by linarith⟩

/-- `m` and `M` are the minimum and the maximum of the cosine between `a` and `b`. -/
def IsCosRange (a b : ℝ) (r : ℝ × ℝ) : Prop := IsLeast (cos '' Set.Icc a b) r.1 ∧ IsGreatest (cos '' Set.Icc a b) r.2

theorem cosRange_shift {a b : ℝ} {r : ℝ × ℝ} (m : ℤ) (h : IsCosRange (a - m * (2 * π)) (b - m * (2 * π)) r) : IsCosRange a b r := by
  have : cos '' Set.Icc a b = cos '' Set.Icc (a - m * (2 * π)) (b - m * (2 * π)) := by
    ext y
    constructor
    · rintro ⟨x, ⟨h1, h2⟩, rfl⟩
      exact ⟨x - m * (2 * π), ⟨by linarith, by linarith⟩, cos_sub_int_mul_two_pi x m⟩
    · rintro ⟨x, ⟨h1, h2⟩, rfl⟩
      exact ⟨x + m * (2 * π), ⟨by linarith, by linarith⟩, cos_add_int_mul_two_pi x m⟩
  unfold IsCosRange
  rw [this]; exact h

/-- The smallest value is taken at an end or is -1. -/
theorem isLeast_cos {a b x : ℝ} (hx : x ∈ Set.Icc a b) (h : cos x = -1) : IsLeast (cos '' Set.Icc a b) (-1) :=
  ⟨⟨x, hx, h⟩, by rintro _ ⟨y, -, rfl⟩; exact neg_one_le_cos y⟩

theorem isGreatest_cos {a b x : ℝ} (hx : x ∈ Set.Icc a b) (h : cos x = 1) : IsGreatest (cos '' Set.Icc a b) 1 :=
  ⟨⟨x, hx, h⟩, by rintro _ ⟨y, -, rfl⟩; exact cos_le_one y⟩

/-- Within [0, 2π] the cosine is at most its value at an end. -/
theorem cos_le_max {a b y : ℝ} (ha : 0 ≤ a) (hb : b ≤ 2 * π) (h1 : a ≤ y) (h2 : y ≤ b) : cos y ≤ max (cos a) (cos b) := by
  rcases le_total y π with h | h
  · exact le_max_of_le_left (cos_le_cos_of_nonneg_of_le_pi ha h h1)
  · apply le_max_of_le_right
    rw [← cos_two_pi_sub y, ← cos_two_pi_sub b]
    exact cos_le_cos_of_nonneg_of_le_pi (by linarith) (by linarith) (by linarith)

/-- Within [π, 3π] the cosine is at least its value at an end. -/
theorem min_le_cos {a b y : ℝ} (ha : π ≤ a) (hb : b ≤ 3 * π) (h1 : a ≤ y) (h2 : y ≤ b) : min (cos a) (cos b) ≤ cos y := by
  have := cos_le_max (a := a - π) (b := b - π) (y := y - π) (by linarith) (by linarith) (by linarith) (by linarith)
  rw [cos_sub_pi, cos_sub_pi, cos_sub_pi, max_neg_neg] at this
  linarith

/-- Within [0, π] the cosine is at least its value at an end. -/
theorem min_le_cos' {a b y : ℝ} (ha : -π ≤ a) (hb : b ≤ π) (h1 : a ≤ y) (h2 : y ≤ b) : min (cos a) (cos b) ≤ cos y := by
  have := min_le_cos (a := a + 2 * π) (b := b + 2 * π) (y := y + 2 * π) (by linarith) (by linarith) (by linarith) (by linarith)
  rwa [cos_add_two_pi, cos_add_two_pi, cos_add_two_pi] at this

theorem isLeast_min {a b : ℝ} (hab : a ≤ b) (h : ∀ y, a ≤ y → y ≤ b → min (cos a) (cos b) ≤ cos y) : IsLeast (cos '' Set.Icc a b) (min (cos a) (cos b)) := by
  refine ⟨?_, by rintro _ ⟨y, ⟨h1, h2⟩, rfl⟩; exact h y h1 h2⟩
  rcases min_choice (cos a) (cos b) with e | e <;> rw [e]
  · exact ⟨a, ⟨le_refl _, hab⟩, rfl⟩
  · exact ⟨b, ⟨hab, le_refl _⟩, rfl⟩

theorem isGreatest_max {a b : ℝ} (hab : a ≤ b) (h : ∀ y, a ≤ y → y ≤ b → cos y ≤ max (cos a) (cos b)) : IsGreatest (cos '' Set.Icc a b) (max (cos a) (cos b)) := by
  refine ⟨?_, by rintro _ ⟨y, ⟨h1, h2⟩, rfl⟩; exact h y h1 h2⟩
  rcases max_choice (cos a) (cos b) with e | e <;> rw [e]
  · exact ⟨a, ⟨le_refl _, hab⟩, rfl⟩
  · exact ⟨b, ⟨hab, le_refl _⟩, rfl⟩

theorem findLUCosOrd_range {a b : ℝ} (hab : a ≤ b) : IsCosRange a b (findLUCosOrd real a b) := by
  have hp := pi_pos
  unfold findLUCosOrd
  rw [show real.pi = π from rfl]
  by_cases hw : 2 * π ≤ b - a
  · rw [if_pos hw]
    -- a whole turn
    obtain ⟨m, hm, h0, h1⟩ := normMod_eq a
    apply cosRange_shift m
    rw [← hm]
    have hb : normMod real a + 2 * π ≤ b - m * (2 * π) := by linarith
    refine ⟨?_, isGreatest_cos (x := 2 * π) ⟨by linarith, by linarith⟩ cos_two_pi⟩
    rcases le_total (normMod real a) π with h | h
    · exact isLeast_cos (x := π) ⟨h, by linarith⟩ cos_pi
    · exact isLeast_cos (x := π + 2 * π) ⟨by linarith, by linarith⟩ (by rw [cos_add_two_pi, cos_pi])
  · rw [if_neg hw]
    obtain ⟨m, hm, a0, a1⟩ := normMod_eq a
    obtain ⟨n, hn, b0, b1⟩ := normMod_eq b
    apply cosRange_shift m
    rw [← hm]
    dsimp only
    rw [show real.cos = cos from rfl]
    -- the normalised end is either the shifted end or one turn less
    have hcase : b - m * (2 * π) = normMod real b ∨ b - m * (2 * π) = normMod real b + 2 * π := by
      have e : b - m * (2 * π) = normMod real b + ((n - m : ℤ) : ℝ) * (2 * π) := by rw [hn]; push_cast; ring
      have l1 : (-1 : ℝ) < ((n - m : ℤ) : ℝ) := by by_contra hc; rw [not_lt] at hc; nlinarith
      have l2 : ((n - m : ℤ) : ℝ) < 2 := by by_contra hc; rw [not_lt] at hc; nlinarith
      have l1' : (-1 : ℤ) < n - m := by exact_mod_cast l1
      have l2' : n - m < (2 : ℤ) := by exact_mod_cast l2
      rcases (by omega : n - m = 0 ∨ n - m = 1) with h | h
      · left; rw [e, h]; simp
      · right; rw [e, h]; simp
    generalize normMod real a = p at *
    generalize normMod real b = q at *
    have hpb : p ≤ b - m * (2 * π) := by linarith
    by_cases hlt : q < p
    · rw [if_pos hlt]
      have e : b - m * (2 * π) = q + 2 * π := by
        rcases hcase with h | h
        · linarith
        · exact h
      rw [e] at hpb ⊢
      refine ⟨?_, isGreatest_cos (x := 2 * π) ⟨by linarith, by linarith⟩ cos_two_pi⟩
      by_cases hc : q < π ∧ π < p
      · rw [if_pos hc]
        rw [← cos_add_two_pi q]
        exact isLeast_min hpb fun y h1 h2 => min_le_cos (by linarith) (by linarith) h1 h2
      · rw [if_neg hc]
        rcases le_total p π with h | h
        · exact isLeast_cos (x := π) ⟨h, by linarith⟩ cos_pi
        · have hq : π ≤ q ∨ p = π := by
            by_contra hcon
            rw [not_or, not_le] at hcon
            exact hc ⟨hcon.1, lt_of_le_of_ne h (Ne.symm hcon.2)⟩
          rcases hq with hq | hq
          · exact isLeast_cos (x := π + 2 * π) ⟨by linarith, by linarith⟩ (by rw [cos_add_two_pi, cos_pi])
          · exact isLeast_cos (x := π) ⟨by linarith, by linarith⟩ cos_pi
    · rw [if_neg hlt]
      have e : b - m * (2 * π) = q := by
        rcases hcase with h | h
        · exact h
        · linarith
      rw [e] at hpb ⊢
      refine ⟨?_, isGreatest_max hpb fun y h1 h2 => cos_le_max a0 (by linarith) h1 h2⟩
      by_cases hc : p < π ∧ π < q
      · rw [if_pos hc]
        exact isLeast_cos (x := π) ⟨by linarith [hc.1], by linarith [hc.2]⟩ cos_pi
      · rw [if_neg hc]
        rcases le_total π p with h | h
        · exact isLeast_min hpb fun y h1 h2 => min_le_cos h (by linarith) h1 h2
        · rcases le_total q π with h' | h'
          · exact isLeast_min hpb fun y h1 h2 => min_le_cos' (by linarith) h' h1 h2
          · -- an end is π
            have hor : p = π ∨ q = π := by
              by_contra hcon
              rw [not_or] at hcon
              exact hc ⟨lt_of_le_of_ne h hcon.1, lt_of_le_of_ne h' (Ne.symm hcon.2)⟩
            refine isLeast_min hpb fun y _ _ => le_trans ?_ (neg_one_le_cos y)
            rcases hor with rfl | rfl
            · exact min_le_of_left_le (le_of_eq cos_pi)
            · exact min_le_of_right_le (le_of_eq cos_pi)

/-- C52: the exact range of the cosine between the arguments, in whatever order they are given. -/
theorem C52_findLUCos (a b : ℝ) : IsLeast (cos '' Set.uIcc a b) (findLUCos real a b).1 ∧ IsGreatest (cos '' Set.uIcc a b) (findLUCos real a b).2 := by
  unfold findLUCos
  by_cases h : b < a
  · rw [if_pos h, Set.uIcc_of_ge (le_of_lt h)]
    exact findLUCosOrd_range (le_of_lt h)
  · rw [if_neg h, Set.uIcc_of_le (not_lt.1 h)]
    exact findLUCosOrd_range (not_lt.1 h)

-- with "π = 3" and "cos x = 3 - x": from 7 to 10, that is from 1 to 4 (mod 6), passing by π
example : findLUCos (⟨3, fun x => 3 - x, id, id, id, fun _ _ => 0⟩ : Libm ℚ) 7 10 = (-1, 2) := by decide +kernel

/-! ### C53 -/

theorem sinusoid (a b φ : ℝ) : real.sqrt (a * a + b * b) * cos (φ - real.atan2 b a) = a * cos φ + b * sin φ := by
  change Real.sqrt (a * a + b * b) * cos (φ - Complex.arg ⟨a, b⟩) = _
  have hn : Real.sqrt (a * a + b * b) = ‖(⟨a, b⟩ : ℂ)‖ := by rw [Complex.norm_def, Complex.normSq_mk]
  have h1 := Complex.norm_mul_cos_arg (⟨a, b⟩ : ℂ)
  have h2 := Complex.norm_mul_sin_arg (⟨a, b⟩ : ℂ)
  rw [cos_sub, hn]
  calc _ = (‖(⟨a, b⟩ : ℂ)‖ * cos (Complex.arg ⟨a, b⟩)) * cos φ + (‖(⟨a, b⟩ : ℂ)‖ * sin (Complex.arg ⟨a, b⟩)) * sin φ := by ring
    _ = _ := by rw [h1, h2]

theorem luFourierLoop_eq (c : Vec ℝ) {t0 t1 : ℝ} (h' : c.len ≤ 2 ^ 31) (m k : ℕ) (h : 2 * (k + m) ≤ c.len) (lo hi : ℝ)
    (hlo : ∀ θ, t0 ≤ θ → θ ≤ t1 → lo ≤ series 2 c k θ ∧ series 2 c k θ ≤ hi) :
    ∃ r, luFourierLoop real c t0 t1 m (k : ℤ) lo hi = .ok r ∧ ∀ θ, t0 ≤ θ → θ ≤ t1 → r.1 ≤ series 2 c (k + m) θ ∧ series 2 c (k + m) θ ≤ r.2 := by
  induction m generalizing k lo hi with
  | zero => exact ⟨_, rfl, hlo⟩
  | succ m ih =>
    obtain ⟨h1, h2, h3, h4⟩ := get_two (c := c) (k := k) (by omega) h'
    rw [luFourierLoop, h1, bind_ok, h2, bind_ok, h3, bind_ok, h4, bind_ok]
    dsimp only
    obtain ⟨g1, g2⟩ := C52_findLUCos (((2 * (k : ℤ) : ℤ) : ℝ) * t0 - real.atan2 (c.val (2 * k + 1)) (c.val (2 * k)))
      (((2 * (k : ℤ) : ℤ) : ℝ) * t1 - real.atan2 (c.val (2 * k + 1)) (c.val (2 * k)))
    have hk : ((2 * (k : ℤ) : ℤ) : ℝ) = ((2 * k : ℕ) : ℝ) := by push_cast; rfl
    rw [show k + (m + 1) = k + 1 + m by omega, show (k : ℤ) + 1 = ((k + 1 : ℕ) : ℤ) by push_cast; rfl]
    apply ih (k + 1) (by omega)
    · intro θ ht0 ht1
      obtain ⟨l1, l2⟩ := hlo θ ht0 ht1
      have hs : series 2 c (k + 1) θ = series 2 c k θ + (c.val (2 * k) * cos ((2 * k : ℕ) * θ) + c.val (2 * k + 1) * sin ((2 * k : ℕ) * θ)) :=
        Finset.sum_range_succ _ _
      rw [hs, ← sinusoid]
      have hmem : cos ((2 * k : ℕ) * θ - real.atan2 (c.val (2 * k + 1)) (c.val (2 * k))) ∈ cos '' Set.uIcc
          (((2 * (k : ℤ) : ℤ) : ℝ) * t0 - real.atan2 (c.val (2 * k + 1)) (c.val (2 * k)))
          (((2 * (k : ℤ) : ℤ) : ℝ) * t1 - real.atan2 (c.val (2 * k + 1)) (c.val (2 * k))) := by
        refine ⟨_, ?_, rfl⟩
        rw [hk]
        have hk0 : (0 : ℝ) ≤ ((2 * k : ℕ) : ℝ) := Nat.cast_nonneg _
        have := mul_le_mul_of_nonneg_left ht0 hk0
        have := mul_le_mul_of_nonneg_left ht1 hk0
        exact Set.mem_uIcc_of_le (by linarith) (by linarith)
      have ha : 0 ≤ real.sqrt (c.val (2 * k) * c.val (2 * k) + c.val (2 * k + 1) * c.val (2 * k + 1)) := Real.sqrt_nonneg _
      have := mul_le_mul_of_nonneg_left (g1.2 hmem) ha
      have := mul_le_mul_of_nonneg_left (g2.2 hmem) ha
      constructor <;> linarith

/-- C53: the result bounds the series documented in functions.h:244-248, whose frequencies are 2k, at every angle between the
arguments; the vector must not be empty. -/
theorem C53_findLUFourier (c : Vec ℝ) (t0 t1 : ℝ) (h : 1 < c.len) (h' : c.len ≤ 2 ^ 31) :
    ∃ r, findLUFourier real c t0 t1 = .ok r ∧ ∀ θ ∈ Set.uIcc t0 t1,
      r.1 ≤ ∑ k ∈ Finset.range (c.len / 2), (c.val (2 * k) * cos (2 * k * θ) + c.val (2 * k + 1) * sin (2 * k * θ)) ∧
      ∑ k ∈ Finset.range (c.len / 2), (c.val (2 * k) * cos (2 * k * θ) + c.val (2 * k + 1) * sin (2 * k * θ)) ≤ r.2 := by
  obtain ⟨r, hr, hb⟩ := luFourierLoop_eq c (t0 := min t0 t1) (t1 := max t0 t1) h' (c.len / 2 - 1) 1 (by omega) (c.val 0) (c.val 0) (by
    intro θ _ _
    have : series 2 c 1 θ = c.val 0 := by simp [series]
    rw [this]; exact ⟨le_refl _, le_refl _⟩)
  refine ⟨r, ?_, ?_⟩
  · unfold findLUFourier
    dsimp only
    rw [fourierOrder_eq h', show ((c.len / 2 : ℕ) - 1 : ℤ).toNat = c.len / 2 - 1 by omega, show c.get 0 = .ok (c.val 0) from c.get_nat (i := 0) (by omega), bind_ok]
    exact hr
  · intro θ hθ
    have := hb θ hθ.1 hθ.2
    rw [show 1 + (c.len / 2 - 1) = c.len / 2 by omega] at this
    simpa only [series, Nat.cast_mul, Nat.cast_ofNat] using this

/-- An empty vector is read out of bounds. -/
theorem C53_empty_violated (c : Vec ℝ) (t0 t1 : ℝ) (h : c.len = 0) : findLUFourier real c t0 t1 = .error (.ub .outOfBounds) := by
  unfold findLUFourier
  rw [c.get_oob (by omega)]
  rfl

/-- The two functions disagree on the series: with the single harmonic cos the value at π computed by evaluateFourier is outside the
bounds computed by findLUFourier. -/
theorem C53_frequency_violated : ∃ (c : Vec ℝ) (v : ℝ) (r : ℝ × ℝ), evaluateFourier real c π = .ok v ∧ findLUFourier real c π π = .ok r ∧ v < r.1 := by
  refine ⟨⟨4, fun i => if i = 2 then 1 else 0⟩, _, _, C50_fourier _ _ (by norm_num), rfl, ?_⟩
  have e : (⟨1, 0⟩ : ℂ) = 1 := rfl
  obtain ⟨⟨x, hx, hx'⟩, -⟩ := (C52_findLUCos (((2 * 1 : ℤ) : ℝ) * min π π - real.atan2 0 1) (((2 * 1 : ℤ) : ℝ) * max π π - real.atan2 0 1)).1
  have ha : real.atan2 0 1 = 0 := by
    change Complex.arg ⟨1, 0⟩ = 0
    rw [e, Complex.arg_one]
  have hs : real.sqrt (1 * 1 + 0 * 0) = 1 := by
    change Real.sqrt _ = 1
    norm_num
  rw [min_self, max_self, ha, Set.uIcc_self, Set.mem_singleton_iff] at hx
  have hv : cos x = 1 := by rw [hx]; simp
  rw [hv] at hx'
  show _ < (0 : ℝ) + real.sqrt (1 * 1 + 0 * 0) * (findLUCos real (((2 * 1 : ℤ) : ℝ) * min π π - real.atan2 0 1) (((2 * 1 : ℤ) : ℝ) * max π π - real.atan2 0 1)).1
  rw [← hx', hs]
  simp [Finset.sum_range_succ]

end Verif.Functions
