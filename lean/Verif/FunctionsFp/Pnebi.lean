import Verif.FunctionsFp.PnebiModel
import Verif.FunctionsFp.Atan
import Verif.Ieee.Rel
import Verif.Bessel.Props

/-!
Rounding errors of the polynomials of `evaluatePnebi0Polynom`.
-/
namespace Verif.FunctionsFp
open Ieee Fp Float.Model

/-- `p` is near `P`, and `P` is bounded. -/
def Near (p : Dbl) (P e B : ℝ) : Prop := Approx p P e ∧ |P| ≤ B

/-- One step of the scheme of Horner. -/
theorem Near.step {p u c : Dbl} {P U C e B D : ℝ} (hp : Near p P e B) (hc : Near c C (1 / 2 ^ 50) D) (hu : Near u U (1 / 2 ^ 50) 1) (he : e ≤ 1 / 2 ^ 40) (hB : B + D ≤ 12) :
    Near (c + u * p) (C + U * P) (e + 1 / 2 ^ 45) (D + B) := by
  obtain ⟨hp, hP⟩ := hp
  obtain ⟨hc, hC⟩ := hc
  obtain ⟨hu, hU⟩ := hu
  have e0 : 0 ≤ e := (abs_nonneg _).trans hp.2
  have B0 := (abs_nonneg _).trans hP
  have D0 := (abs_nonneg _).trans hC
  norm_num at he
  have hUP : |U * P| ≤ B := by
    rw [abs_mul]
    calc |U| * |P| ≤ 1 * B := mul_le_mul hU hP (abs_nonneg _) zero_le_one
      _ = B := one_mul B
  have h1 : Approx (u * p) (U * P) (e + 14 / 2 ^ 50) := hu.mul hp 4 (by decide) (by decide) hU hP (by norm_num; nlinarith) (by norm_num [mb]; nlinarith)
  exact ⟨hc.add h1 4 (by decide) (by decide) hC hUP (by norm_num; linarith) (by norm_num [mb]; linarith), (abs_add_le _ _).trans (add_le_add hC hUP)⟩

theorem near_lit (m k : ℕ) (hm : m ≠ 0) (hk0 : 0 < k) (hk : (k : ℤ) ≤ 2 ^ (11 : ℕ)) (h : (m : ℝ) / 10 ^ k ≤ 4) : Near (d m k) (m / 10 ^ k) (1 / 2 ^ 50) (m / 10 ^ k) := by
  have := approx_lit (spec := .binary64) (m := m) (k := k) 2 hm hk0 hk (by decide) (by decide) (by norm_num at h ⊢; exact h)
  refine ⟨this.weaken (by norm_num [mb]), ?_⟩
  rw [abs_of_nonneg (by positivity)]

theorem Near.neg {p : Dbl} {P e B : ℝ} (h : Near p P e B) : Near (-p) (-P) e B := ⟨h.1.neg, by rw [abs_neg]; exact h.2⟩

theorem pnebiSmall_near {u : Dbl} {U : ℝ} (hu : Near u U (1 / 2 ^ 50) 1) : Near (pnebiSmall u) (Bessel.small U) (1 / 2 ^ 42) 10 := by
  have l6 := near_lit 45813 7 (by norm_num) (by norm_num) (by norm_num) (by norm_num)
  have l5 := near_lit 360768 7 (by norm_num) (by norm_num) (by norm_num) (by norm_num)
  have l4 := near_lit 2659732 7 (by norm_num) (by norm_num) (by norm_num) (by norm_num)
  have l3 := near_lit 12067492 7 (by norm_num) (by norm_num) (by norm_num) (by norm_num)
  have l2 := near_lit 30899424 7 (by norm_num) (by norm_num) (by norm_num) (by norm_num)
  have l1 := near_lit 35156229 7 (by norm_num) (by norm_num) (by norm_num) (by norm_num)
  have l0 := near_lit 10 1 (by norm_num) (by norm_num) (by norm_num) (by norm_num)
  have s5 := l6.step l5 hu (by norm_num) (by norm_num)
  have s4 := s5.step l4 hu (by norm_num) (by norm_num)
  have s3 := s4.step l3 hu (by norm_num) (by norm_num)
  have s2 := s3.step l2 hu (by norm_num) (by norm_num)
  have s1 := s2.step l1 hu (by norm_num) (by norm_num)
  have s0 := s1.step l0 hu (by norm_num) (by norm_num)
  have : Near _ _ (1 / 2 ^ 42) 10 := ⟨s0.1.weaken (by norm_num), s0.2.trans (by norm_num)⟩
  unfold pnebiSmall
  convert this using 1
  unfold Bessel.small
  push_cast
  ring

theorem pnebiBig_near {u : Dbl} {U : ℝ} (hu : Near u U (1 / 2 ^ 50) 1) : Near (pnebiBig u) (Bessel.big U) (1 / 2 ^ 41) 1 := by
  have l8 := near_lit 392377 8 (by norm_num) (by norm_num) (by norm_num) (by norm_num)
  have l7 := (near_lit 1647633 8 (by norm_num) (by norm_num) (by norm_num) (by norm_num)).neg
  have l6 := near_lit 2635537 8 (by norm_num) (by norm_num) (by norm_num) (by norm_num)
  have l5 := (near_lit 2057706 8 (by norm_num) (by norm_num) (by norm_num) (by norm_num)).neg
  have l4 := near_lit 916281 8 (by norm_num) (by norm_num) (by norm_num) (by norm_num)
  have l3 := (near_lit 157565 8 (by norm_num) (by norm_num) (by norm_num) (by norm_num)).neg
  have l2 := near_lit 225319 8 (by norm_num) (by norm_num) (by norm_num) (by norm_num)
  have l1 := near_lit 1328592 8 (by norm_num) (by norm_num) (by norm_num) (by norm_num)
  have l0 := near_lit 39894228 8 (by norm_num) (by norm_num) (by norm_num) (by norm_num)
  have s7 := l8.step l7 hu (by norm_num) (by norm_num)
  have s6 := s7.step l6 hu (by norm_num) (by norm_num)
  have s5 := s6.step l5 hu (by norm_num) (by norm_num)
  have s4 := s5.step l4 hu (by norm_num) (by norm_num)
  have s3 := s4.step l3 hu (by norm_num) (by norm_num)
  have s2 := s3.step l2 hu (by norm_num) (by norm_num)
  have s1 := s2.step l1 hu (by norm_num) (by norm_num)
  have s0 := s1.step l0 hu (by norm_num) (by norm_num)
  have : Near _ _ (1 / 2 ^ 41) 1 := ⟨s0.1.weaken (by norm_num), s0.2.trans (by norm_num)⟩
  unfold pnebiBig
  convert this using 1
  unfold Bessel.big
  push_cast
  ring

end Verif.FunctionsFp
