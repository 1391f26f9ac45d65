import Verif.Bessel.Slope
import Verif.Functions.PnebiProps
import Mathlib.Analysis.Complex.ExponentialBounds

/-! The points of the look-up table: the drop of the order 0 between consecutive points. -/
namespace Verif.Bessel
open Functions

/-- The first two values of a point. -/
theorem point_values {n : ℕ} (hn : 1 ≤ n) {p : Point ℝ} (hp : IsPoint Spec.real n p) (hx : 1 / 1000000 ≤ p.x) :
    p.y.val 0 = evaluatePnebi0Polynom Spec.real p.x ∧ 999 / 1000 * (pnebi 0 p.x - pnebi 1 p.x) ≤ p.y.val 0 - p.y.val 1 ∧
    (p.x ≤ 5 → p.y.val 0 - p.y.val 1 ≤ pnebi 0 p.x - pnebi 1 p.x + 4 / 1000000) := by
  have hx0 : 0 < p.x := lt_of_lt_of_le (by norm_num) hx
  have hf : fabs p.x = p.x := fabs_eq hx0.le
  obtain ⟨r, c, hr, hc, hv⟩ := vector_back Spec.real n p.x (by rw [hf]; exact hx) ⟨n + 1, fun _ => 0⟩
  have e : p = ⟨p.x, r⟩ := by
    have h1 := hp.1
    unfold Point.new at h1
    rw [hr] at h1
    exact (Except.ok.inj h1).symm
  have ey : p.y = r := by rw [e]
  rw [hf] at hc hv
  have p0 := besselI_pos 0 hx0
  have hm : Even (2 * (n + Nat.sqrt (40 * n))) := even_two_mul _
  have h1 := back_lower hx0 hm (by omega) hc
  have hc0 : c 0 ≠ 0 := by
    have := back_error hx0 hm hc 0 (by omega)
    intro h0
    rw [h0, div_zero, div_self p0.ne', alt] at this
    norm_num at this
  have v0 := hv 0 (by omega)
  have v1 := hv 1 hn
  rw [div_self hc0, mul_one] at v0
  have ha := C111_accuracy p.x
  rw [abs_of_pos hx0] at ha
  have hq := pnebi_ratio 1 hx0
  have hf0 := pnebi_pos 0 hx0
  refine ⟨by rw [ey, v0], ?_, fun h5 => ?_⟩
  · rw [ey, v0, v1, hq]
    have h2 : c 1 / c 0 ≤ besselI 1 p.x / besselI 0 p.x := by
      have := besselI_pos (2 * (n + Nat.sqrt (40 * n))) hx0
      have := besselI_pos (2 * (n + Nat.sqrt (40 * n)) + 1) hx0
      refine h1.trans (sub_le_self _ ?_)
      positivity
    have h3 : besselI 1 p.x / besselI 0 p.x ≤ 1 := by
      rw [div_le_one p0]
      exact besselI_succ_le hx0 0
    have h4 := (abs_le.1 ha).1
    generalize evaluatePnebi0Polynom Spec.real p.x = P at *
    generalize besselI 1 p.x / besselI 0 p.x = t at *
    generalize c 1 / c 0 = s at *
    have h5 : 999 / 1000 * pnebi 0 p.x ≤ P := by linarith
    have h6 : 0 ≤ P := by linarith
    have h7 := mul_le_mul_of_nonneg_right h5 (show 0 ≤ 1 - t by linarith)
    have h8 := mul_le_mul_of_nonneg_left h2 h6
    linarith
  · have hn' : (1 : ℝ) ≤ n := by exact_mod_cast hn
    obtain ⟨r', hr', hw⟩ := C112_accuracy_partial n p.x (by rwa [abs_of_pos hx0]) (by rw [abs_of_pos hx0]; nlinarith) ⟨n + 1, fun _ => 0⟩
    have : r = r' := Except.ok.inj (hr.symm.trans hr')
    subst this
    rw [abs_of_pos hx0] at hw
    have a0 := (abs_le.1 (hw 0 (by omega))).2
    have a1 := (abs_le.1 (hw 1 hn)).1
    have b0 := pnebi_zero_le hx0.le
    have b1 := pnebi_anti hx0.le 1
    rw [ey]
    linarith

theorem slope_three : pnebi 0 3 - pnebi 1 3 ≤ 99 / 1000 := by
  rw [pnebi, pnebi, besselI_eq, besselI_eq]
  have a1 := J_ge 0 12 (y := 9 / 4) (by norm_num)
  have a2 := J_le 0 12 (y := 9 / 4) (by norm_num) (by norm_num)
  have b1 := J_ge 1 12 (y := 9 / 4) (by norm_num)
  simp only [partialJ, Finset.sum_range_succ, Finset.sum_range_zero, Nat.factorial] at a1 a2 b1
  norm_num at a1 a2 b1 ⊢
  have he : Real.exp (-3) ≤ 1 / 19 := by
    rw [Real.exp_neg, inv_le_comm₀ (Real.exp_pos _) (by norm_num)]
    have h := Real.exp_one_gt_d9
    have e : Real.exp 3 = Real.exp 1 ^ 3 := by rw [← Real.exp_nat_mul]; norm_num
    rw [e]
    have : (2.7 : ℝ) ^ 3 ≤ Real.exp 1 ^ 3 := pow_le_pow_left₀ (by norm_num) (by linarith) 3
    norm_num at this ⊢
    linarith
  have hp := Real.exp_pos (-3)
  nlinarith

theorem slope_lower {x : ℝ} (hx : 15 / 4 ≤ x) : pnebi 0 x / (2 * x) ≤ pnebi 0 x - pnebi 1 x := by
  have hx0 : 0 < x := by linarith
  have hs : 0 < √x := Real.sqrt_pos.2 hx0
  rw [slope_gB hx0, pnebi_gB hx0]
  have h1 := gB'_neg hx
  have e : 2 * gB x / √x / (2 * x) = 2 / (x * √x) * (gB x / 2) := by field_simp
  rw [e]
  refine mul_le_mul_of_nonneg_left ?_ (by positivity)
  nlinarith

theorem gB_ge {x : ℝ} (hx : 15 / 4 ≤ x) : 3988 / 10000 ≤ gB x := by
  have hx0 : 0 < x := by linarith
  have hu1 : 15 / 4 * x⁻¹ ≤ 1 := by rw [← div_eq_mul_inv, div_le_one hx0]; exact hx
  have h1 := big_lower (15 / 4 * x⁻¹) (by positivity) hu1
  have h2 := (abs_le.1 (big_bessel x hx)).2
  linarith

theorem slope_four : 498 / 10000 ≤ pnebi 0 4 - pnebi 1 4 := by
  have h := slope_gB (x := 4) (by norm_num)
  have h1 := gB'_neg (x := 4) (by norm_num)
  have h2 := gB_ge (x := 4) (by norm_num)
  rw [h, show √(4 : ℝ) = 2 by rw [show (4 : ℝ) = 2 ^ 2 by norm_num]; exact Real.sqrt_sq (by norm_num)]
  linarith

/-- What the loop of `init` maintains: the derivative is nearly at least the slope at the last point, and not too large before 3.75. -/
structure Inv (x d y0 : ℝ) : Prop where
  start : (x = 0 ∧ d = -2) ∨ 1 / 1000000 ≤ x
  y0 : y0 = evaluatePnebi0Polynom Spec.real x
  neg : d < 0
  lower : 985 / 1000 * (pnebi 0 x - pnebi 1 x) ≤ -d
  upper : 3 ≤ x → x ≤ 15 / 4 → -d ≤ 1 / 10

theorem Inv.nonneg {x d y0 : ℝ} (h : Inv x d y0) : 0 ≤ x := by
  rcases h.start with ⟨h, -⟩ | h
  · rw [h]
  · linarith

theorem Inv.drop {x d y0 tol : ℝ} (h : Inv x d y0) (ht : 0 < tol) : pnebi 0 x - pnebi 0 (x - tol / d) ≤ 1000 / 985 * tol := by
  have hd := h.neg
  have hD : 0 < tol / -d := div_pos ht (by linarith)
  have e : x - tol / d = x + tol / -d := by rw [div_neg]; ring
  rw [e]
  refine (pnebi_drop (by linarith)).2.trans ?_
  have h1 := h.lower
  have h2 : tol / -d * -d = tol := div_mul_cancel₀ _ (by linarith)
  rw [add_sub_cancel_left]
  nlinarith

theorem cross_drop {x x' d y0 tol : ℝ} (h : Inv x d y0) (ht : 2 / 1000000 ≤ tol) (e : x' = x + tol / -d) (h1 : x < 15 / 4) (h2 : 15 / 4 ≤ x') :
    9 / 10000000 ≤ pnebi 0 x - pnebi 0 x' := by
  have hd := h.neg
  rcases lt_or_ge x 3 with h3 | h3
  · have a := (pnebi_drop h1.le).1
    have b := pnebi_zero_anti (by norm_num) h2
    have c := slope_start
    nlinarith
  · have hu := h.upper h3 h1.le
    have hD : 2 / 100000 ≤ tol / -d := by
      rw [le_div_iff₀ (by linarith)]
      nlinarith
    have a := (pnebi_drop (show x ≤ x + 2 / 100000 by linarith)).1
    have b := pnebi_zero_anti (x := x + 2 / 100000) (y := x') (by linarith) (by linarith)
    have c := slope_four.trans (pnebi_slope_anti (show x + 2 / 100000 ≤ 4 by linarith))
    rw [add_sub_cancel_left] at a
    linarith

theorem Inv.step {n : ℕ} (hn : 1 ≤ n) {x d y0 tol : ℝ} (h : Inv x d y0) (ht : 2 / 1000000 ≤ tol) {p : Point ℝ} (hp : IsPoint Spec.real n p)
    (hx : p.x = x - tol / d) :
    Inv p.x (min (max (p.y.val 1 - p.y.val 0) (d * (y0 - p.y.val 0) / tol)) derivMax) (p.y.val 0) ∧ 1 / 1000000 ≤ p.x := by
  have hd := h.neg
  have h0 := h.nonneg
  have htol : 0 < tol := by linarith
  have hD : 0 < tol / -d := div_pos htol (by linarith)
  have e : p.x = x + tol / -d := by rw [hx, div_neg]; ring
  have hx6 : 1 / 1000000 ≤ p.x := by
    rcases h.start with ⟨h1, h2⟩ | h1
    · rw [e, h1, h2]
      linarith
    · linarith
  obtain ⟨v0, v1, v2⟩ := point_values hn hp hx6
  have hm := derivMax_neg (K := ℝ)
  have hs := pnebi_slope_nonneg p.x
  have hratio : 985 / 1000 * (pnebi 0 p.x - pnebi 1 p.x) ≤ -(d * (y0 - p.y.val 0) / tol) := by
    have e2 : -(d * (y0 - p.y.val 0) / tol) = (y0 - p.y.val 0) / (tol / -d) := by
      have : d ≠ 0 := hd.ne
      field_simp
    rw [e2, le_div_iff₀ hD, h.y0, v0]
    have hxx : x ≤ p.x := by linarith
    obtain ⟨d1, d2⟩ := poly_drop h0 hxx
    have hdrop := (pnebi_drop hxx).1
    have hw : p.x - x = tol / -d := by linarith
    rw [hw] at hdrop
    by_cases hc : p.x < 15 / 4 ∨ 15 / 4 ≤ x
    · have d3 := d2 hc
      have : 0 ≤ (pnebi 0 p.x - pnebi 1 p.x) * (tol / -d) := mul_nonneg hs hD.le
      linarith
    · rw [not_or, not_lt, not_le] at hc
      have := cross_drop h ht e hc.2 hc.1
      linarith
  refine ⟨⟨Or.inr hx6, v0, lt_of_le_of_lt (min_le_right _ _) hm, ?_, fun h3 h4 => ?_⟩, hx6⟩
  · rw [le_neg]
    refine (min_le_left _ _).trans (max_le ?_ ?_)
    · linarith
    · linarith
  · have v3 := v2 (by linarith)
    have a := slope_three
    have b := pnebi_slope_anti h3
    have c : -(1 / 10 : ℝ) ≤ derivMax := by
      unfold derivMax
      have : (1 : ℝ) / 2 ^ 1022 ≤ 1 / 2 ^ 10 := one_div_le_one_div_of_le (by norm_num) (pow_le_pow_right₀ (by norm_num) (by norm_num))
      have e : (1 : ℝ) / 2 ^ 10 = 1 / 1024 := by norm_num
      rw [e] at this
      linarith
    rw [neg_le]
    refine le_min ?_ c
    refine le_trans ?_ (le_max_left _ _)
    linarith

/-- The relation between consecutive points. -/
def Close (tol : ℝ) (p q : Point ℝ) : Prop := pnebi 0 p.x - pnebi 0 q.x ≤ 1000 / 985 * tol ∧ 1 / 1000000 ≤ q.x

theorem lutLoop_close {n : ℕ} (hn : 1 ≤ n) {tol : ℝ} (ht : 2 / 1000000 ≤ tol) (m : ℕ) (x d y0 : ℝ) (h : Inv x d y0) (q : Point ℝ) (hq : q.x = x) :
    ∃ r, lutLoop Spec.real n tol m x d y0 = .ok r ∧ ∀ i (hi : i + 1 < (q :: r).length), Close tol (q :: r)[i] (q :: r)[i + 1] := by
  induction m generalizing x d y0 q with
  | zero => exact ⟨[], rfl, fun i hi => by simp at hi⟩
  | succ m ih =>
    obtain ⟨p, hp, hpx, hpp⟩ := point_new Spec.real n (x - tol / d)
    have h0 : p.y.get 0 = .ok (p.y.val 0) := p.y.get_nat (i := 0) (by rw [hpp.2]; omega)
    have h1 : p.y.get 1 = .ok (p.y.val 1) := p.y.get_nat (i := 1) (by rw [hpp.2]; omega)
    obtain ⟨hi1, hi2⟩ := h.step hn ht hpp hpx
    obtain ⟨r, hr, hc⟩ := ih p.x _ _ hi1 p rfl
    refine ⟨p :: r, ?_, fun i hi => ?_⟩
    · rw [lutLoop]
      dsimp only
      rw [hp, bind_okP, h0, bind_okP]
      rw [h1, bind_okP]
      rw [← hpx, hr]
      rfl
    · cases i with
      | zero =>
        refine ⟨?_, hi2⟩
        simp only [List.getElem_cons_zero, List.getElem_cons_succ]
        rw [hq, hpx]
        exact h.drop (by linarith)
      | succ i => exact hc i (by simpa using hi)

end Verif.Bessel
