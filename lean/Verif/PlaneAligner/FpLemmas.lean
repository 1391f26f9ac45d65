import Verif.PlaneAligner.FpModel
import Verif.Ieee.Approx
import Verif.Ieee.Rel
import Mathlib.Tactic.Linarith
import Mathlib.Tactic.Positivity
import Mathlib.Tactic.FieldSimp

/-! Lemmas for C128: rounding errors of the operations on vectors. -/
namespace Verif.PlaneAligner
open Verif Ieee Ieee.Fp Float.Model V3

theorem mant32 : ((Format.binary32.mantissaBits : ℕ) : ℤ) = 24 := rfl
theorem top32 : top Format.binary32 = 127 := by decide
theorem minExp32 : Format.binary32.minExponent = -149 := rfl

/-- All the coordinates are finite. -/
def V3.Fin3 (v : V3 Flt) : Prop := v.x.Fin ∧ v.y.Fin ∧ v.z.Fin

/-- The rounding unit. -/
noncomputable abbrev uu : ℝ := 1 / 16777216

theorem two24 : ((2 : ℝ) ^ (((Format.binary32.mantissaBits : ℕ) : ℤ))) = 16777216 := by rw [mant32]; norm_num

theorem add_rel {a b : Flt} (ha : a.Fin) (hb : b.Fin) (h : |a.val + b.val| ≤ 2 ^ (127 : ℤ)) : (a + b).Fin ∧ |(a + b).val - (a.val + b.val)| ≤ |a.val + b.val| * uu := by
  have hs := add_is ha hb (by rw [top32]; exact h)
  refine ⟨hs.1, ?_⟩
  have := hs.2.rel_multiple (multiple_add a b)
  rw [two24] at this
  exact this.trans (by rw [mul_one_div])

/-- The square of a coordinate. -/
theorem sq_rel {a : Flt} (ha : a.Fin) (h : |a.val| ≤ 2 ^ (62 : ℤ)) : (a * a).Fin ∧ 0 ≤ (a * a).val ∧ |(a * a).val - a.val ^ 2| ≤ a.val ^ 2 * uu + 2 ^ (-150 : ℤ) ∧ a.val ^ 2 ≤ 2 ^ (124 : ℤ) := by
  have h2 : a.val ^ 2 ≤ 2 ^ (124 : ℤ) := by
    have h3 := sq_le_sq' (by linarith [neg_abs_le a.val]) ((le_abs_self a.val).trans h)
    refine h3.trans (le_of_eq ?_)
    rw [← zpow_natCast, ← zpow_mul]; norm_num
  have hb : |a.val * a.val| ≤ 2 ^ top .binary32 := by
    rw [← pow_two, abs_of_nonneg (sq_nonneg _), top32]
    exact h2.trans (zpow_le_zpow_right₀ (by norm_num) (by norm_num))
  obtain ⟨h1, h3⟩ := mul_rel ha ha hb
  refine ⟨h1, (mul_is ha ha hb).2.mono_ge grid_zero (mul_self_nonneg _), ?_, h2⟩
  rw [two24, minExp32, ← pow_two, abs_of_nonneg (sq_nonneg a.val)] at h3
  exact h3.trans (by rw [mul_one_div]; exact le_refl _)

/-- The sum of three terms that are not negative. -/
theorem sum3_rel (o : Bool) {a b c : Flt} (ha : a.Fin) (hb : b.Fin) (hc : c.Fin) (ha0 : 0 ≤ a.val) (hb0 : 0 ≤ b.val) (hc0 : 0 ≤ c.val)
    (h : a.val + b.val + c.val ≤ 2 ^ (126 : ℤ)) :
    (sum3 o a b c).Fin ∧ |(sum3 o a b c).val - (a.val + b.val + c.val)| ≤ (a.val + b.val + c.val) * (2 * uu + uu ^ 2) := by
  have hp : (2 : ℝ) ^ (127 : ℤ) = 2 * 2 ^ (126 : ℤ) := by norm_num
  have key : ∀ {p q r : Flt}, p.Fin → q.Fin → r.Fin → 0 ≤ p.val → 0 ≤ q.val → 0 ≤ r.val → p.val + q.val + r.val ≤ 2 ^ (126 : ℤ) →
      (q + r).Fin ∧ |(q + r).val - (q.val + r.val)| ≤ (q.val + r.val) * uu ∧ |p.val + (q + r).val| ≤ 2 ^ (127 : ℤ) ∧ 0 ≤ (q + r).val := by
    intro p q r hp' hq hr p0 q0 r0 hs
    have h0 : |q.val + r.val| ≤ 2 ^ (127 : ℤ) := by rw [abs_of_nonneg (by linarith), hp]; linarith
    obtain ⟨h1, h2⟩ := add_rel hq hr h0
    rw [abs_of_nonneg (show 0 ≤ q.val + r.val by linarith)] at h2
    have h3 := abs_le.1 h2
    have hn : 0 ≤ (q + r).val := (add_is hq hr (by rw [top32]; exact h0)).2.mono_ge grid_zero (by linarith)
    refine ⟨h1, h2, ?_, hn⟩
    rw [abs_of_nonneg (by linarith), hp]
    have : (q.val + r.val) * uu ≤ q.val + r.val := by
      have : 0 ≤ q.val + r.val := by linarith
      unfold uu; linarith
    linarith
  unfold sum3
  cases o
  · rw [if_neg (by simp)]
    obtain ⟨h1, h2, h3, h4⟩ := key hc ha hb hc0 ha0 hb0 (by linarith)
    rw [add_comm] at h3
    obtain ⟨h5, h6⟩ := add_rel h1 hc h3
    refine ⟨h5, ?_⟩
    rw [abs_of_nonneg (show 0 ≤ (a + b).val + c.val by linarith)] at h6
    obtain ⟨e1, e2⟩ := abs_le.1 h2
    obtain ⟨e3, e4⟩ := abs_le.1 h6
    unfold uu at *
    rw [abs_le]
    constructor <;> nlinarith
  · rw [if_pos rfl]
    obtain ⟨h1, h2, h3, h4⟩ := key ha hb hc ha0 hb0 hc0 h
    obtain ⟨h5, h6⟩ := add_rel ha h1 h3
    refine ⟨h5, ?_⟩
    rw [abs_of_nonneg (show 0 ≤ a.val + (b + c).val by linarith)] at h6
    obtain ⟨e1, e2⟩ := abs_le.1 h2
    obtain ⟨e3, e4⟩ := abs_le.1 h6
    unfold uu at *
    rw [abs_le]
    constructor <;> nlinarith

/-- The squared length of a vector. -/
noncomputable def V3.sqlen (v : V3 Flt) : ℝ := v.x.val ^ 2 + v.y.val ^ 2 + v.z.val ^ 2

/-- `squaredNorm`. -/
theorem dot_self (o : Bool) {v : V3 Flt} (hf : v.Fin3) (hx : |v.x.val| ≤ 2 ^ (62 : ℤ)) (hy : |v.y.val| ≤ 2 ^ (62 : ℤ)) (hz : |v.z.val| ≤ 2 ^ (62 : ℤ)) (hs : 2 ^ (-120 : ℤ) ≤ v.sqlen) :
    (dotF o v v).Fin ∧ |(dotF o v v).val - v.sqlen| ≤ v.sqlen * (16 / 5 * uu) ∧ v.sqlen ≤ 2 ^ (126 : ℤ) := by
  obtain ⟨x1, x2, x3, x4⟩ := sq_rel hf.1 hx
  obtain ⟨y1, y2, y3, y4⟩ := sq_rel hf.2.1 hy
  obtain ⟨z1, z2, z3, z4⟩ := sq_rel hf.2.2 hz
  have hp : (2 : ℝ) ^ (126 : ℤ) = 4 * 2 ^ (124 : ℤ) := by norm_num
  have hq : (2 : ℝ) ^ (-150 : ℤ) = 2 ^ (-120 : ℤ) / 2 ^ 30 := by norm_num
  have h124 : (2 : ℝ) ^ (-120 : ℤ) ≤ 2 ^ (124 : ℤ) := zpow_le_zpow_right₀ (by norm_num) (by norm_num)
  have hle : v.sqlen ≤ 3 * 2 ^ (124 : ℤ) := by unfold V3.sqlen; linarith
  rw [hq] at x3 y3 z3
  rw [hp]
  obtain ⟨a1, a2⟩ := abs_le.1 x3
  obtain ⟨b1, b2⟩ := abs_le.1 y3
  obtain ⟨c1, c2⟩ := abs_le.1 z3
  have hsum : (v.x * v.x).val + (v.y * v.y).val + (v.z * v.z).val ≤ v.sqlen * (1 + uu) + 3 * (2 ^ (-120 : ℤ) / 2 ^ 30) := by unfold V3.sqlen; linarith
  have hsum' : v.sqlen * (1 - uu) - 3 * (2 ^ (-120 : ℤ) / 2 ^ 30) ≤ (v.x * v.x).val + (v.y * v.y).val + (v.z * v.z).val := by unfold V3.sqlen; linarith
  have h0 : 0 < v.sqlen := lt_of_lt_of_le (by positivity) hs
  generalize (2 : ℝ) ^ (124 : ℤ) = T at *
  generalize (2 : ℝ) ^ (-120 : ℤ) = t at *
  obtain ⟨f, e⟩ := sum3_rel o x1 y1 z1 x2 y2 z2 (by rw [hp]; unfold uu at *; linarith)
  refine ⟨f, ?_, by linarith⟩
  unfold dotF
  generalize (sum3 o (v.x * v.x) (v.y * v.y) (v.z * v.z)).val = S at *
  generalize (v.x * v.x).val + (v.y * v.y).val + (v.z * v.z).val = A at *
  generalize v.sqlen = s at *
  obtain ⟨e1, e2⟩ := abs_le.1 e
  unfold uu at *
  rw [abs_le]
  constructor <;> linarith

theorem sqrt_close {s S k : ℝ} (hs : 0 < s) (h : |S - s| ≤ s * k) : |Real.sqrt S - Real.sqrt s| ≤ Real.sqrt s * k := by
  have hr : 0 < Real.sqrt s := Real.sqrt_pos.2 hs
  have hk : 0 ≤ k := by
    by_contra hk
    have := mul_pos hs (neg_pos.2 (not_le.1 hk))
    linarith [abs_nonneg (S - s)]
  have h2 := Real.mul_self_sqrt hs.le
  by_cases hS : 0 ≤ S
  · have h1 := Real.mul_self_sqrt hS
    have hS' := Real.sqrt_nonneg S
    have e : (Real.sqrt S - Real.sqrt s) * (Real.sqrt S + Real.sqrt s) = S - s := by linear_combination h1 - h2
    have hd : |Real.sqrt S - Real.sqrt s| * (Real.sqrt S + Real.sqrt s) ≤ s * k := by
      rw [← abs_of_nonneg (show 0 ≤ Real.sqrt S + Real.sqrt s by linarith), ← abs_mul, e]; exact h
    have hd' : |Real.sqrt S - Real.sqrt s| * Real.sqrt s ≤ Real.sqrt s * k * Real.sqrt s := by
      have := mul_nonneg (abs_nonneg (Real.sqrt S - Real.sqrt s)) hS'
      nlinarith
    exact le_of_mul_le_mul_right hd' hr
  · have hS := not_le.1 hS
    rw [Real.sqrt_eq_zero_of_nonpos hS.le, zero_sub, abs_neg, abs_of_pos hr]
    have : 1 ≤ k := by
      by_contra hk1
      have := mul_lt_mul_of_pos_left (not_le.1 hk1) hs
      linarith [neg_abs_le (S - s)]
    nlinarith

/-- `normalize()` of a vector that is neither tiny nor huge. -/
theorem normalize_approx (o : Bool) {v : V3 Flt} (hf : v.Fin3) (hx : |v.x.val| ≤ 2 ^ (62 : ℤ)) (hy : |v.y.val| ≤ 2 ^ (62 : ℤ)) (hz : |v.z.val| ≤ 2 ^ (62 : ℤ)) (hs : 2 ^ (-120 : ℤ) ≤ v.sqlen) :
    Approx (normalizeF o v).x (v.x.val / Real.sqrt v.sqlen) (2 ^ (-21 : ℤ)) ∧ Approx (normalizeF o v).y (v.y.val / Real.sqrt v.sqlen) (2 ^ (-21 : ℤ)) ∧
      Approx (normalizeF o v).z (v.z.val / Real.sqrt v.sqlen) (2 ^ (-21 : ℤ)) := by
  obtain ⟨f, e, hS⟩ := dot_self o hf hx hy hz hs
  have hpos : (0 : ℝ) < 2 ^ (-120 : ℤ) := by positivity
  have h0 : 0 < v.sqlen := lt_of_lt_of_le hpos hs
  have hd : 0 < (dotF o v v).val := by
    have := (abs_le.1 e).1
    unfold uu at this
    linarith
  have hlt : 0 < dotF o v v := (lt_iff zero_is.1 f).2 (by rw [zero_is.2]; exact hd)
  have en : normalizeF o v = sdivF v (Fp.sqrt (dotF o v v)) := if_pos hlt
  rw [en]
  -- the norm
  have hr0 : 2 ^ (-60 : ℤ) ≤ Real.sqrt v.sqlen := by
    apply Real.le_sqrt_of_sq_le
    refine le_trans (le_of_eq ?_) hs
    norm_num
  have hr1 : Real.sqrt v.sqlen ≤ 2 ^ (63 : ℤ) := by
    rw [Real.sqrt_le_left (by positivity)]
    refine hS.trans (le_of_eq ?_)
    norm_num
  have hc := sqrt_close h0 e
  have hrp : 0 < Real.sqrt v.sqlen := Real.sqrt_pos.2 h0
  set ρ := Real.sqrt v.sqlen with hρ
  set σ := Real.sqrt (dotF o v v).val with hσ
  obtain ⟨c1, c2⟩ := abs_le.1 hc
  have hσ1 : σ ≤ 2 ^ (64 : ℤ) := by
    have : (2 : ℝ) ^ (64 : ℤ) = 2 * 2 ^ (63 : ℤ) := by norm_num
    rw [this]
    unfold uu at *
    linarith
  have his := sqrt_is f hd.le (by rw [top32, ← hσ]; exact hσ1.trans (zpow_le_zpow_right₀ (by norm_num) (by norm_num)))
  rw [← hσ] at his
  have hrel : |(Fp.sqrt (dotF o v v)).val - σ| ≤ σ * uu := by
    have hσ0 : 0 ≤ σ := Real.sqrt_nonneg _
    rcases his.2.rel with h | h
    · rw [two24, abs_of_nonneg hσ0] at h
      exact h.trans (by rw [mul_one_div])
    · rw [minExp32] at h
      refine h.trans ?_
      have h1 : (2 : ℝ) ^ (-149 - 1 : ℤ) = 2 ^ (-60 : ℤ) / 2 ^ 90 := by norm_num
      rw [h1]
      have h2 : ρ / 2 ≤ σ := by
        unfold uu at c1
        linarith
      have : 2 ^ (-60 : ℤ) / 2 ≤ σ := (div_le_div_of_nonneg_right hr0 (by norm_num)).trans h2
      have hp60 : (0 : ℝ) < 2 ^ (-60 : ℤ) := by positivity
      unfold uu
      linarith
  obtain ⟨d1, d2⟩ := abs_le.1 hrel
  have hR : |(Fp.sqrt (dotF o v v)).val - ρ| ≤ ρ * (43 / 10 * uu) := by
    rw [abs_le]
    unfold uu at *
    constructor <;> linarith
  obtain ⟨g1, g2⟩ := abs_le.1 hR
  generalize Fp.sqrt (dotF o v v) = R at *
  have hRp : 0 < R.val := by unfold uu at *; linarith
  -- the quotients
  have key : ∀ a : Flt, a.Fin → |a.val| ≤ ρ → Approx (a / R) (a.val / ρ) (2 ^ (-21 : ℤ)) := by
    intro a ha hle
    have hq : |a.val / ρ| ≤ 1 := by rw [abs_div, abs_of_pos hrp]; exact (div_le_one hrp).2 hle
    have hdiff : |a.val / R.val - a.val / ρ| ≤ 44 / 10 * uu := by
      have : a.val / R.val - a.val / ρ = a.val / ρ * ((ρ - R.val) / R.val) := by field_simp
      rw [this, abs_mul]
      have h1 : |(ρ - R.val) / R.val| ≤ 44 / 10 * uu := by
        rw [abs_div, abs_of_pos hRp, div_le_iff₀ hRp, abs_sub_comm]
        refine hR.trans ?_
        unfold uu at *
        linarith
      calc _ ≤ 1 * |(ρ - R.val) / R.val| := mul_le_mul_of_nonneg_right hq (abs_nonneg _)
        _ ≤ _ := by rw [one_mul]; exact h1
    have hb : |a.val / R.val| ≤ 2 ^ (1 : ℤ) := by
      have h1 := abs_le.1 hdiff
      have h2 := abs_le.1 hq
      rw [abs_le, zpow_one]
      unfold uu at *
      constructor <;> linarith [h1.1, h1.2, h2.1, h2.2]
    have hi := div_is ha his.1 hRp.ne' (hb.trans (by rw [top32]; exact zpow_le_zpow_right₀ (by norm_num) (by norm_num)))
    refine (hi.approx 1 (by rw [minExp32, mant32]; norm_num) hb hdiff).weaken ?_
    rw [mant32]
    unfold uu
    norm_num
  have hcomp : ∀ a b c : ℝ, |a| ≤ Real.sqrt (a ^ 2 + b ^ 2 + c ^ 2) := fun a b c => by
    rw [← Real.sqrt_sq_eq_abs]; exact Real.sqrt_le_sqrt (by nlinarith [sq_nonneg b, sq_nonneg c])
  refine ⟨key _ hf.1 (hcomp _ _ _), key _ hf.2.1 ?_, key _ hf.2.2 ?_⟩
  · refine (hcomp v.y.val v.x.val v.z.val).trans (le_of_eq ?_)
    rw [hρ, V3.sqlen]; congr 1; ring
  · refine (hcomp v.z.val v.x.val v.y.val).trans (le_of_eq ?_)
    rw [hρ, V3.sqlen]; congr 1; ring

end Verif.PlaneAligner
