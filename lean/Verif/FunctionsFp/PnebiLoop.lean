import Verif.FunctionsFp.PnebiRel
import Verif.FunctionsFp.LuCos

/-! The back recursion of `evaluatePnebiVector` in `double` arithmetic follows the exact one. -/
namespace Verif.FunctionsFp
open Verif Ieee Fp Float.Model

theorem big_is : bigNum.Fin ∧ bigNum.val = 10000000000 := by
  have h1 : bigNum.x = .finite .positive (10 ^ 10 * 2 ^ 19) (-19) (by decide) := by decide +kernel
  unfold Fp.Fin Fp.val
  rw [h1]
  refine ⟨trivial, ?_⟩
  simp only [Ieee.val, sgn]
  norm_num

theorem small_is : smallNum.Fin ∧ 9999 / 100000000000000 ≤ smallNum.val ∧ smallNum.val ≤ 10001 / 100000000000000 := by
  have h := approx_lit (spec := .binary64) (m := 1) (k := 10) (-33) (by decide) (by decide) (by decide) (by decide) (by decide) (by norm_num)
  obtain ⟨h1, h2⟩ := h
  refine ⟨h1, ?_⟩
  rw [mb.1] at h2
  have h2 : |smallNum.val - ((1 : ℕ) : ℝ) / 10 ^ 10| ≤ 2 ^ (-33 - 53 - 1 : ℤ) := h2
  generalize smallNum.val = s at h2 ⊢
  norm_num [abs_le] at h2
  constructor <;> linarith [h2.1, h2.2]

theorem Rel.bounds {N : ℕ} {b v : ℝ} (h : Rel N b v) (hv : 0 ≤ v) (hN : N ≤ 4000000) : 999 / 1000 * v ≤ b ∧ b ≤ 1001 / 1000 * v := by
  obtain ⟨h1, h2, h3⟩ := pow_bounds hN
  have hq : 0 ≤ (1 + ulp) ^ N := pow_nonneg (by linarith [ulp_pos]) N
  have h4 : 999 / 1000 ≤ (1 - ulp) ^ N := by linarith
  have h5 : (1 + ulp) ^ N ≤ 1001 / 1000 := by nlinarith
  refine ⟨le_trans ?_ h.1, h.2.trans ?_⟩
  · rw [mul_comm]; exact mul_le_mul_of_nonneg_left h4 hv
  · rw [mul_comm]; exact mul_le_mul_of_nonneg_right h5 hv

/-- What is needed of the factor `F`, near `f`, and of the first order `m`. -/
structure Par (F : Dbl) (f : ℝ) (m : ℕ) : Prop where
  fin : F.Fin
  rel : Rel 1 F.val f
  low : 2 ^ (-400 : ℤ) ≤ f
  one : 1 ≤ m
  max : m ≤ 210000
  high : 1 + f * m ≤ 9800000000

variable {F : Dbl} {f : ℝ} {m n : ℕ}

/-- The greatest ratio of consecutive values. -/
noncomputable def ratio (f : ℝ) (m : ℕ) : ℝ := 1 / f + f * m

/-- A lower bound of the values. -/
noncomputable def least (f : ℝ) (m : ℕ) : ℝ := 1 / (3 * ratio f m)

theorem Par.pos (h : Par F f m) : 0 < f := (two_pow_pos _).trans_le h.low

theorem Par.ratio_pos (h : Par F f m) : 0 < ratio f m := by
  have := h.pos
  unfold ratio
  positivity

theorem Par.least_pos (h : Par F f m) : 0 < least f m := by
  have := h.ratio_pos
  unfold least
  positivity

theorem Par.ratio_one (h : Par F f m) : 1 ≤ ratio f m := by
  have h0 := h.pos
  have h1 : (1 : ℝ) ≤ m := by exact_mod_cast h.one
  unfold ratio
  have h2 : f * 1 ≤ f * m := mul_le_mul_of_nonneg_left h1 h0.le
  have h3 : 0 < 1 / f := by positivity
  by_cases hf : 1 ≤ f
  · linarith
  · have : 1 ≤ 1 / f := by rw [le_div_iff₀ h0]; linarith
    linarith

theorem Par.least_le (h : Par F f m) : least f m ≤ f / 3 ∧ least f m ≤ 1 / 3 := by
  have h0 := h.pos
  have h1 := h.ratio_pos
  have h2 := h.ratio_one
  unfold least
  rw [div_le_div_iff₀ (by positivity) (by norm_num), div_le_div_iff₀ (by positivity) (by norm_num)]
  refine ⟨?_, by linarith⟩
  have : f * ratio f m = 1 + f * f * m := by
    unfold ratio
    field_simp
  have h3 : 0 ≤ f * f * m := by positivity
  linarith

theorem Par.ratio_le (h : Par F f m) : ratio f m ≤ 2 ^ (401 : ℤ) := by
  have h0 := h.pos
  unfold ratio
  have h1 : 1 / f ≤ 2 ^ (400 : ℤ) := by
    rw [div_le_iff₀ h0]
    calc (1 : ℝ) = 2 ^ (400 : ℤ) * 2 ^ (-400 : ℤ) := by rw [← two_pow_add]; norm_num
      _ ≤ _ := mul_le_mul_of_nonneg_left h.low (two_pow_pos _).le
  have h2 : (2 : ℝ) ^ (34 : ℤ) ≤ 2 ^ (400 : ℤ) := two_pow_le (by norm_num)
  have h3 : (2 : ℝ) ^ (34 : ℤ) = 17179869184 := by norm_num
  have h4 : (2 : ℝ) ^ (401 : ℤ) = 2 ^ (400 : ℤ) * 2 := by rw [show (401 : ℤ) = 400 + 1 by norm_num, two_pow_add, zpow_one]
  rw [h3] at h2
  rw [h4]
  have h5 := h.high
  clear h3 h4
  generalize (2 : ℝ) ^ (400 : ℤ) = a at *
  linarith

theorem Par.least_ge (h : Par F f m) : 2 ^ (-403 : ℤ) ≤ least f m := by
  have h1 := h.ratio_le
  have h2 := h.ratio_pos
  unfold least
  rw [le_div_iff₀ (by positivity)]
  calc (2 : ℝ) ^ (-403 : ℤ) * (3 * ratio f m) ≤ 2 ^ (-403 : ℤ) * (3 * 2 ^ (401 : ℤ)) := by gcongr
    _ = 3 * 2 ^ (-403 + 401 : ℤ) := by rw [two_pow_add]; ring
    _ ≤ 1 := by norm_num

theorem dbl_top {v : ℝ} (h : |v| ≤ 2 ^ (1000 : ℤ)) : |v| ≤ 2 ^ top Format.binary64 := h.trans (two_pow_le (by decide))

theorem dbl_top' {v : ℝ} (h0 : 0 ≤ v) (h : v ≤ 10 ^ 40) : |v| ≤ 2 ^ top Format.binary64 := by
  refine dbl_top ?_
  rw [abs_of_nonneg h0]
  refine h.trans (le_trans ?_ (two_pow_le (show (140 : ℤ) ≤ 1000 by norm_num)))
  norm_num

theorem nat_is {k : ℕ} (h : k ≤ 210000) : ((k : Dbl)).Fin ∧ (k : Dbl).val = k := by
  have hk : (k : ℝ) ≤ 210000 := by exact_mod_cast h
  refine natCast_exact (hk.trans ?_) (le_trans ?_ (dbl_top' (v := k) (by positivity) (by linarith)))
  · rw [mb.1]; norm_num
  · exact le_abs_self _

/-- The product of the factor and the order. -/
theorem Par.prod (h : Par F f m) {k : ℕ} (hk : k ≤ m) :
    (F * (k : Dbl)).Fin ∧ Rel 2 (F * (k : Dbl)).val (f * k) ∧ (k = 0 → (F * (k : Dbl)).val = 0) ∧ (F * (k : Dbl)).val ≤ 1001 / 1000 * (f * m) ∧
      (1 ≤ k → 2 ^ (-402 : ℤ) ≤ (F * (k : Dbl)).val) := by
  have h0 := h.pos
  obtain ⟨k1, k2⟩ := nat_is (hk.trans h.max)
  obtain ⟨b1, b2⟩ := h.rel.bounds h0.le (by norm_num)
  have hkm : (k : ℝ) ≤ m := by exact_mod_cast hk
  have hkm' : f * k ≤ f * m := mul_le_mul_of_nonneg_left hkm h0.le
  have hF : 0 ≤ F.val := by linarith
  have hk0 : (0 : ℝ) ≤ k := Nat.cast_nonneg k
  have hp : F.val * k ≤ 1001 / 1000 * (f * k) := by nlinarith
  have hq : 999 / 1000 * (f * k) ≤ F.val * k := by nlinarith
  have h0k : 0 ≤ F.val * k := mul_nonneg hF hk0
  have hi := mul_is h.fin k1 (by rw [k2]; exact dbl_top' h0k (by linarith [h.high]))
  rw [k2] at hi
  have hs : F.val * k = 0 ∨ 2 ^ (-401 : ℤ) ≤ F.val * k := by
    rcases Nat.eq_zero_or_pos k with rfl | hk1
    · left; simp
    · right
      have : (1 : ℝ) ≤ k := by exact_mod_cast hk1
      have h1 : f * 1 ≤ f * k := mul_le_mul_of_nonneg_left this h0.le
      have h2 : (2 : ℝ) ^ (-400 : ℤ) = 2 ^ (-401 : ℤ) * 2 := by rw [show (-400 : ℤ) = -401 + 1 by norm_num, two_pow_add, zpow_one]
      have := two_pow_pos (-401)
      linarith [h.low]
  have hr : Rel 2 (F * (k : Dbl)).val (f * k) := by
    have := (h.rel.mul (rel_self (k : ℝ)) h0.le hk0).round hi (hs.imp_right fun h => le_trans (two_pow_le (by norm_num)) h)
    simpa using this
  have hb := hr.bounds (by positivity) (by norm_num)
  refine ⟨hi.1, hr, fun hk0 => ?_, by linarith [hb.2], fun hk1 => ?_⟩
  · subst hk0
    have := hr
    simp [Rel] at this
    linarith
  · have : (1 : ℝ) ≤ k := by exact_mod_cast hk1
    have h1 : f * 1 ≤ f * k := mul_le_mul_of_nonneg_left this h0.le
    have h2 : (2 : ℝ) ^ (-400 : ℤ) = 2 ^ (-402 : ℤ) * 4 := by rw [show (-400 : ℤ) = -402 + 2 by norm_num, two_pow_add]; norm_num
    have := two_pow_pos (-402)
    linarith [h.low, hb.1]

/-- The state before the iteration `i` of the back recursion, of order `m - i`. -/
structure Inv (f : ℝ) (m n i : ℕ) (σ : ℝ) (s : Functions.Seq Dbl) : Prop where
  pos : 0 < σ
  prevFin : s.prev.Fin
  currFin : s.curr.Fin
  prevRel : Rel (5 * i) s.prev.val (σ * mil f m i)
  currRel : Rel (5 * i) s.curr.val (σ * mil f m (i + 1))
  prevLe : s.prev.val ≤ 10000000000
  currLe : s.curr.val ≤ 10000000000
  prevGe : i = 0 ∨ least f m ≤ s.prev.val
  currGe : least f m ≤ s.curr.val
  first : i = 0 → s.prev.val = 0 ∧ s.curr.val = 1
  len : n < s.pnebis.len
  stored : ∀ j ≤ n, j ≤ m → m < i + j → (s.pnebis.val j).Fin ∧ 0 ≤ (s.pnebis.val j).val ∧ (s.pnebis.val j).val ≤ 10000000000 ∧
    σ * mil f m (m + 1 - j) * (1 - ulp) ^ (5 * i) - 2 ^ (-1073 : ℤ) ≤ (s.pnebis.val j).val ∧
    (s.pnebis.val j).val ≤ σ * mil f m (m + 1 - j) * (1 + ulp) ^ (5 * i) + 2 ^ (-1073 : ℤ)
  last : 1 ≤ i → m + 1 - i ≤ n → s.pnebis.val (m + 1 - i) = s.prev

/-- The next value of the recursion. -/
theorem Inv.next (h : Par F f m) {i : ℕ} (hi : i ≤ m) {σ : ℝ} {s : Functions.Seq Dbl} (I : Inv f m n i σ s) {y : Dbl} (hy : y = s.prev + F * ((m - i : ℕ) : Dbl) * s.curr) :
    y.Fin ∧ Rel (5 * i + 4) y.val (σ * mil f m (i + 2)) ∧ y.val ≤ 99500000000000000000 ∧ least f m ≤ y.val ∧ y.val ≤ 101 / 100 * ratio f m * s.curr.val := by
  have hmax := h.max
  have hσ := I.pos
  obtain ⟨p1, p2⟩ := mil_pos (m := m) h.pos i hi
  obtain ⟨q1, q2, q3, q4, q5⟩ := h.prod (Nat.sub_le m i)
  have hl := h.least_pos
  have hL := h.least_ge
  have hc0 : 0 < s.curr.val := hl.trans_le I.currGe
  have hp0 : 0 ≤ s.prev.val := by
    rcases I.prevGe with h1 | h1
    · exact (I.first h1).1.ge
    · exact hl.le.trans h1
  have hfm : 0 ≤ f * m := by have := h.pos; positivity
  have hfk : 0 ≤ f * ((m - i : ℕ) : ℝ) := by have := h.pos; positivity
  generalize hg : F * ((m - i : ℕ) : Dbl) = g at *
  have hg0 : 0 ≤ g.val := q2.nonneg hfk
  have hz0 : 0 ≤ g.val * s.curr.val := mul_nonneg hg0 hc0.le
  have hz1 : g.val * s.curr.val ≤ 1001 / 1000 * (f * m) * 10000000000 := mul_le_mul q4 I.currLe hc0.le (by positivity)
  have hhigh := h.high
  have hz := mul_is q1 I.currFin (dbl_top' hz0 (by linarith))
  have hzs : g.val * s.curr.val = 0 ∨ 2 ^ (-805 : ℤ) ≤ g.val * s.curr.val := by
    rcases Nat.eq_zero_or_pos (m - i) with hk | hk
    · left; rw [q3 hk, zero_mul]
    · right
      calc (2 : ℝ) ^ (-805 : ℤ) = 2 ^ (-402 : ℤ) * 2 ^ (-403 : ℤ) := by rw [← two_pow_add]; norm_num
        _ ≤ _ := mul_le_mul (q5 hk) (hL.trans I.currGe) (two_pow_pos _).le hg0
  have rz := (q2.mul I.currRel hfk (mul_pos hσ p2).le).round hz (hzs.imp_right fun h => le_trans (two_pow_le (by norm_num)) h)
  have rz1 := round_rel hz (hzs.imp_right fun h => le_trans (two_pow_le (by norm_num)) h)
  have bz := rz1.bounds hz0 (by norm_num)
  generalize hzz : g * s.curr = z at *
  have hz0' : 0 ≤ z.val := rz1.nonneg hz0
  have hyi := add_is I.prevFin hz.1 (dbl_top' (add_nonneg hp0 hz0') (by linarith [I.prevLe]))
  rw [← hy] at hyi
  have hys : 2 ^ (-1022 : ℤ) ≤ s.prev.val + z.val := by
    rcases I.prevGe with h1 | h1
    · rcases hzs with h2 | h2
      · exfalso
        have := q5 (by have := h.one; omega)
        have := two_pow_pos (-402)
        rcases mul_eq_zero.1 h2 with h3 | h3 <;> linarith
      · have h3 : (2 : ℝ) ^ (-1022 : ℤ) ≤ 2 ^ (-806 : ℤ) := two_pow_le (by norm_num)
        have h4 : (2 : ℝ) ^ (-805 : ℤ) = 2 ^ (-806 : ℤ) * 2 := by rw [show (-805 : ℤ) = -806 + 1 by norm_num, two_pow_add, zpow_one]
        have := two_pow_pos (-806)
        generalize (2 : ℝ) ^ (-806 : ℤ) = a at *
        generalize (2 : ℝ) ^ (-805 : ℤ) = b at *
        linarith
    · have h3 : (2 : ℝ) ^ (-1022 : ℤ) ≤ 2 ^ (-403 : ℤ) := two_pow_le (by norm_num)
      linarith
  have e : σ * mil f m (i + 2) = σ * mil f m i + f * ((m - i : ℕ) : ℝ) * (σ * mil f m (i + 1)) := by rw [mil]; ring
  have ry : Rel (5 * i + 4) y.val (σ * mil f m (i + 2)) := by
    rw [e]
    have h1 : Rel (5 * i + 3) s.prev.val (σ * mil f m i) := I.prevRel.mono (mul_nonneg hσ.le p1) (by omega)
    have h2 : Rel (5 * i + 3) z.val (f * ((m - i : ℕ) : ℝ) * (σ * mil f m (i + 1))) := by
      rw [show 5 * i + 3 = 2 + 5 * i + 1 by ring]
      exact rz
    exact (h1.add h2).round hyi (Or.inr hys)
  have ry1 := (round_rel hyi (Or.inr hys)).bounds (add_nonneg hp0 hz0') (by norm_num)
  have hhi := mil_high (m := m) h.pos i hi
  have p3 : 0 ≤ mil f m (i + 2) := by
    rw [mil]
    exact add_nonneg p1 (mul_nonneg hfk p2.le)
  refine ⟨hyi.1, ry, ?_, ?_, ?_⟩
  · linarith [I.prevLe]
  · rcases I.prevGe with h1 | h1
    · have h2 := I.first h1
      have h3 : m - i = m := by omega
      have h4 := (q2.bounds hfk (by norm_num)).1
      rw [h3] at h4
      rw [h2.2, mul_one] at bz
      have h5 := h.least_le.1
      have h6 : f * 1 ≤ f * m := mul_le_mul_of_nonneg_left (by exact_mod_cast h.one) h.pos.le
      have := h.pos
      linarith
    · exact h1.trans ((fin_is I.prevFin).mono hyi (by linarith))
  · have b1 := (ry.bounds (mul_nonneg hσ.le p3) (by omega)).2
    have b2 := (I.currRel.bounds (mul_pos hσ p2).le (by omega)).1
    have b3 : σ * mil f m (i + 2) ≤ ratio f m * (σ * mil f m (i + 1)) := by
      have := mul_le_mul_of_nonneg_left hhi hσ.le
      unfold ratio
      linarith
    have b4 : ratio f m * (999 / 1000 * (σ * mil f m (i + 1))) ≤ ratio f m * s.curr.val := mul_le_mul_of_nonneg_left b2 h.ratio_pos.le
    have b5 : 0 ≤ ratio f m * s.curr.val := mul_nonneg h.ratio_pos.le hc0.le
    linarith

/-- The rounding of a number that is not negative. -/
theorem round_near {a : Dbl} {b : ℝ} (h : a.Is b) (hb : 0 ≤ b) : b * (1 - ulp) - 2 ^ (-1075 : ℤ) ≤ a.val ∧ a.val ≤ b * (1 + ulp) + 2 ^ (-1075 : ℤ) := by
  have hp := two_pow_pos (-1075)
  have hu := mul_nonneg hb ulp_pos.le
  rcases h.2.rel with h1 | h1
  · rw [abs_of_nonneg hb, mb.1] at h1
    have h1 : |a.val - b| ≤ b * ulp := by
      refine le_of_le_of_eq h1 ?_
      unfold ulp
      rw [show (2 : ℝ) ^ (53 : ℤ) = 2 ^ 53 by norm_cast]
      ring
    have := abs_le.1 h1
    constructor <;> linarith
  · have h1 : |a.val - b| ≤ 2 ^ (-1075 : ℤ) := h1
    have := abs_le.1 h1
    generalize (2 : ℝ) ^ (-1075 : ℤ) = t at *
    constructor <;> linarith

/-- The product by `SMALL_NUM`. -/
theorem scaled {y : Dbl} (hy : y.Fin) (h0 : 0 ≤ y.val) (h1 : y.val ≤ 10 ^ 20) : (y * smallNum).Is (y.val * smallNum.val) := by
  obtain ⟨s1, s2, s3⟩ := small_is
  refine mul_is hy s1 (dbl_top' (mul_nonneg h0 (by linarith)) ?_)
  calc y.val * smallNum.val ≤ 10 ^ 20 * 1 := mul_le_mul h1 (by linarith) (by linarith) (by norm_num)
    _ ≤ _ := by norm_num

theorem scaled_rel {y : Dbl} (hy : y.Fin) (h0 : 2 ^ (-900 : ℤ) ≤ y.val) (h1 : y.val ≤ 10 ^ 20) {N : ℕ} {v : ℝ} (hv : 0 ≤ v) (h : Rel N y.val v) :
    (y * smallNum).Fin ∧ Rel (N + 1) (y * smallNum).val (v * smallNum.val) ∧ 998 / 1000 * (y.val / 10000000000) ≤ (y * smallNum).val ∧
      (y * smallNum).val ≤ 1002 / 1000 * (y.val / 10000000000) := by
  obtain ⟨s1, s2, s3⟩ := small_is
  have hy0 : 0 < y.val := (two_pow_pos _).trans_le h0
  have hi := scaled hy hy0.le h1
  have hs : 2 ^ (-1022 : ℤ) ≤ y.val * smallNum.val := by
    calc (2 : ℝ) ^ (-1022 : ℤ) ≤ 2 ^ (-940 : ℤ) := two_pow_le (by norm_num)
      _ = 2 ^ (-900 : ℤ) * 2 ^ (-40 : ℤ) := by rw [← two_pow_add]; norm_num
      _ ≤ _ := mul_le_mul h0 (le_trans (by norm_num) s2) (two_pow_pos _).le hy0.le
  have hr := (h.mul (rel_self smallNum.val) hv (by linarith)).round hi (Or.inr hs)
  have hb := (round_rel hi (Or.inr hs)).bounds (by nlinarith) (by norm_num)
  have e1 := mul_le_mul_of_nonneg_left s2 hy0.le
  have e2 := mul_le_mul_of_nonneg_left s3 hy0.le
  refine ⟨hi.1, hr, ?_, ?_⟩ <;> linarith [hb.1, hb.2]

theorem scaled_stored {p : Dbl} {v : ℝ} {N : ℕ} (hv : 0 ≤ v) (hp : p.Fin) (h0 : 0 ≤ p.val) (h1 : p.val ≤ 10000000000)
    (h2 : v * (1 - ulp) ^ N - 2 ^ (-1073 : ℤ) ≤ p.val) (h3 : p.val ≤ v * (1 + ulp) ^ N + 2 ^ (-1073 : ℤ)) :
    (p * smallNum).Fin ∧ 0 ≤ (p * smallNum).val ∧ (p * smallNum).val ≤ 10000000000 ∧
      v * smallNum.val * (1 - ulp) ^ (N + 1) - 2 ^ (-1073 : ℤ) ≤ (p * smallNum).val ∧ (p * smallNum).val ≤ v * smallNum.val * (1 + ulp) ^ (N + 1) + 2 ^ (-1073 : ℤ) := by
  obtain ⟨s1, s2, s3⟩ := small_is
  have hi := scaled hp h0 (by linarith)
  have hm0 : 0 ≤ p.val * smallNum.val := mul_nonneg h0 (by linarith)
  obtain ⟨r1, r2⟩ := round_near hi hm0
  have hz : 0 ≤ (p * smallNum).val := hi.2.mono_ge grid_zero hm0
  have e : (2 : ℝ) ^ (-1073 : ℤ) = 4 * 2 ^ (-1075 : ℤ) := by rw [show (-1073 : ℤ) = 2 + -1075 by norm_num, two_pow_add]; norm_num
  have ht := two_pow_pos (-1075)
  have ht1 : (2 : ℝ) ^ (-1075 : ℤ) ≤ 1 := by
    calc (2 : ℝ) ^ (-1075 : ℤ) ≤ 2 ^ (0 : ℤ) := two_pow_le (by norm_num)
      _ = 1 := zpow_zero _
  rw [e] at h2 h3 ⊢
  have hu := ulp_pos
  have hu1 := ulp_lt
  have hm1 : p.val * smallNum.val ≤ 10000000000 * (10001 / 100000000000000) := mul_le_mul h1 s3 (by linarith) (by norm_num)
  generalize (2 : ℝ) ^ (-1075 : ℤ) = t at *
  refine ⟨hi.1, hz, ?_, ?_, ?_⟩
  · nlinarith
  · rw [pow_succ]
    have h4 := mul_le_mul_of_nonneg_right (mul_le_mul_of_nonneg_right h2 (show 0 ≤ smallNum.val by linarith)) (show 0 ≤ 1 - ulp by linarith)
    have h5 : 4 * t * smallNum.val * (1 - ulp) ≤ t := by
      have : smallNum.val * (1 - ulp) ≤ 1 / 4 := by nlinarith
      nlinarith
    linarith
  · rw [pow_succ]
    have h4 := mul_le_mul_of_nonneg_right (mul_le_mul_of_nonneg_right h3 (show 0 ≤ smallNum.val by linarith)) (show 0 ≤ 1 + ulp by linarith)
    have h5 : 4 * t * smallNum.val * (1 + ulp) ≤ t := by
      have : smallNum.val * (1 + ulp) ≤ 1 / 4 := by nlinarith
      nlinarith
    linarith

/-- One iteration. -/
theorem Inv.step (h : Par F f m) {i : ℕ} (hi : i ≤ m) {σ : ℝ} {s : Functions.Seq Dbl} (I : Inv f m n i σ s) :
    ∃ σ' s', backStep n F (m - i) s = .ok s' ∧ s'.pnebis.len = s.pnebis.len ∧ Inv f m n (i + 1) σ' s' := by
  obtain ⟨y, hy⟩ : ∃ y, y = s.prev + F * ((m - i : ℕ) : Dbl) * s.curr := ⟨_, rfl⟩
  obtain ⟨y1, y2, y3, y4, y5⟩ := I.next h hi hy
  have hσ := I.pos
  obtain ⟨p1, p2⟩ := mil_pos (m := m) h.pos i hi
  have p3 : 0 ≤ mil f m (i + 2) := by
    rw [mil]
    have := h.pos
    positivity
  have hl := h.least_pos
  have hL := h.least_ge
  have hL9 : (2 : ℝ) ^ (-900 : ℤ) ≤ 2 ^ (-403 : ℤ) := two_pow_le (by norm_num)
  have hmax := h.max
  have hc0 : 0 < s.curr.val := hl.trans_le I.currGe
  -- the stored values after the assignment
  obtain ⟨q, hq⟩ : ∃ q : Vec Dbl, q = ⟨s.pnebis.len, fun j => if j = m - i ∧ m - i ≤ n then s.curr else s.pnebis.val j⟩ := ⟨_, rfl⟩
  have hset : (if m - i ≤ n then s.pnebis.set ((m - i : ℕ) : ℤ) s.curr else .ok s.pnebis) = .ok q := by
    split
    · rename_i hk
      rw [Vec.set_nat _ (by have := I.len; omega), hq]
      simp [hk]
    · rename_i hk
      rw [hq]
      simp [hk]
  have hql : q.len = s.pnebis.len := by rw [hq]
  have hqs : ∀ j ≤ n, j ≤ m → m < i + 1 + j → (q.val j).Fin ∧ 0 ≤ (q.val j).val ∧ (q.val j).val ≤ 10000000000 ∧
      σ * mil f m (m + 1 - j) * (1 - ulp) ^ (5 * i) - 2 ^ (-1073 : ℤ) ≤ (q.val j).val ∧
      (q.val j).val ≤ σ * mil f m (m + 1 - j) * (1 + ulp) ^ (5 * i) + 2 ^ (-1073 : ℤ) := by
    intro j hj hjm hij
    by_cases hj' : j = m - i
    · have e : q.val j = s.curr := by rw [hq]; exact if_pos ⟨hj', hj' ▸ hj⟩
      rw [e, show m + 1 - j = i + 1 by omega]
      have := I.currRel
      have ht := two_pow_pos (-1073)
      exact ⟨I.currFin, hc0.le, I.currLe, by linarith [this.1], by linarith [this.2]⟩
    · have e : q.val j = s.pnebis.val j := by rw [hq]; simp [hj']
      rw [e]
      exact I.stored j hj hjm (by omega)
  have hqk : m - i ≤ n → q.val (m - i) = s.curr := by
    intro hk
    rw [hq]
    simp [hk]
  have hrun : backStep n F (m - i) s = if bigNum < y then .ok ⟨s.curr * smallNum, y * smallNum, ⟨q.len, fun i => q.val i * smallNum⟩⟩ else .ok ⟨s.curr, y, q⟩ := by
    unfold backStep
    simp only [← hy, hset]
    rfl
  have hbig : bigNum < y ↔ 10000000000 < y.val := by rw [lt_iff big_is.1 y1, big_is.2]
  by_cases hb : 10000000000 < y.val
  · rw [if_pos (hbig.2 hb)] at hrun
    obtain ⟨s1, s2, s3⟩ := small_is
    obtain ⟨a1, a2, a3, a4⟩ := scaled_rel I.currFin (hL9.trans (hL.trans I.currGe)) (I.currLe.trans (by norm_num)) (mul_pos hσ p2).le I.currRel
    obtain ⟨b1, b2, b3, b4⟩ := scaled_rel y1 (hL9.trans (hL.trans y4)) (y3.trans (by norm_num)) (mul_nonneg hσ.le p3) y2
    refine ⟨σ * smallNum.val, _, hrun, hql, ⟨mul_pos hσ (by linarith), a1, b1, ?_, ?_, ?_, ?_, Or.inr ?_, ?_, by omega, ?_, ?_, ?_⟩⟩
    · rw [show σ * smallNum.val * mil f m (i + 1) = σ * mil f m (i + 1) * smallNum.val by ring]
      exact a2.mono (by have := mul_pos hσ p2; have : 0 ≤ smallNum.val := by linarith
                        positivity) (by omega)
    · rw [show σ * smallNum.val * mil f m (i + 1 + 1) = σ * mil f m (i + 2) * smallNum.val by ring]
      exact b2
    · show (s.curr * smallNum).val ≤ _
      linarith [I.currLe]
    · show (y * smallNum).val ≤ _
      linarith
    · show least f m ≤ (s.curr * smallNum).val
      have hrp := h.ratio_pos
      have h1 : 10000000000 < 101 / 100 * ratio f m * s.curr.val := hb.trans_le y5
      have h2 : least f m ≤ 998 / 1000 * (s.curr.val / 10000000000) := by
        unfold least
        rw [div_le_iff₀ (by positivity)]
        linarith
      linarith
    · show least f m ≤ (y * smallNum).val
      have := h.least_le.2
      linarith
    · show n < q.len
      rw [hql]; exact I.len
    · intro j hj hjm hij
      obtain ⟨c1, c2, c3, c4, c5⟩ := hqs j hj hjm hij
      have hm : 0 ≤ mil f m (m + 1 - j) := by
        rw [show m + 1 - j = (m - j) + 1 by omega]
        exact (mil_pos (m := m) h.pos (m - j) (by omega)).2.le
      obtain ⟨d1, d2, d3, d4, d5⟩ := scaled_stored (mul_nonneg hσ.le hm) c1 c2 c3 c4 c5
      have hsm : 0 ≤ σ * mil f m (m + 1 - j) * smallNum.val := mul_nonneg (mul_nonneg hσ.le hm) (by linarith)
      have R1 : (1 - ulp) ^ (5 * (i + 1)) ≤ (1 - ulp) ^ (5 * i + 1) := pow_le_pow_of_le_one (by linarith [ulp_lt]) (by linarith [ulp_pos]) (by omega)
      have R2 : (1 + ulp) ^ (5 * i + 1) ≤ (1 + ulp) ^ (5 * (i + 1)) := pow_le_pow_right₀ (by linarith [ulp_pos]) (by omega)
      refine ⟨d1, d2, d3, le_trans ?_ d4, d5.trans ?_⟩
      · rw [show σ * smallNum.val * mil f m (m + 1 - j) = σ * mil f m (m + 1 - j) * smallNum.val by ring]
        exact sub_le_sub_right (mul_le_mul_of_nonneg_left R1 hsm) _
      · rw [show σ * smallNum.val * mil f m (m + 1 - j) = σ * mil f m (m + 1 - j) * smallNum.val by ring]
        exact add_le_add_left (mul_le_mul_of_nonneg_left R2 hsm) _
    · intro _ hk
      show q.val (m + 1 - (i + 1)) * smallNum = s.curr * smallNum
      rw [show m + 1 - (i + 1) = m - i by omega] at hk ⊢
      rw [hqk hk]
  · rw [if_neg (fun h => hb (hbig.1 h))] at hrun
    refine ⟨σ, _, hrun, hql, ⟨hσ, I.currFin, y1, ?_, ?_, I.currLe, not_lt.1 hb, Or.inr I.currGe, y4, by omega, ?_, ?_, ?_⟩⟩
    · exact I.currRel.mono (mul_pos hσ p2).le (by omega)
    · exact y2.mono (mul_nonneg hσ.le p3) (by omega)
    · show n < q.len
      rw [hql]; exact I.len
    · intro j hj hjm hij
      obtain ⟨c1, c2, c3, c4, c5⟩ := hqs j hj hjm hij
      have hm : 0 ≤ mil f m (m + 1 - j) := by
        rw [show m + 1 - j = (m - j) + 1 by omega]
        exact (mil_pos (m := m) h.pos (m - j) (by omega)).2.le
      have hsm : 0 ≤ σ * mil f m (m + 1 - j) := mul_nonneg hσ.le hm
      have R1 : (1 - ulp) ^ (5 * (i + 1)) ≤ (1 - ulp) ^ (5 * i) := pow_le_pow_of_le_one (by linarith [ulp_lt]) (by linarith [ulp_pos]) (by omega)
      have R2 : (1 + ulp) ^ (5 * i) ≤ (1 + ulp) ^ (5 * (i + 1)) := pow_le_pow_right₀ (by linarith [ulp_pos]) (by omega)
      exact ⟨c1, c2, c3, le_trans (sub_le_sub_right (mul_le_mul_of_nonneg_left R1 hsm) _) c4, c5.trans (add_le_add_left (mul_le_mul_of_nonneg_left R2 hsm) _)⟩
    · intro _ hk
      show q.val (m + 1 - (i + 1)) = s.curr
      rw [show m + 1 - (i + 1) = m - i by omega] at hk ⊢
      exact hqk hk

/-- The remaining iterations. -/
theorem Inv.loop (h : Par F f m) : ∀ (k i : ℕ), i + k = m → ∀ (σ : ℝ) (s : Functions.Seq Dbl), Inv f m n i σ s →
    ∃ σ' s', backLoop n F k s = .ok s' ∧ s'.pnebis.len = s.pnebis.len ∧ Inv f m n (m + 1) σ' s'
  | 0, i, hk, σ, s, I => by
    obtain ⟨σ', s', h1, h2, h3⟩ := I.step h (by omega)
    rw [show m - i = 0 by omega] at h1
    rw [show i + 1 = m + 1 by omega] at h3
    exact ⟨σ', s', h1, h2, h3⟩
  | k + 1, i, hk, σ, s, I => by
    obtain ⟨σ', s', h1, h2, h3⟩ := I.step h (by omega)
    rw [show m - i = k + 1 by omega] at h1
    obtain ⟨σ'', s'', g1, g2, g3⟩ := Inv.loop h k (i + 1) (by omega) σ' s' h3
    refine ⟨σ'', s'', ?_, g2.trans h2, g3⟩
    rw [backLoop, h1]
    exact g1

theorem inv_init (h : Par F f m) {v : Vec Dbl} (hv : n < v.len) : Inv f m n 0 1 ⟨d 0 1, d 10 1, v⟩ := by
  refine ⟨one_pos, zero_lit.1, one_is.1, ?_, ?_, ?_, ?_, Or.inl rfl, ?_, fun _ => ⟨zero_lit.2, one_is.2⟩, hv, fun j _ h1 h2 => by omega, by omega⟩
  · show Rel 0 (d 0 1).val _
    rw [zero_lit.2]
    simp [mil, Rel]
  · show Rel 0 (d 10 1).val _
    rw [one_is.2]
    simp [mil, Rel]
  · show (d 0 1).val ≤ _
    rw [zero_lit.2]; norm_num
  · show (d 10 1).val ≤ _
    rw [one_is.2]; norm_num
  · show _ ≤ (d 10 1).val
    rw [one_is.2]
    linarith [h.least_le.2]

end Verif.FunctionsFp
