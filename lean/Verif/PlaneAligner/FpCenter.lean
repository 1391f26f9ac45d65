import Verif.PlaneAligner.FpProps
import Mathlib.Data.Nat.Log
import Mathlib.Algebra.BigOperators.Group.List.Basic

/-! Property theorems C129 (see properties.jsonl): the inliers and the center of the plane aligner in `float` arithmetic. -/
namespace Verif.PlaneAligner
open Verif Ieee Ieee.Fp Float.Model V3

/-! ### The inliers -/

/-- C129, the test of the inliers: if the products and the constant are at most 2^k, an inlier is at most 2^(k-20) beyond the tolerance, and a point that is not one is at most 2^(k-20) within it. -/
theorem C129_inlier (s : AlignerF) (p : V3 Flt) (k : ℤ) (hk : -100 ≤ k) (hk' : k ≤ 120) (hn : s.normal.Fin3) (hd : s.const.Fin) (ht : s.planeTol.Fin) (hp : p.Fin3)
    (hx : |p.x.val * s.normal.x.val| ≤ 2 ^ k) (hy : |p.y.val * s.normal.y.val| ≤ 2 ^ k) (hz : |p.z.val * s.normal.z.val| ≤ 2 ^ k) (hc : |s.const.val| ≤ 2 ^ k) :
    (s.isInlier p = true → |dot (val3 p) (val3 s.normal) + s.const.val| < s.planeTol.val + 2 ^ (k - 20)) ∧
    (s.isInlier p = false → s.planeTol.val - 2 ^ (k - 20) ≤ |dot (val3 p) (val3 s.normal) + s.const.val|) := by
  have hp0 : (0 : ℝ) < 2 ^ k := by positivity
  have pw : ∀ j : ℤ, (2 : ℝ) ^ (k + j) = 2 ^ k * 2 ^ j := fun j => zpow_add₀ (by norm_num) _ _
  have m : ∀ {a b : Flt}, a.Fin → b.Fin → |a.val * b.val| ≤ 2 ^ k → Approx (a * b) (a.val * b.val) (2 ^ k / 33554432) := by
    intro a b ha hb hab
    have := (mul_is ha hb (hab.trans (by rw [top32]; exact zpow_le_zpow_right₀ (by norm_num) (by omega)))).approx k (by rw [minExp32, mant32]; omega) hab (v := a.val * b.val) (e := 0) (by simp)
    refine this.weaken ?_
    rw [mant32, show k - 24 - 1 = k + (-25) by ring, pw]; norm_num; linarith
  have l1 : Format.binary32.minExponent + ((Format.binary32.mantissaBits : ℕ) : ℤ) ≤ k + 3 := by rw [minExp32, mant32]; omega
  have l2 : k + 3 ≤ top .binary32 := by rw [top32]; omega
  have h3 : (2 : ℝ) ^ (k + 3 - ((Format.binary32.mantissaBits : ℕ) : ℤ) - 1) = 2 ^ k / 4194304 := by
    rw [mant32, show k + 3 - 24 - 1 = k + (-22) by ring, pw]; norm_num; ring
  have h8 : (2 : ℝ) ^ (k + 3) = 8 * 2 ^ k := by rw [pw]; norm_num; ring
  have s1 : Approx (p.x * s.normal.x + p.y * s.normal.y) (p.x.val * s.normal.x.val + p.y.val * s.normal.y.val) (2 ^ k * (10 / 33554432)) :=
    (m hp.1 hn.1 hx).add (m hp.2.1 hn.2.1 hy) (k + 3) l1 l2 hx hy (by rw [h8]; linarith) (by rw [h3]; linarith)
  have b1 : |p.x.val * s.normal.x.val + p.y.val * s.normal.y.val| ≤ 2 * 2 ^ k := (abs_add_le _ _).trans (by linarith)
  have s2 : Approx (p.x * s.normal.x + p.y * s.normal.y + p.z * s.normal.z) (p.x.val * s.normal.x.val + p.y.val * s.normal.y.val + p.z.val * s.normal.z.val) (2 ^ k * (19 / 33554432)) :=
    s1.add (m hp.2.2 hn.2.2 hz) (k + 3) l1 l2 b1 hz (by rw [h8]; linarith) (by rw [h3]; linarith)
  have b2 : |p.x.val * s.normal.x.val + p.y.val * s.normal.y.val + p.z.val * s.normal.z.val| ≤ 3 * 2 ^ k := (abs_add_le _ _).trans (by linarith)
  have s3 : Approx (p.x * s.normal.x + p.y * s.normal.y + p.z * s.normal.z + s.const) (dot (val3 p) (val3 s.normal) + s.const.val) (2 ^ k * (27 / 33554432)) :=
    s2.add (approx_self hd) (k + 3) l1 l2 b2 hc (by rw [h8]; linarith) (by rw [h3]; linarith)
  have s4 := s3.abs
  have h20 : (2 : ℝ) ^ (k - 20) = 2 ^ k * (32 / 33554432) := by rw [sub_eq_add_neg, pw]; norm_num
  unfold AlignerF.isInlier
  rw [h20]
  obtain ⟨e1, e2⟩ := abs_le.1 s4.2
  have e1' : |dot (val3 p) (val3 s.normal) + s.const.val| - 2 ^ k * (27 / 33554432) ≤ (p.x * s.normal.x + p.y * s.normal.y + p.z * s.normal.z + s.const).abs.val := by linarith
  constructor
  · intro h
    have := (lt_iff s4.1 ht).1 (by simpa using h)
    linarith
  · intro h
    have : ¬ (p.x * s.normal.x + p.y * s.normal.y + p.z * s.normal.z + s.const).abs < s.planeTol := by simpa using h
    rw [lt_iff s4.1 ht] at this
    linarith

/-! ### The sum -/

theorem inliersF_eq (s : AlignerF) (points : List (V3 Flt)) : inliersF s points = ((points.filter s.isInlier).foldl addF ⟨0, 0, 0⟩, (points.filter s.isInlier).length) := by
  unfold inliersF
  have : ∀ (l : List (V3 Flt)) (acc : V3 Flt) (j : ℕ), l.foldl (fun acc p => if s.isInlier p then (addF acc.1 p, acc.2 + 1) else acc) (acc, j) =
      ((l.filter s.isInlier).foldl addF acc, j + (l.filter s.isInlier).length) := by
    intro l
    induction l with
    | nil => intro acc j; rfl
    | cons p l ih =>
      intro acc j
      rw [List.foldl_cons]
      by_cases h : s.isInlier p = true
      · rw [if_pos h, ih, List.filter_cons_of_pos h, List.foldl_cons, List.length_cons]
        congr 1
        omega
      · rw [if_neg h, ih, List.filter_cons_of_neg h]
  rw [this, Nat.zero_add]

theorem foldl_addF (l : List (V3 Flt)) (acc : V3 Flt) : l.foldl addF acc =
    ⟨(l.map (·.x)).foldl (· + ·) acc.x, (l.map (·.y)).foldl (· + ·) acc.y, (l.map (·.z)).foldl (· + ·) acc.z⟩ := by
  induction l generalizing acc with
  | nil => rfl
  | cons p l ih => rw [List.foldl_cons, ih]; rfl

theorem sum_abs_le {l : List Flt} {B : ℝ} (h : ∀ x ∈ l, |x.val| ≤ B) : |(l.map Fp.val).sum| ≤ l.length * B := by
  induction l with
  | nil => simp
  | cons x l ih =>
    rw [List.map_cons, List.sum_cons, List.length_cons]
    have h1 := h x (by simp)
    have h2 := ih fun y hy => h y (by simp [hy])
    refine (abs_add_le _ _).trans ?_
    push_cast
    linarith

/-- The error of a sum of at most 2^24 terms of size 2^k. -/
theorem sum_err {k : ℤ} (hk' : k ≤ 100) (l : List Flt) (hl : l.length ≤ 16777216) (h : ∀ x ∈ l, x.Fin ∧ |x.val| ≤ 2 ^ k) :
    Approx (l.foldl (· + ·) 0) (l.map Fp.val).sum ((l.length : ℝ) ^ 2 * 2 ^ k * uu) := by
  induction l using List.reverseRecOn with
  | nil => exact ⟨zero_is.1, by simp [zero_is.2]⟩
  | append_singleton l x ih =>
    rw [List.length_append, List.length_singleton] at hl
    obtain ⟨f, e⟩ := ih (by omega) fun y hy => h y (by simp [hy])
    obtain ⟨hf, hx⟩ := h x (by simp)
    have hS := sum_abs_le (l := l) fun y hy => (h y (by simp [hy])).2
    rw [List.foldl_append, List.map_append, List.sum_append, List.length_append]
    simp only [List.foldl_cons, List.foldl_nil, List.map_cons, List.map_nil, List.sum_cons, List.sum_nil, List.length_cons, List.length_nil, add_zero, zero_add]
    have hj : (l.length : ℝ) ≤ 16777215 := by exact_mod_cast (show l.length ≤ 16777215 by omega)
    have hj0 : (0 : ℝ) ≤ l.length := Nat.cast_nonneg _
    push_cast
    generalize (l.length : ℝ) = j at *
    generalize (l.map Fp.val).sum = S at *
    generalize l.foldl (· + ·) 0 = T at *
    have hp0 : (0 : ℝ) < 2 ^ k := by positivity
    have hju : j ^ 2 * uu ≤ j := by unfold uu; nlinarith
    have hT : |T.val| ≤ j * 2 ^ k + j ^ 2 * 2 ^ k * uu := by
      have := abs_add_le (T.val - S) S
      rw [sub_add_cancel] at this
      linarith
    have hT' : |T.val + x.val| ≤ (j + 1) * 2 ^ k + j ^ 2 * 2 ^ k * uu := (abs_add_le _ _).trans (by linarith)
    have hb : |T.val + x.val| ≤ 2 ^ (127 : ℤ) := by
      refine hT'.trans ?_
      have h1 : (j + 1) * 2 ^ k + j ^ 2 * 2 ^ k * uu ≤ 2 ^ 27 * 2 ^ k := by nlinarith
      have h2 : (2 : ℝ) ^ 27 * 2 ^ k ≤ 2 ^ (127 : ℤ) := by
        rw [← zpow_natCast, ← zpow_add₀ (by norm_num)]; exact zpow_le_zpow_right₀ (by norm_num) (by push_cast; omega)
      exact h1.trans h2
    obtain ⟨f', e'⟩ := add_rel f hf hb
    refine ⟨f', ?_⟩
    have h1 : |T.val + x.val| * uu ≤ ((j + 1) * 2 ^ k + j ^ 2 * 2 ^ k * uu) * uu := mul_le_mul_of_nonneg_right hT' (by unfold uu; norm_num)
    have h2 : |(T + x).val - (S + x.val)| ≤ |(T + x).val - (T.val + x.val)| + |T.val - S| := by
      have := abs_add_le ((T + x).val - (T.val + x.val)) (T.val - S)
      rwa [show (T + x).val - (T.val + x.val) + (T.val - S) = (T + x).val - (S + x.val) by ring] at this
    have h3 : j ^ 2 * 2 ^ k * uu * uu ≤ j * 2 ^ k * uu := by
      have : j ^ 2 * uu * (2 ^ k * uu) ≤ j * (2 ^ k * uu) := mul_le_mul_of_nonneg_right hju (by unfold uu; positivity)
      nlinarith
    have : (j + 1) ^ 2 * 2 ^ k * uu = j ^ 2 * 2 ^ k * uu + (j + 1) * 2 ^ k * uu + j * 2 ^ k * uu := by ring
    rw [this]
    linarith

/-! ### The center -/

/-- The sum of the points of a list. -/
noncomputable def realSum (l : List (V3 Flt)) : V3 ℝ := ⟨(l.map fun p => p.x.val).sum, (l.map fun p => p.y.val).sum, (l.map fun p => p.z.val).sum⟩

/-- The mean of the points, projected on the plane through the origin with the unit normal `c`. -/
noncomputable def exactCenter (c : V3 ℝ) (l : List (V3 Flt)) : V3 ℝ :=
  sdiv (V3.sub (realSum l) (smul (dot (realSum l) c) c)) l.length

/-- C129, full statement: the center is the exact one of the points that were taken as inliers, up to 2^(k-10), for all clouds with coordinates up to 2^k. -/
def C129_statement : Prop := ∀ (o : ℕ → Bool) (s : AlignerF) (points : List (V3 Flt)) (k : ℤ), -60 ≤ k → k ≤ 60 → Usable s.normal → points.length ≤ 2147483647 →
  (∀ p ∈ points, p.Fin3 ∧ Within (val3 p) k) → points.filter s.isInlier ≠ [] →
  Near (centerOf o s points) (exactCenter (dirOf s.normal) (points.filter s.isInlier)) (2 ^ (k - 10))

/-- C129 for at most 2^20 inliers, with the dependence on their number `m`: the error is at most (m + 18) 2^(k-21). Missing for C129: more inliers, for which the sum loses terms. -/
theorem C129_partial (o : ℕ → Bool) (s : AlignerF) (points : List (V3 Flt)) (k : ℤ) (hk : -60 ≤ k) (hk' : k ≤ 60) (hn : Usable s.normal)
    (hp : ∀ p ∈ points, p.Fin3 ∧ Within (val3 p) k) (h0 : points.filter s.isInlier ≠ []) (hm : (points.filter s.isInlier).length ≤ 1048576) :
    Near (centerOf o s points) (exactCenter (dirOf s.normal) (points.filter s.isInlier)) (((points.filter s.isInlier).length + 18) * 2 ^ (k - 21)) := by
  have hin : ∀ p ∈ points.filter s.isInlier, p.Fin3 ∧ Within (val3 p) k := fun p h => hp p (List.mem_of_mem_filter h)
  obtain ⟨a, b, hF, -, -, hz⟩ := axes_near o hn
  have sc := small_of_unit hF.cc
  unfold centerOf
  rw [inliersF_eq]
  dsimp only
  generalize points.filter s.isInlier = l at *
  generalize (axesF o s.normal).2.2 = az at *
  generalize dirOf s.normal = c at *
  have hlen : 0 < l.length := List.length_pos_iff.2 h0
  rw [foldl_addF]
  have comp : ∀ (g : V3 Flt → Flt), (∀ p ∈ l, (g p).Fin ∧ |(g p).val| ≤ 2 ^ k) →
      Approx ((l.map g).foldl (· + ·) 0) (l.map fun p => (g p).val).sum ((l.length : ℝ) ^ 2 * 2 ^ k * uu) ∧ |(l.map fun p => (g p).val).sum| ≤ l.length * 2 ^ k := by
    intro g hg
    have h1 : ∀ x ∈ l.map g, x.Fin ∧ |x.val| ≤ 2 ^ k := by
      intro x hx
      obtain ⟨p, hp, rfl⟩ := List.mem_map.1 hx
      exact hg p hp
    have h2 := sum_err (k := k) (by omega) (l.map g) (by rw [List.length_map]; omega) h1
    have h3 := sum_abs_le fun x hx => (h1 x hx).2
    rw [List.map_map, List.length_map] at h2 h3
    exact ⟨h2, h3⟩
  obtain ⟨x1, x2⟩ := comp (·.x) fun p h => ⟨(hin p h).1.1, (hin p h).2.1⟩
  obtain ⟨y1, y2⟩ := comp (·.y) fun p h => ⟨(hin p h).1.2.1, (hin p h).2.2.1⟩
  obtain ⟨z1, z2⟩ := comp (·.z) fun p h => ⟨(hin p h).1.2.2, (hin p h).2.2.2⟩
  unfold exactCenter realSum centerF
  rw [if_pos hlen]
  have hmf := natCast_exact (spec := .binary32) (n := l.length) (by rw [mant32]; have : (l.length : ℝ) ≤ 1048576 := by exact_mod_cast hm
                                                                    exact this.trans (by norm_num))
    (by rw [top32]; have : (l.length : ℝ) ≤ 1048576 := by exact_mod_cast hm
        exact this.trans (by norm_num))
  have hm1 : (1 : ℝ) ≤ l.length := by exact_mod_cast hlen
  have hm2 : (l.length : ℝ) ≤ 1048576 := by exact_mod_cast hm
  -- a power of two above the number of points
  obtain ⟨q, hq1, hq2⟩ : ∃ q : ℕ, l.length ≤ 2 ^ q ∧ 2 ^ q < 2 * l.length := by
    refine ⟨Nat.clog 2 l.length, Nat.le_pow_clog (by norm_num) _, ?_⟩
    rcases Nat.lt_or_ge 1 l.length with h | h
    · have h1 : 2 ^ (Nat.clog 2 l.length - 1) < l.length := Nat.pow_pred_clog_lt_self (by norm_num) h
      have h2 : 0 < Nat.clog 2 l.length := Nat.clog_pos (by norm_num) h
      calc 2 ^ Nat.clog 2 l.length = 2 * 2 ^ (Nat.clog 2 l.length - 1) := by rw [← pow_succ']; congr 1; omega
        _ < _ := by omega
    · have : l.length = 1 := by omega
      rw [this]; norm_num
  have hq21 : q ≤ 20 := by
    by_contra hq
    have : 2 ^ 21 ≤ 2 ^ q := Nat.pow_le_pow_right (by norm_num) (by omega)
    omega
  have r1 : (l.length : ℝ) ≤ 2 ^ q := by exact_mod_cast hq1
  have r2 : (2 : ℝ) ^ q ≤ 2 * l.length := by exact_mod_cast hq2.le
  generalize (l.map fun p => p.x.val).sum = X at *
  generalize (l.map fun p => p.y.val).sum = Y at *
  generalize (l.map fun p => p.z.val).sum = Z at *
  generalize (l.map (·.x)).foldl (· + ·) 0 = fx at *
  generalize (l.map (·.y)).foldl (· + ·) 0 = fy at *
  generalize (l.map (·.z)).foldl (· + ·) 0 = fz at *
  obtain ⟨hmf1, hmf2⟩ := hmf
  generalize ((l.length : ℕ) : Flt) = fm at *
  generalize (l.length : ℝ) = m at *
  clear comp hq1 hq2 hm hlen h0 hin hp hF
  have hp0 : (0 : ℝ) < 2 ^ k := by positivity
  set T : ℝ := 2 ^ q * 2 ^ k with hT
  have hTk : (2 : ℝ) ^ (k + q) = T := by rw [zpow_add₀ (by norm_num), zpow_natCast, mul_comm]
  have hT0 : 0 < T := by positivity
  have hmT : m * 2 ^ k ≤ T := mul_le_mul_of_nonneg_right r1 hp0.le
  have hTm : T ≤ 2 * (m * 2 ^ k) := by rw [← mul_assoc]; exact mul_le_mul_of_nonneg_right r2 hp0.le
  set ε : ℝ := m ^ 2 * 2 ^ k * uu with hε
  have hε0 : 0 ≤ ε := by rw [hε]; unfold uu; positivity
  have hεT : ε ≤ T / 16 := by
    have : m * (m * 2 ^ k) * uu ≤ 1048576 * T * uu := by
      refine mul_le_mul_of_nonneg_right ?_ (by unfold uu; norm_num)
      exact mul_le_mul hm2 hmT (by positivity) (by norm_num)
    have e : ε = m * (m * 2 ^ k) * uu := by rw [hε]; ring
    rw [e]
    refine this.trans (le_of_eq ?_)
    unfold uu; ring
  have kp : ∀ j : ℤ, (2 : ℝ) ^ (k + q + j) = T * 2 ^ j := fun j => by rw [zpow_add₀ (by norm_num), hTk]
  have lo : ∀ j : ℤ, 0 ≤ j → Format.binary32.minExponent + ((Format.binary32.mantissaBits : ℕ) : ℤ) ≤ k + q + j := fun j hj => by rw [minExp32, mant32]; omega
  have hi : ∀ j : ℤ, j ≤ 5 → k + q + j ≤ top .binary32 := fun j hj => by rw [top32]; omega
  have x2' := x2.trans hmT
  have y2' := y2.trans hmT
  have z2' := z2.trans hmT
  -- the projection
  have pr : ∀ {f : Flt} {F : ℝ} {g : Flt} {G : ℝ}, Approx f F ε → |F| ≤ T → Approx g G (1 / 2097152) → |G| ≤ 1 →
      Approx (f * g) (F * G) (T * (9 / 16777216) + 101 / 100 * ε) ∧ |F * G| ≤ 2 ^ (k + q) := by
    intro f F g G hf hF' hg hG
    constructor
    · exact hf.mul hg (k + q + 1) (lo 1 (by norm_num)) (hi 1 (by norm_num)) hF' hG (by rw [kp]; norm_num; nlinarith) (by
        rw [mant32, show k + q + 1 - 24 - 1 = k + q + (-24) by ring, kp]
        norm_num
        nlinarith)
    · rw [abs_mul, hTk]
      calc _ ≤ |F| * 1 := mul_le_mul_of_nonneg_left hG (abs_nonneg _)
        _ ≤ T := by rw [mul_one]; exact hF'
  obtain ⟨p1, q1⟩ := pr x1 x2' hz.1 sc.1
  obtain ⟨p2, q2⟩ := pr y1 y2' hz.2.1 sc.2.1
  obtain ⟨p3, q3⟩ := pr z1 z2' hz.2.2 sc.2.2
  have hd := sum3_near (o 5) (k + q) (by omega) (by omega) p1 p2 p3 q1 q2 q3 (by rw [hTk]; linarith) (E := T * (31 / 16777216) + 304 / 100 * ε) (by rw [hTk]; linarith)
  have hQ : |X * c.x + Y * c.y + Z * c.z| ≤ 3 * T := by
    rw [hTk] at q1 q2 q3
    exact (abs_add_le _ _).trans (by linarith [abs_add_le (X * c.x) (Y * c.y)])
  have fin : ∀ {f : Flt} {F : ℝ} {g : Flt} {G : ℝ}, Approx f F ε → |F| ≤ T → Approx g G (1 / 2097152) → |G| ≤ 1 →
      Approx ((f - dotF (o 5) ⟨fx, fy, fz⟩ az * g) / fm) ((F - (X * c.x + Y * c.y + Z * c.z) * G) / m) ((m + 18) * 2 ^ (k - 21)) := by
    intro f F g G hf hF' hg hG
    have d1 : Approx (dotF (o 5) ⟨fx, fy, fz⟩ az * g) ((X * c.x + Y * c.y + Z * c.z) * G) (T * (58 / 16777216) + 305 / 100 * ε) :=
      Approx.mul (show Approx (dotF (o 5) ⟨fx, fy, fz⟩ az) _ _ from hd) hg (k + q + 2) (lo 2 (by norm_num)) (hi 2 (by norm_num)) hQ hG (by rw [kp]; norm_num; nlinarith) (by
        rw [mant32, show k + q + 2 - 24 - 1 = k + q + (-23) by ring, kp]
        norm_num
        nlinarith)
    have hQG : |(X * c.x + Y * c.y + Z * c.z) * G| ≤ 3 * T := by
      rw [abs_mul]
      calc _ ≤ |X * c.x + Y * c.y + Z * c.z| * 1 := mul_le_mul_of_nonneg_left hG (abs_nonneg _)
        _ ≤ _ := by rw [mul_one]; exact hQ
    have d2 : Approx (f - dotF (o 5) ⟨fx, fy, fz⟩ az * g) (F - (X * c.x + Y * c.y + Z * c.z) * G) (T * (62 / 16777216) + 405 / 100 * ε) :=
      hf.sub d1 (k + q + 3) (lo 3 (by norm_num)) (hi 3 (by norm_num)) hF' hQG (by rw [kp]; norm_num; linarith) (by
        rw [mant32, show k + q + 3 - 24 - 1 = k + q + (-22) by ring, kp]
        norm_num
        linarith)
    have hb2 := d2.abs_le (V := 4 * T) (by
      have := abs_add_le F (-((X * c.x + Y * c.y + Z * c.z) * G))
      rw [abs_neg, ← sub_eq_add_neg] at this
      linarith)
    generalize f - dotF (o 5) ⟨fx, fy, fz⟩ az * g = W at *
    generalize F - (X * c.x + Y * c.y + Z * c.z) * G = V at *
    have hm0 : 0 < m := by linarith
    have hW : |W.val / fm.val| ≤ 2 ^ (k + 4) := by
      rw [hmf2, abs_div, abs_of_pos hm0, div_le_iff₀ hm0, zpow_add₀ (by norm_num)]
      refine hb2.trans ?_
      norm_num
      nlinarith
    have hv : |W.val / fm.val - V / m| ≤ 2 ^ k * (124 / 16777216) + 405 / 100 * (m * 2 ^ k * uu) := by
      rw [hmf2, ← sub_div, abs_div, abs_of_pos hm0, div_le_iff₀ hm0]
      refine d2.2.trans ?_
      rw [hε]
      nlinarith
    have his := div_is d2.1 hmf1 (by rw [hmf2]; exact hm0.ne') (hW.trans (by rw [top32]; exact zpow_le_zpow_right₀ (by norm_num) (by omega)))
    refine (his.approx (k + 4) (by rw [minExp32, mant32]; omega) hW hv).weaken ?_
    rw [mant32, show k + 4 - 24 - 1 = k + (-21) by ring, show k - 21 = k + (-21) by ring, zpow_add₀ (by norm_num)]
    unfold uu
    norm_num
    nlinarith
  exact ⟨fin x1 x2' hz.1 sc.1, fin y1 y2' hz.2.1 sc.2.1, fin z1 z2' hz.2.2 sc.2.2⟩

/-! ### Too many points -/

/-- 2^24 + 1 in `float`. -/
theorem sat_add {a b : Flt} (ha : a.Fin) (hb : b.Fin) (ha' : a.val = 16777216) (hb' : b.val = 1) : (a + b).Fin ∧ (a + b).val = 16777216 := by
  have h1 : (a + b).Is (a.val + b.val) := add_is ha hb (by rw [ha', hb', top32]; norm_num)
  obtain ⟨n1, n2⟩ := natCast_exact (spec := .binary32) (n := 16777216) (by rw [mant32]; norm_num) (by rw [top32]; norm_num)
  obtain ⟨m1, m2⟩ := natCast_exact (spec := .binary32) (n := 1) (by rw [mant32]; norm_num) (by rw [top32]; norm_num)
  have h2 : (((16777216 : ℕ) : Flt) + ((1 : ℕ) : Flt)).Is (((16777216 : ℕ) : Flt).val + ((1 : ℕ) : Flt).val) := add_is n1 m1 (by rw [n2, m2, top32]; norm_num)
  have h3 : ((16777216 : ℕ) : Flt) + ((1 : ℕ) : Flt) = ((16777216 : ℕ) : Flt) := by decide +kernel
  rw [n2, m2] at h2
  rw [ha', hb'] at h1
  have h4 : (((16777216 : ℕ) : Flt) + ((1 : ℕ) : Flt)).Is (16777216 + 1) := by
    convert h2 using 1; norm_num
  refine ⟨h1.1, ?_⟩
  rw [h1.unique h4, h3]
  exact n2.trans (by norm_num)

/-- The sum of ones stops at 2^24. -/
theorem sum_ones (n j : ℕ) (a : Flt) (ha : a.Fin) (hv : a.val = (min j 16777216 : ℕ)) :
    ((List.replicate n ((1 : ℕ) : Flt)).foldl (· + ·) a).Fin ∧ ((List.replicate n ((1 : ℕ) : Flt)).foldl (· + ·) a).val = (min (j + n) 16777216 : ℕ) := by
  induction n generalizing j a with
  | zero => exact ⟨ha, hv⟩
  | succ n ih =>
    rw [List.replicate_succ, List.foldl_cons, show j + (n + 1) = j + 1 + n by omega]
    obtain ⟨m1, m2⟩ := natCast_exact (spec := .binary32) (n := 1) (by rw [mant32]; norm_num) (by rw [top32]; norm_num)
    have m2' : ((1 : ℕ) : Flt).val = 1 := by rw [m2]; norm_num
    have : (a + ((1 : ℕ) : Flt)).Fin ∧ (a + ((1 : ℕ) : Flt)).val = (min (j + 1) 16777216 : ℕ) := by
      rcases Nat.lt_or_ge j 16777216 with h | h
      · rw [min_eq_left h.le] at hv
        have hj : ((j + 1 : ℕ) : ℝ) ≤ 16777216 := by exact_mod_cast h
        have hs : a.val + ((1 : ℕ) : Flt).val = ((j + 1 : ℕ) : ℝ) := by rw [hv, m2']; push_cast; ring
        have h0 : (0 : ℝ) ≤ ((j + 1 : ℕ) : ℝ) := Nat.cast_nonneg _
        have i := add_is ha m1 (by rw [hs, abs_of_nonneg h0, top32]; exact hj.trans (by norm_num))
        refine ⟨i.1, ?_⟩
        rw [min_eq_left h]
        have g := grid_int (Fmt.good (spec := .binary32)) (n := ((j + 1 : ℕ) : ℤ)) (by rw [mant32]; push_cast; push_cast at hj h0; rw [abs_of_nonneg h0]; exact hj.trans (by norm_num))
        have g' : Grid .binary32 (a.val + ((1 : ℕ) : Flt).val) := by rw [hs]; exact_mod_cast g
        exact (i.2.exact g').trans hs
      · rw [min_eq_right h] at hv
        rw [min_eq_right (by omega)]
        have := sat_add ha m1 (by rw [hv]; norm_num) m2'
        exact ⟨this.1, by rw [this.2]; norm_num⟩
    exact ih (j + 1) _ this.1 this.2

/-- The sum of zeros. -/
theorem sum_zeros (n : ℕ) : (List.replicate n (0 : Flt)).foldl (· + ·) 0 = 0 := by
  have h : (0 : Flt) + 0 = 0 := by decide +kernel
  induction n with
  | zero => rfl
  | succ n ih => rw [List.replicate_succ, List.foldl_cons, h, ih]

/-- The plane z = 0 with tolerance 1. -/
def flat : AlignerF := ⟨none, ⟨0, 0, (1 : ℕ)⟩, 0, idF, (1 : ℕ)⟩

theorem flat_axis : (axesF (fun _ => true) flat.normal).2.2 = ⟨0, 0, ((1 : ℕ) : Flt)⟩ := by
  show normalizeF true (⟨0, 0, ((1 : ℕ) : Flt)⟩ : V3 Flt) = _
  unfold normalizeF
  rw [if_pos (by decide +kernel)]
  unfold sdivF
  congr 1 <;> decide +kernel

/-- For 2^25 copies of the point (1, 0, 0) of the plane z = 0 the center is (1/2, 0, 0). -/
theorem flat_center {n : ℕ} (hn : n = 33554432) : (centerOf (fun _ => true) flat (List.replicate n ⟨((1 : ℕ) : Flt), 0, 0⟩)).x.val = 1 / 2 := by
  unfold centerOf
  rw [inliersF_eq, flat_axis, List.filter_replicate_of_pos (by decide +kernel), foldl_addF, List.length_replicate]
  simp only [List.map_replicate]
  rw [sum_zeros]
  obtain ⟨f1, f2⟩ := sum_ones n 0 0 zero_is.1 (by simp [zero_is.2])
  generalize (List.replicate n ((1 : ℕ) : Flt)).foldl (· + ·) 0 = X at *
  have f2' : X.val = 16777216 := by rw [f2, hn]; norm_num
  unfold centerF
  rw [if_pos (by omega)]
  simp only [sdivF, subF, smulF, dotF, sum3, if_true]
  have ez : (0 : Flt) * 0 + 0 * ((1 : ℕ) : Flt) = 0 := by decide +kernel
  rw [ez]
  have z := zero_is (spec := .binary32)
  have e1 : (X * 0).Is 0 := by
    have := mul_is f1 z.1 (by rw [z.2, mul_zero, abs_zero]; positivity)
    rwa [z.2, mul_zero] at this
  have e1' : (X * 0).val = 0 := e1.2.exact grid_zero
  have e2 : (X * 0 + 0).Is 0 := by
    have := add_is e1.1 z.1 (by rw [z.2, e1', add_zero, abs_zero]; positivity)
    rwa [z.2, e1', add_zero] at this
  have e2' : (X * 0 + 0).val = 0 := e2.2.exact grid_zero
  have e3 : ((X * 0 + 0) * 0).Is 0 := by
    have := mul_is e2.1 z.1 (by rw [z.2, mul_zero, abs_zero]; positivity)
    rwa [z.2, mul_zero] at this
  have e3' : ((X * 0 + 0) * 0).val = 0 := e3.2.exact grid_zero
  have g24 : Grid .binary32 (16777216 : ℝ) := by
    have := grid_two_pow (spec := .binary32) (k := 24) (by rw [minExp32]; norm_num)
    norm_num at this
    exact this
  have g25 : Grid .binary32 ((n : ℕ) : ℝ) := by
    have := grid_two_pow (spec := .binary32) (k := 25) (by rw [minExp32]; norm_num)
    norm_num at this
    rw [hn]
    exact_mod_cast this
  have gh : Grid .binary32 (1 / 2 : ℝ) := by
    have := grid_two_pow (spec := .binary32) (k := -1) (by rw [minExp32]; norm_num)
    norm_num at this
    norm_num
    exact this
  have e4 : (X - (X * 0 + 0) * 0).Is 16777216 := by
    have := sub_is f1 e3.1 (by rw [e3', f2', sub_zero, top32]; norm_num)
    rwa [e3', f2', sub_zero] at this
  have e4' : (X - (X * 0 + 0) * 0).val = 16777216 := e4.2.exact g24
  have t1 := natCast_is (spec := .binary32) (n := n) (by rw [top32, hn]; norm_num)
  have t2 : ((n : ℕ) : Flt).val = 33554432 := (t1.2.exact g25).trans (by rw [hn]; norm_num)
  have hq : (16777216 : ℝ) / 33554432 = 1 / 2 := by norm_num
  have e5 := div_is e4.1 t1.1 (by rw [t2]; norm_num) (by rw [e4', t2, hq, top32]; norm_num)
  rw [e4', t2, hq] at e5
  exact e5.2.exact gh

/-- Numbers of inliers above 2^24: the sum of 2^25 points (1, 0, 0) stops at 2^24 and the center is (1/2, 0, 0) in place of (1, 0, 0). -/
theorem C129_violated : ¬ C129_statement := by
  intro h
  obtain ⟨n, hn⟩ : ∃ n : ℕ, n = 33554432 := ⟨_, rfl⟩
  have z := zero_is (spec := .binary32)
  obtain ⟨m1, m2⟩ := natCast_exact (spec := .binary32) (n := 1) (by rw [mant32]; norm_num) (by rw [top32]; norm_num)
  have m2' : ((1 : ℕ) : Flt).val = 1 := by rw [m2]; norm_num
  have hl : flat.normal.sqlen = 1 := by
    show (0 : Flt).val ^ 2 + (0 : Flt).val ^ 2 + ((1 : ℕ) : Flt).val ^ 2 = 1
    rw [z.2, m2']; norm_num
  have hx : |flat.normal.x.val| ≤ 2 ^ (62 : ℤ) := by
    show |(0 : Flt).val| ≤ _
    rw [z.2, abs_zero]; positivity
  have hz : |flat.normal.z.val| ≤ 2 ^ (62 : ℤ) := by
    show |((1 : ℕ) : Flt).val| ≤ _
    rw [m2']; norm_num
  have hf : (List.replicate n (⟨((1 : ℕ) : Flt), 0, 0⟩ : V3 Flt)).filter flat.isInlier = List.replicate n ⟨((1 : ℕ) : Flt), 0, 0⟩ :=
    List.filter_replicate_of_pos (by decide +kernel)
  have := (h (fun _ => true) flat (List.replicate n ⟨((1 : ℕ) : Flt), 0, 0⟩) 0 (by norm_num) (by norm_num) ⟨⟨z.1, z.1, m1⟩, hx, hx, hz, by rw [hl]; norm_num⟩
    (by rw [List.length_replicate, hn]; norm_num) (by
      intro p hp
      rw [List.eq_of_mem_replicate hp]
      refine ⟨⟨m1, z.1, z.1⟩, ?_, ?_, ?_⟩
      · show |((1 : ℕ) : Flt).val| ≤ _
        rw [m2']; norm_num
      · show |(0 : Flt).val| ≤ _
        rw [z.2]; norm_num
      · show |(0 : Flt).val| ≤ _
        rw [z.2]; norm_num)
    (by rw [hf]; intro e; have := congrArg List.length e; rw [List.length_replicate, List.length_nil] at this; omega)).1.2
  rw [flat_center hn, hf] at this
  have e : (exactCenter (dirOf flat.normal) (List.replicate n ⟨((1 : ℕ) : Flt), 0, 0⟩)).x = 1 := by
    show ((List.map (fun p : V3 Flt => p.x.val) _).sum - dot (realSum _) _ * (dirOf flat.normal).x) / _ = 1
    have hd : (dirOf flat.normal).x = 0 := by
      show (0 : Flt).val / _ = 0
      rw [z.2, zero_div]
    rw [hd, mul_zero, sub_zero, List.map_replicate, List.sum_replicate, List.length_replicate]
    show (n • ((1 : ℕ) : Flt).val) / (n : ℝ) = 1
    rw [m2', hn]
    norm_num
  rw [e] at this
  norm_num at this

/-- C129 without inliers: the center is the origin, and nothing is subtracted. -/
theorem C129_none (o : ℕ → Bool) (s : AlignerF) (points : List (V3 Flt)) (h : points.filter s.isInlier = []) : centerOf o s points = ⟨0, 0, 0⟩ := by
  unfold centerOf
  rw [inliersF_eq, h]
  rfl

/-- The coefficients that are stored describe the given plane with both signs kept or both changed, exactly; the constant is not negative. -/
theorem C129_coeffs (s : AlignerF) (n : V3 Flt) (d : Flt) (hd : d.Fin) :
    ∃ e : ℝ, (e = 1 ∨ e = -1) ∧ (s.setPlaneCoeffs n d).const.val = e * d.val ∧ 0 ≤ (s.setPlaneCoeffs n d).const.val ∧
      (s.setPlaneCoeffs n d).normal.x.val = e * n.x.val ∧ (s.setPlaneCoeffs n d).normal.y.val = e * n.y.val ∧ (s.setPlaneCoeffs n d).normal.z.val = e * n.z.val ∧
      (s.setPlaneCoeffs n d).cloud = s.cloud ∧ (s.setPlaneCoeffs n d).planeTol = s.planeTol := by
  unfold AlignerF.setPlaneCoeffs
  by_cases h : 0 < d
  · rw [if_pos h]
    have := (lt_iff zero_is.1 hd).1 h
    rw [zero_is.2] at this
    exact ⟨1, Or.inl rfl, (one_mul _).symm, this.le, (one_mul _).symm, (one_mul _).symm, (one_mul _).symm, rfl, rfl⟩
  · rw [if_neg h]
    rw [lt_iff zero_is.1 hd, zero_is.2] at h
    refine ⟨-1, Or.inr rfl, ?_, ?_, ?_, ?_, ?_, rfl, rfl⟩
    · show (-d).val = _
      rw [neg_val]; ring
    · show 0 ≤ (-d).val
      rw [neg_val]; linarith
    · show (-n.x).val = _
      rw [neg_val]; ring
    · show (-n.y).val = _
      rw [neg_val]; ring
    · show (-n.z).val = _
      rw [neg_val]; ring

/-- Without a cloud the null pointer is dereferenced. -/
theorem C129_null (o : ℕ → Bool) (s : AlignerF) : (∃ s', s.compute o = .ok s') ↔ s.cloud.isSome := by
  unfold AlignerF.compute
  cases s.cloud with
  | none => exact ⟨fun ⟨_, h⟩ => by simp at h, fun h => by simp at h⟩
  | some l => exact ⟨fun _ => rfl, fun _ => ⟨_, rfl⟩⟩

/-- Two points of the plane z = 1, tolerance 1/2 and a point off the plane: the center is the mean of the inliers, projected. -/
example : centerOf (fun _ => true) ⟨none, ⟨0, 0, ((1 : ℕ) : Flt)⟩, -((1 : ℕ) : Flt), idF, ((1 : ℕ) : Flt) / ((2 : ℕ) : Flt)⟩
    [⟨((2 : ℕ) : Flt), 0, ((1 : ℕ) : Flt)⟩, ⟨((9 : ℕ) : Flt), 0, ((7 : ℕ) : Flt)⟩, ⟨0, ((4 : ℕ) : Flt), ((1 : ℕ) : Flt)⟩] =
    ⟨((1 : ℕ) : Flt), ((2 : ℕ) : Flt), 0⟩ := by
  decide +kernel

end Verif.PlaneAligner
