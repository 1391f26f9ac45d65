import Verif.HoughFp.Init
import Verif.GisFp.Props

/-! Property theorems C119 (see properties.jsonl). -/
namespace Verif.HoughFp
open Verif Hough Ieee Fp Interval Interval.Spec Float.Model FunctionsFp GisFp Real

/-- The initialisation writes the normals and clears the counters. -/
theorem init_ok (T : Trig) (maxSize : ℕ) (d : Plane Flt) {a b c : ℤ} (h : SizesOk maxSize a b c) (thetaMin phiMin rhoMin thetaRes phiRes rhoRes : Flt) :
    ∃ d', init T maxSize d a b c thetaMin phiMin rhoMin thetaRes phiRes rhoRes = .ok d' ∧
      PlaneOk d' (fun _ => 0) (fun _ => 0) (fun is => normal T thetaMin phiMin thetaRes phiRes (is.getD 0 0) (is.getD 1 0)) ∧
      (d'.thetaNum, d'.phiNum, d'.rhoNum) = (a, b, c) ∧ (d'.rhoMin, d'.rhoRes) = (rhoMin, rhoRes) := by
  obtain ⟨ha, hb, hc, h1, h2⟩ := h
  have p1 : a ≤ a * b := le_mul_of_one_le_right ha.le hb
  have p2 : b ≤ a * b := le_mul_of_one_le_left hb.le ha
  have p3 : a * b ≤ a * b * c := le_mul_of_one_le_right (by positivity) hc
  have p4 : c ≤ a * b * c := le_mul_of_one_le_left hc.le (by nlinarith)
  have i3 : ∀ x ∈ [a, b, c], 0 < x ∧ I32 x := by
    unfold I32
    intro x hx
    simp only [List.mem_cons, List.not_mem_nil, or_false] at hx
    rcases hx with rfl | rfl | rfl <;> omega
  have i2 : ∀ x ∈ [a, b], 0 < x ∧ I32 x := fun x hx => i3 x (by simp at hx ⊢; tauto)
  have e3 : [a, b, c].prod = a * b * c := by simp [mul_assoc]
  have e2 : [a, b].prod = a * b := by simp
  obtain ⟨t, ct, t1, t2⟩ := initDims_ok maxSize 0 d.transform [a, b, c] i3 (by rw [e3]; exact h1) (by rw [e3]; exact h2)
  obtain ⟨s, cs, s1, s2⟩ := initDims_ok maxSize 0 d.spectrum [a, b] i2 (by rw [e2]; omega) (by rw [e2]; omega)
  obtain ⟨l, cl, l1, l2⟩ := initDims_ok maxSize (0, 0, 0) d.lut [a, b] i2 (by rw [e2]; omega) (by rw [e2]; omega)
  obtain ⟨l', l3, l4⟩ := rows_inv (dims := []) (c1 := fun is => normal T thetaMin phiMin thetaRes phiRes (is.getD 0 0) (is.getD 1 0)) ha.le hb.le
    (fun is hm => by obtain ⟨i, j, rfl⟩ := cell2_cases hm; exact ⟨i, j, [], rfl⟩) l2
    (fun itheta iphi l => Grid.write l [itheta, iphi] (normal T thetaMin phiMin thetaRes phiRes itheta iphi)) (by
      intro i j hi hj g cc hg _ _
      obtain ⟨g', w1, w2⟩ := hg.write (cell2.2 ⟨hi, hj⟩) (normal T thetaMin phiMin thetaRes phiRes i j)
      refine ⟨g', w1, w2.congr fun is hm => ?_⟩
      obtain ⟨x, y, rfl⟩ := cell2_cases hm
      by_cases he : [x, y] = [i, j]
      · rw [if_pos he, if_pos (by rw [he]; rfl), he]
        rfl
      · rw [if_neg he, if_neg (by simpa using he)])
  refine ⟨⟨Grid.fill t 0, Grid.fill s 0, l', a, b, c, thetaMin, phiMin, rhoMin, thetaRes, phiRes, rhoRes, d.ithetaWin, d.iphiWin, d.irhoWin⟩, ?_,
    ⟨t2.fill 0, s2.fill 0, l4, fun _ => by norm_num, ha, hb, hc⟩, rfl, rfl⟩
  unfold init
  rw [t1, bind_ok, s1, bind_ok, l1, bind_ok, l3, bind_ok]
  rfl

/-- The exact direction of a cell of a detector with `a` cells of theta and `b` of phi. -/
noncomputable def cellDir (a b i j : ℤ) : ℝ × ℝ × ℝ := dir (π / 2 * i / a) (2 * π * j / b)

/-- The first value of rho of the code. -/
def firstRho (c : ℤ) (rhoRes : Flt) : Flt := TlsFp.ofInt .binary32 (-(c.tdiv 2)) * rhoRes

theorem initSizes_ok {T : Trig} (hT : Accurate T) (hB : Bounded T) (maxSize : ℕ) (d : Plane Flt) {a b c : ℤ} (h : SizesOk maxSize a b c) (rhoRes : Flt) :
    ∃ d' l, initSizes T maxSize d a b c rhoRes = .ok d' ∧ PlaneOk d' (fun _ => 0) (fun _ => 0) l ∧ (d'.thetaNum, d'.phiNum, d'.rhoNum) = (a, b, c) ∧
      (d'.rhoMin, d'.rhoRes) = (firstRho c rhoRes, rhoRes) ∧
      ∀ i j, (0 ≤ i ∧ i < a) → (0 ≤ j ∧ j < b) → NearUnit (l [i, j]) (cellDir a b i j) (1 / 2 ^ 19) := by
  obtain ⟨d', h1, h2, h3, h4⟩ := init_ok T maxSize d h (narrow (FunctionsFp.d 0 1)) (narrow (FunctionsFp.d 0 1)) (firstRho c rhoRes)
    (narrow (FunctionsFp.d 5 1 * mPi / TlsFp.ofInt .binary64 a)) (narrow (FunctionsFp.d 20 1 * mPi / TlsFp.ofInt .binary64 b)) rhoRes
  refine ⟨d', _, h1, h2, h3, h4, fun i j hi hj => ?_⟩
  obtain ⟨ha, hb, hc, h5, -⟩ := h
  have p1 : a ≤ a * b := le_mul_of_one_le_right ha.le hb
  have p2 : b ≤ a * b := le_mul_of_one_le_left hb.le ha
  have p3 : a * b ≤ a * b * c := le_mul_of_one_le_right (by positivity) hc
  have q1 := pi_gt_d2
  have q2 := pi_lt_d2
  have ra := res_is halfPi_is (by linarith) (by linarith) ha (by omega)
  have rb := res_is twoPi_is (by linarith) (by linarith) hb (by omega)
  have xa := angle_is (by linarith) (by linarith) (by omega) hi.1 hi.2 ra.1 ra.2 zero_lit.1 zero_lit.2
  have xb := angle_is (by linarith) (by linarith) (by omega) hj.1 hj.2 rb.1 rb.2 zero_lit.1 zero_lit.2
  have bound : ∀ {v : ℝ} {x n : ℤ}, 0 ≤ v → v ≤ 7 → 0 ≤ x → x < n → |v * x / n| ≤ 7 := by
    intro v x n v0 v1 x0 x1
    have x0' : (0 : ℝ) ≤ x := by exact_mod_cast x0
    have x1' : (x : ℝ) ≤ n := by exact_mod_cast x1.le
    have n0 : (0 : ℝ) < n := by exact_mod_cast (by omega : 0 < n)
    rw [abs_of_nonneg (by positivity), div_le_iff₀ n0]
    exact mul_le_mul v1 x1' x0' (by norm_num)
  exact normal_is hT hB (xa.weaken (by norm_num; linarith)) (xb.weaken (by norm_num; linarith)) (bound (by linarith) (by linarith) hi.1 hi.2) (bound (by linarith) (by linarith) hj.1 hj.2)

/-- C119, the normals: the initialisation of a detector with any sizes succeeds and clears the counters; the normals have components within 2^-19 of those of the exact directions of the cells,
and unit length up to 2^-16. -/
theorem C119_init {T : Trig} (hT : Accurate T) (hB : Bounded T) (maxSize : ℕ) (d : Plane Flt) {a b c : ℤ} (h : SizesOk maxSize a b c) (rhoRes : Flt) :
    ∃ d', initSizes T maxSize d a b c rhoRes = .ok d' ∧ ∀ i j, (0 ≤ i ∧ i < a) → (0 ≤ j ∧ j < b) →
      (∃ n, d'.getNormal i j = .ok n ∧ NearUnit n (cellDir a b i j) (1 / 2 ^ 19) ∧ |n.1.val ^ 2 + n.2.1.val ^ 2 + n.2.2.val ^ 2 - 1| ≤ 1 / 2 ^ 16) ∧
      d'.getHoughSpectrum i j = .ok 0 ∧ ∀ r, (0 ≤ r ∧ r < c) → d'.getHoughTransform i j r = .ok 0 := by
  obtain ⟨d', l, h1, h2, h3, h4, h5⟩ := initSizes_ok hT hB maxSize d h rhoRes
  simp only [Prod.mk.injEq] at h3
  refine ⟨d', h1, fun i j hi hj => ?_⟩
  have hi' : 0 ≤ i ∧ i < d'.thetaNum := by rw [h3.1]; exact hi
  have hj' : 0 ≤ j ∧ j < d'.phiNum := by rw [h3.2.1]; exact hj
  refine ⟨⟨_, (get_ok h2 (r := 0) hi' hj').1, h5 i j hi hj, ?_⟩, (get_ok h2 (r := 0) hi' hj').2.1, fun r hr => (get_ok h2 hi' hj').2.2 (by rw [h3.2.2]; exact hr)⟩
  have hn := h5 i j hi hj
  generalize l [i, j] = n at *
  unfold cellDir dir NearUnit at hn
  simp only at hn
  obtain ⟨⟨⟨-, a1⟩, a2⟩, ⟨⟨-, b1⟩, b2⟩, ⟨-, c1⟩, c2⟩ := hn
  generalize π / 2 * i / a = th at *
  generalize 2 * π * j / b = ph at *
  have key : ∀ {x u : ℝ}, |x - u| ≤ 1 / 2 ^ 19 → |x| ≤ 1 → |u| ≤ 1 → |x ^ 2 - u ^ 2| ≤ 2 / 2 ^ 19 := by
    intro x u e1 e2 e3
    rw [show x ^ 2 - u ^ 2 = (x - u) * (x + u) by ring, abs_mul]
    calc _ ≤ 1 / 2 ^ 19 * 2 := mul_le_mul e1 ((abs_add_le _ _).trans (by linarith)) (abs_nonneg _) (by norm_num)
      _ = _ := by ring
  have u1 : |cos th * cos ph| ≤ 1 := by rw [abs_mul]; exact mul_le_one₀ (abs_cos_le_one _) (abs_nonneg _) (abs_cos_le_one _)
  have u2 : |cos th * sin ph| ≤ 1 := by rw [abs_mul]; exact mul_le_one₀ (abs_cos_le_one _) (abs_nonneg _) (abs_sin_le_one _)
  have k1 := _root_.abs_le.1 (key a1 a2 u1)
  have k2 := _root_.abs_le.1 (key b1 b2 u2)
  have k3 := _root_.abs_le.1 (key c1 c2 (abs_sin_le_one _))
  have e : (cos th * cos ph) ^ 2 + (cos th * sin ph) ^ 2 + sin th ^ 2 = 1 := by
    have s1 := sin_sq_add_cos_sq th
    have s2 := sin_sq_add_cos_sq ph
    calc _ = cos th ^ 2 * (sin ph ^ 2 + cos ph ^ 2) + sin th ^ 2 := by ring
      _ = 1 := by rw [s2]; linarith
  rw [_root_.abs_le]
  constructor <;> norm_num at * <;> linarith

/-- The projection of a point on a direction. -/
noncomputable def along (u : ℝ × ℝ × ℝ) (p : V3 Flt) : ℝ := u.1 * p.1.val + u.2.1 * p.2.1.val + u.2.2 * p.2.2.val

open Classical in
/-- The number of points whose projections on the direction `u` are in the bin `r` of a detector with `c` bins of exactly the resolution `res` around zero, enlarged by `e`. -/
noncomputable def exactCount (u : ℝ × ℝ × ℝ) (c : ℤ) (res : ℝ) (points : List (V3 Flt)) (r : ℤ) (e : ℝ) : ℕ :=
  (points.filter fun p => decide (InBin (-(c / 2 : ℤ) * res) res r e (along u p))).length

theorem two_pow_shift {a b : ℤ} (n : ℕ) (h : a = b + n) : (2 : ℝ) ^ a = 2 ^ b * 2 ^ n := by
  rw [h, zpow_add₀ (by norm_num), zpow_natCast]

/-- The first value of rho. -/
theorem firstRho_is {c k : ℤ} {rhoRes : Flt} (c0 : 0 < c) (c1 : c ≤ 2147483647) (k0 : -60 ≤ k) (k1 : k ≤ 60) (hr : rhoRes.Fin) (r0 : 0 ≤ rhoRes.val) (hw : c * rhoRes.val ≤ 2 ^ (k + 2)) :
    (firstRho c rhoRes).Fin ∧ |(firstRho c rhoRes).val| ≤ 2 ^ (k + 2) ∧ |(firstRho c rhoRes).val - -(c / 2 : ℤ) * rhoRes.val| ≤ 2 ^ (k - 21) := by
  unfold firstRho
  rw [Int.tdiv_eq_ediv_of_nonneg c0.le]
  have h0 : 0 ≤ c / 2 := by omega
  have h2 : 2 * (c / 2) ≤ c := by omega
  generalize c / 2 = m at *
  have m0 : (0 : ℝ) ≤ m := by exact_mod_cast h0
  have m2 : 2 * (m : ℝ) ≤ c := by exact_mod_cast h2
  have c1' : (c : ℝ) ≤ 2147483647 := by exact_mod_cast c1
  have hi : (TlsFp.ofInt .binary32 (-m)).Is (-m : ℤ) := ofInt_round (by
    push_cast
    rw [abs_neg, abs_of_nonneg m0]
    refine le_trans ?_ (two_pow_le (show (31 : ℤ) ≤ top .binary32 by decide))
    norm_num
    linarith)
  have hi' := hi.2.rel_multiple ⟨-m * 2 ^ 149, by
    push_cast
    rw [show Format.binary32.minExponent = -149 by decide]
    norm_num
    ring⟩
  push_cast at hi'
  rw [mb.2, abs_neg, abs_of_nonneg m0] at hi'
  have hi'' : |(TlsFp.ofInt .binary32 (-m)).val - -m| ≤ m / 2 ^ (24 : ℤ) := hi'
  have hF := hi.1
  clear hi hi'
  generalize TlsFp.ofInt .binary32 (-m) = F at *
  have s := _root_.abs_le.1 hi''
  have hW : m * rhoRes.val ≤ 2 ^ (k + 1) := by
    have : (2 : ℝ) ^ (k + 2) = 2 * 2 ^ (k + 1) := by rw [show k + 2 = k + 1 + 1 by ring, zpow_add_one₀ (by norm_num)]; ring
    have := mul_le_mul_of_nonneg_right m2 r0
    nlinarith
  have e1 : |F.val * rhoRes.val - -m * rhoRes.val| ≤ m * rhoRes.val / 2 ^ 24 := by
    rw [← sub_mul, abs_mul, abs_of_nonneg r0]
    refine (mul_le_mul_of_nonneg_right hi'' r0).trans (le_of_eq ?_)
    norm_num
    ring
  have e1' := _root_.abs_le.1 e1
  have hmr : 0 ≤ m * rhoRes.val := mul_nonneg m0 r0
  have hab : |F.val * rhoRes.val| ≤ m * rhoRes.val * (1 + 1 / 2 ^ 24) := by
    rw [_root_.abs_le]
    constructor <;> linarith
  have P : (2 : ℝ) ^ (k + 2) = 2 ^ (k - 21) * 2 ^ 23 := two_pow_shift _ (by push_cast; ring)
  have P1 : (2 : ℝ) ^ (k + 1) = 2 ^ (k - 21) * 2 ^ 22 := two_pow_shift _ (by push_cast; ring)
  have Q : (2 : ℝ) ^ (-150 : ℤ) ≤ 2 ^ (k - 21) / 2 ^ 24 := by
    rw [le_div_iff₀ (by norm_num), ← two_pow_shift (a := -126) 24 (by norm_num)]
    exact two_pow_le (by omega)
  have pos := two_pow_pos (k - 21)
  have hm := mul_rel (a := F) (b := rhoRes) hF hr (by
    refine hab.trans (le_trans ?_ (two_pow_le (show k + 2 ≤ top .binary32 from (by omega : k + 2 ≤ 62).trans (by decide))))
    rw [P]
    rw [P1] at hW
    nlinarith)
  rw [mb.2, show Format.binary32.minExponent = -149 by decide] at hm
  refine ⟨hm.1, ?_⟩
  have p2 := hm.2
  generalize (F * rhoRes).val = M at *
  have p3 : |M - F.val * rhoRes.val| ≤ m * rhoRes.val * (1 + 1 / 2 ^ 24) / 2 ^ 24 + 2 ^ (k - 21) / 2 ^ 24 := by
    refine p2.trans (add_le_add ?_ ((two_pow_le (by norm_num)).trans Q))
    refine (div_le_div_of_nonneg_right hab (by norm_num)).trans (le_of_eq ?_)
    norm_num
  have p4 := _root_.abs_le.1 p3
  rw [P1] at hW
  rw [P, _root_.abs_le, _root_.abs_le]
  clear P P1 Q hm p2 p3 e1 hab s hi''
  generalize F.val * rhoRes.val = fr at *
  rw [neg_mul] at *
  generalize m * rhoRes.val = mr at *
  generalize (2 : ℝ) ^ (k - 21) = w at *
  refine ⟨⟨?_, ?_⟩, ?_, ?_⟩ <;> norm_num at * <;> linarith

/-- The coordinates of the points are up to 2^k. -/
def Within (k : ℤ) (points : List (V3 Flt)) : Prop := ∀ p ∈ points, (p.1.Fin ∧ |p.1.val| ≤ 2 ^ k) ∧ (p.2.1.Fin ∧ |p.2.1.val| ≤ 2 ^ k) ∧ (p.2.2.Fin ∧ |p.2.2.val| ≤ 2 ^ k)

theorem along_near {k : ℤ} {n p : V3 Flt} {u : ℝ × ℝ × ℝ} (h : NearUnit n u (1 / 2 ^ 19)) (hp : (p.1.Fin ∧ |p.1.val| ≤ 2 ^ k) ∧ (p.2.1.Fin ∧ |p.2.1.val| ≤ 2 ^ k) ∧ (p.2.2.Fin ∧ |p.2.2.val| ≤ 2 ^ k)) :
    |dot n p - along u p| ≤ 3 * 2 ^ (k - 19) := by
  obtain ⟨⟨⟨-, a1⟩, -⟩, ⟨⟨-, b1⟩, -⟩, ⟨-, c1⟩, -⟩ := h
  obtain ⟨⟨-, a2⟩, ⟨-, b2⟩, -, c2⟩ := hp
  have P : (2 : ℝ) ^ (k - 19) = 1 / 2 ^ 19 * 2 ^ k := by rw [zpow_sub₀ (by norm_num)]; norm_num; ring
  have key : ∀ {x y z : ℝ}, |x - y| ≤ 1 / 2 ^ 19 → |z| ≤ 2 ^ k → |(x - y) * z| ≤ 2 ^ (k - 19) := by
    intro x y z h1 h2
    rw [abs_mul, P]
    exact mul_le_mul h1 h2 (abs_nonneg _) (by norm_num)
  unfold dot along
  rw [show n.1.val * p.1.val + n.2.1.val * p.2.1.val + n.2.2.val * p.2.2.val - (u.1 * p.1.val + u.2.1 * p.2.1.val + u.2.2 * p.2.2.val) =
    (n.1.val - u.1) * p.1.val + (n.2.1.val - u.2.1) * p.2.1.val + (n.2.2.val - u.2.2) * p.2.2.val by ring]
  refine (abs_add_le _ _).trans ?_
  have := abs_add_le ((n.1.val - u.1) * p.1.val) ((n.2.1.val - u.2.1) * p.2.1.val)
  linarith [key a1 a2, key b1 b2, key c1 c2]

/-- C119, the votes: a new detector with at least 8 cells of phi counts, in each cell, the points whose exact projections on the exact direction of the cell are in the exact bin, up to points within
2^(k - 17) of the ends of the bin, for points with coordinates up to 2^k in the range of the detector. -/
theorem C119_insert {T : Trig} (hT : Accurate T) (hB : Bounded T) (maxSize : ℕ) (d : Plane Flt) {a b c k : ℤ} (h : SizesOk maxSize a b c) (h8 : 8 ≤ b) {rhoRes : Flt} (k0 : -60 ≤ k) (k1 : k ≤ 60)
    (hr : rhoRes.Fin) (hr1 : 2 ^ (k - 27) ≤ rhoRes.val) (hw : c * rhoRes.val ≤ 2 ^ (k + 2)) (hr2 : rhoRes.val ≤ 2 ^ (60 : ℤ)) {points : List (V3 Flt)} (hl : points.length < 2 ^ 64) (hp : Within k points) :
    ∃ d1 d2, initSizes T maxSize d a b c rhoRes = .ok d1 ∧ insert d1 points = .ok d2 ∧ ∀ i j, (0 ≤ i ∧ i < a) → (0 ≤ j ∧ j < b) → ∃ f : ℕ → ℕ,
      (∀ r : ℕ, (r : ℤ) < c → d2.getHoughTransform i j r = .ok (f r) ∧ exactCount (cellDir a b i j) c rhoRes.val points r (-2 ^ (k - 17)) ≤ f r ∧
        f r ≤ exactCount (cellDir a b i j) c rhoRes.val points r (2 ^ (k - 17))) ∧
      d2.getHoughSpectrum i j = .ok (wrap (∑ r ∈ Finset.range c.toNat, f r ^ 2)) := by
  classical
  obtain ⟨d1, l, g1, g2, g3, g4, g5⟩ := initSizes_ok hT hB maxSize d h rhoRes
  simp only [Prod.mk.injEq] at g3 g4
  obtain ⟨ha, hb, hc, h5, -⟩ := h
  have p1 : a ≤ a * b := le_mul_of_one_le_right ha.le hb
  have p2 : b ≤ a * b := le_mul_of_one_le_left hb.le ha
  have p3 : a * b ≤ a * b * c := le_mul_of_one_le_right (by positivity) hc
  have p4 : c ≤ a * b * c := le_mul_of_one_le_left hc.le (by nlinarith)
  have r0 : 0 < rhoRes.val := (two_pow_pos _).trans_le hr1
  obtain ⟨m1, m2, m3⟩ := firstRho_is hc (by omega) k0 k1 hr r0.le hw
  have dom : ∀ i j, (0 ≤ i ∧ i < a) → (0 ≤ j ∧ j < b) → ∀ p ∈ points, Dom k (firstRho c rhoRes) rhoRes (l [i, j]) p := by
    intro i j hi hj p hpp
    obtain ⟨⟨n1, n2⟩, ⟨n3, n4⟩, n5, n6⟩ := g5 i j hi hj
    exact ⟨k0, k1, ⟨⟨n1.1, n2⟩, ⟨n3.1, n4⟩, n5.1, n6⟩, hp p hpp, ⟨m1, m2⟩, hr, hr1, hr2⟩
  obtain ⟨d2, e1, e2, -⟩ := C110_insert_partial (k := k) g2 (by rw [g3.2.1]; exact h8) (by rw [g3.2.1]; unfold I32; omega) points (by
    intro i j hi hj
    rw [g4.1, g4.2]
    rw [g3.1] at hi
    rw [g3.2.1] at hj
    exact dom i j hi hj)
  refine ⟨d1, d2, g1, e1, fun i j hi hj => ?_⟩
  have hi' : 0 ≤ i ∧ i < d1.thetaNum := by rw [g3.1]; exact hi
  have hj' : 0 ≤ j ∧ j < d1.phiNum := by rw [g3.2.1]; exact hj
  obtain ⟨n, c1, c2, f, c3, c4⟩ := e2 i j hi' hj'
  rw [g3.2.2] at c2 c3 c4
  have hn : n = l [i, j] := by
    have := (get_ok g2 (r := 0) hi' hj').1
    rw [c1, Except.ok.injEq] at this
    exact this
  have nu := g5 i j hi hj
  rw [← hn] at nu
  refine ⟨f, fun r hrc => ⟨c3 r hrc, ?_⟩, c4⟩
  obtain ⟨old, x, o1, o2, o3, o4⟩ := c2 r ⟨by omega, hrc⟩
  rw [(get_ok g2 hi' hj').2.2 ⟨by omega, by rw [g3.2.2]; exact hrc⟩, Except.ok.injEq] at o1
  have hx : x ≤ points.length := o4.trans (List.length_filter_le _ _)
  have hf : f r = x := by
    rw [c3 r hrc, Except.ok.injEq] at o2
    rw [o2, ← o1, Nat.zero_add]
    unfold wrap
    exact Nat.mod_eq_of_lt (by omega)
  rw [hf]
  have Q : (33 : ℝ) * 2 ^ (k - 25) + 3 * 2 ^ (k - 19) + 2 ^ (k - 21) ≤ 2 ^ (k - 17) := by
    have a1 : (2 : ℝ) ^ (k - 17) = 2 ^ (k - 25) * 2 ^ 8 := two_pow_shift _ (by push_cast; ring)
    have a2 : (2 : ℝ) ^ (k - 19) = 2 ^ (k - 25) * 2 ^ 6 := two_pow_shift _ (by push_cast; ring)
    have a3 : (2 : ℝ) ^ (k - 21) = 2 ^ (k - 25) * 2 ^ 4 := two_pow_shift _ (by push_cast; ring)
    rw [a1, a2, a3]
    have := two_pow_pos (k - 25)
    linarith
  have s1 := _root_.abs_le.1 m3
  have mono : ∀ p ∈ points, (InBin (-(c / 2 : ℤ) * rhoRes.val) rhoRes.val r (-2 ^ (k - 17)) (along (cellDir a b i j) p) → InBin d1.rhoMin.val d1.rhoRes.val r (-(33 * 2 ^ (k - 25))) (dot n p)) ∧
      (InBin d1.rhoMin.val d1.rhoRes.val r (33 * 2 ^ (k - 25)) (dot n p) → InBin (-(c / 2 : ℤ) * rhoRes.val) rhoRes.val r (2 ^ (k - 17)) (along (cellDir a b i j) p)) := by
    intro p hpp
    have s2 := _root_.abs_le.1 (along_near nu (hp p hpp))
    rw [g4.1, g4.2]
    unfold InBin
    constructor
    · rintro ⟨u1, u2⟩
      refine ⟨?_, by linarith⟩
      split_ifs at u1 ⊢ <;> linarith
    · rintro ⟨u1, u2⟩
      refine ⟨?_, by linarith⟩
      split_ifs at u1 ⊢ <;> linarith
  unfold count at o3 o4
  unfold exactCount
  rw [← List.countP_eq_length_filter] at o3 o4 ⊢
  rw [← List.countP_eq_length_filter]
  refine ⟨le_trans (List.countP_mono_left fun p hpp => ?_) o3, o4.trans (List.countP_mono_left fun p hpp => ?_)⟩
  · simp only [decide_eq_true_eq]
    exact (mono p hpp).1
  · simp only [decide_eq_true_eq]
    exact (mono p hpp).2

/-- C119, the planes: for a point counted in a cell, the reported normal is near the exact direction of the cell, the last parameter near the opposite of the exact beginning of the bin. -/
theorem C119_param {T : Trig} (hT : Accurate T) (hB : Bounded T) (maxSize : ℕ) (d : Plane Flt) {a b c k : ℤ} (h : SizesOk maxSize a b c) {rhoRes : Flt} (k0 : -60 ≤ k) (k1 : k ≤ 60)
    (hr : rhoRes.Fin) (r0 : 0 ≤ rhoRes.val) (hw : c * rhoRes.val ≤ 2 ^ (k + 2)) :
    ∃ d1, initSizes T maxSize d a b c rhoRes = .ok d1 ∧ ∀ i j r, (0 ≤ i ∧ i < a) → (0 ≤ j ∧ j < b) → (0 ≤ r ∧ r < c) → ∃ n w, getPlaneParam d1 i j r = .ok (n, w) ∧
      NearUnit n (cellDir a b i j) (1 / 2 ^ 19) ∧ Approx w (-((r - (c / 2 : ℤ)) * rhoRes.val)) (2 ^ (k - 19)) := by
  obtain ⟨d1, l, g1, g2, g3, g4, g5⟩ := initSizes_ok hT hB maxSize d h rhoRes
  simp only [Prod.mk.injEq] at g3 g4
  refine ⟨d1, g1, fun i j r hi hj hrr => ⟨_, _, param_ok g2 (by rw [g3.1]; exact hi) (by rw [g3.2.1]; exact hj) (by rw [g3.2.2]; exact hrr), g5 i j hi hj, ?_⟩⟩
  obtain ⟨ha, hb, hc, h5, -⟩ := h
  have p3 : 0 < a * b := mul_pos ha hb
  have p4 : c ≤ a * b * c := le_mul_of_one_le_left hc.le p3
  obtain ⟨m1, m2, m3⟩ := firstRho_is hc (by omega) k0 k1 hr r0 hw
  rw [g4.1, g4.2]
  have b0 : (0 : ℝ) ≤ r := by exact_mod_cast hrr.1
  have b1 : (r : ℝ) ≤ c := by exact_mod_cast hrr.2.le
  have b2 : (c : ℝ) ≤ 2147483647 := by exact_mod_cast (by omega : c ≤ 2147483647)
  have hi' : (TlsFp.ofInt .binary32 r).Is r := ofInt_round (by
    rw [abs_of_nonneg b0]
    refine le_trans ?_ (two_pow_le (show (31 : ℤ) ≤ top .binary32 by decide))
    norm_num
    linarith)
  have hF := hi'.1
  have hi2 := hi'.2.rel_multiple ⟨r * 2 ^ 149, by
    push_cast
    rw [show Format.binary32.minExponent = -149 by decide]
    norm_num
    ring⟩
  rw [mb.2, abs_of_nonneg b0] at hi2
  have hi3 : |(TlsFp.ofInt .binary32 r).val - r| ≤ r / 2 ^ (24 : ℤ) := hi2
  clear hi' hi2
  generalize TlsFp.ofInt .binary32 r = F at *
  have q0 : 0 ≤ r * rhoRes.val := mul_nonneg b0 r0
  have q1 : r * rhoRes.val ≤ 2 ^ (k + 2) := (mul_le_mul_of_nonneg_right b1 r0).trans hw
  have e1 : |rhoRes.val * F.val - r * rhoRes.val| ≤ r * rhoRes.val / 2 ^ 24 := by
    rw [mul_comm, ← sub_mul, abs_mul, abs_of_nonneg r0]
    refine (mul_le_mul_of_nonneg_right hi3 r0).trans (le_of_eq ?_)
    norm_num
    ring
  have e2 := _root_.abs_le.1 e1
  have W2 : (2 : ℝ) ^ (k + 2) = 2 ^ (k - 19) * 2 ^ 21 := two_pow_shift _ (by push_cast; ring)
  have W3 : (2 : ℝ) ^ (k + 3) = 2 ^ (k - 19) * 2 ^ 22 := two_pow_shift _ (by push_cast; ring)
  have W4 : (2 : ℝ) ^ (k + 4) = 2 ^ (k - 19) * 2 ^ 23 := two_pow_shift _ (by push_cast; ring)
  have W5 : (2 : ℝ) ^ (k + 3 - 24 - 1) = 2 ^ (k - 19) / 8 := by
    rw [eq_div_iff (by norm_num), show k - 19 = (k + 3 - 24 - 1) + 3 by ring, zpow_add₀ (by norm_num)]
    norm_num
  have W6 : (2 : ℝ) ^ (k + 4 - 24 - 1) = 2 ^ (k - 19) / 4 := by
    rw [eq_div_iff (by norm_num), show k - 19 = (k + 4 - 24 - 1) + 2 by ring, zpow_add₀ (by norm_num)]
    norm_num
  have W7 : (2 : ℝ) ^ (k - 21) = 2 ^ (k - 19) / 4 := by
    rw [eq_div_iff (by norm_num), show k - 19 = (k - 21) + 2 by ring, zpow_add₀ (by norm_num)]
    norm_num
  have pos := two_pow_pos (k - 19)
  have hp : |rhoRes.val * F.val| ≤ 2 ^ (k + 3) := by
    rw [W3, _root_.abs_le]
    rw [W2] at q1
    constructor <;> linarith
  have tb : ∀ {x : ℤ}, x ≤ 64 → x ≤ top .binary32 := fun hx => hx.trans (by decide)
  have lb : ∀ {x : ℤ}, -60 ≤ x → Format.binary32.minExponent + (Format.binary32.mantissaBits : ℤ) ≤ x := fun hx => le_trans (by decide) hx
  have M := (mul_is hr hF (hp.trans (two_pow_le (tb (by omega))))).approx (k + 3) (lb (by omega)) hp e1
  rw [mb.2] at M
  push_cast at M
  rw [W5] at M
  have A : |(r : ℝ) * rhoRes.val| ≤ 2 ^ (k + 2) := by rwa [abs_of_nonneg q0]
  have B : |-(((c / 2 : ℤ) : ℝ)) * rhoRes.val| ≤ 2 ^ (k + 2) + 2 ^ (k - 21) := by
    have := abs_add_le (-(((c / 2 : ℤ) : ℝ)) * rhoRes.val - (firstRho c rhoRes).val) (firstRho c rhoRes).val
    rw [sub_add_cancel, abs_sub_comm] at this
    linarith
  have S := M.add (b := firstRho c rhoRes) ⟨m1, m3⟩ (k + 4) (E := 2 ^ (k - 19)) (lb (by omega)) (tb (by omega)) A B (by
    rw [W7, W4, W2]
    rw [W2] at q1
    generalize (2 : ℝ) ^ (k - 19) = w at *
    norm_num at *
    linarith) (by
    rw [mb.2]
    push_cast
    rw [W6, W7]
    rw [W2] at q1
    generalize (2 : ℝ) ^ (k - 19) = w at *
    norm_num at *
    linarith)
  have N := S.neg
  have e : -((r : ℝ) * rhoRes.val + -(((c / 2 : ℤ) : ℝ)) * rhoRes.val) = -((r - (c / 2 : ℤ)) * rhoRes.val) := by ring
  rwa [e] at N

/-- A number near one up to 1 can be chosen up to 1. -/
theorem clamp_exists {spec : Format} [Fmt spec] (h1 : (1 : ℤ) ≤ spec.mantissaBits) (h2 : 0 ≤ top spec) (a : Fp spec) :
    ∃ b : Fp spec, ∀ v e : ℝ, |v| ≤ 1 → Approx a v e → Approx b v e ∧ |b.val| ≤ 1 := by
  have one := natCast_exact (spec := spec) (n := 1) (by push_cast; exact one_le_zpow₀ (by norm_num) (by omega)) (by push_cast; exact one_le_zpow₀ (by norm_num) h2)
  push_cast at one
  by_cases h : |a.val| ≤ 1
  · exact ⟨a, fun v e _ h' => ⟨h', h⟩⟩
  · rcases le_total 0 a.val with h0 | h0
    · rw [abs_of_nonneg h0, not_le] at h
      refine ⟨((1 : ℕ) : Fp spec), fun v e hv h' => ⟨⟨one.1, ?_⟩, by rw [one.2]; norm_num⟩⟩
      have := _root_.abs_le.1 hv
      rw [one.2, abs_of_nonneg (by linarith)]
      exact le_trans (by linarith) ((le_abs_self _).trans h'.2)
    · rw [abs_of_nonpos h0, not_le] at h
      refine ⟨-((1 : ℕ) : Fp spec), fun v e hv h' => ⟨⟨neg_fin.2 one.1, ?_⟩, by rw [neg_val, one.2]; norm_num⟩⟩
      have := _root_.abs_le.1 hv
      rw [neg_val, one.2, abs_of_nonpos (by linarith)]
      exact le_trans (by linarith) ((neg_le_abs _).trans h'.2)

/-- There are libraries as required. -/
theorem library_exists (dbl : Bool) : ∃ T : Trig, T.dbl = dbl ∧ Accurate T ∧ Bounded T := by
  obtain ⟨T, hd, hT⟩ := accurate_exists dbl
  choose gd hgd using clamp_exists (spec := .binary64) (by decide) (by decide)
  choose gf hgf using clamp_exists (spec := .binary32) (by decide) (by decide)
  refine ⟨⟨dbl, fun y => gd (T.cos y), fun y => gd (T.sin y), fun y => gf (T.cosf y), fun y => gf (T.sinf y)⟩, rfl, ⟨?_, ?_, ?_, ?_⟩, ⟨?_, ?_, ?_, ?_⟩⟩ <;> intro y h1 h2
  · exact (hgd _ _ _ (abs_cos_le_one _) (hT.cos y h1 h2)).1
  · exact (hgd _ _ _ (abs_sin_le_one _) (hT.sin y h1 h2)).1
  · exact (hgf _ _ _ (abs_cos_le_one _) (hT.cosf y h1 h2)).1
  · exact (hgf _ _ _ (abs_sin_le_one _) (hT.sinf y h1 h2)).1
  · exact (hgd _ _ _ (abs_cos_le_one _) (hT.cos y h1 h2)).2
  · exact (hgd _ _ _ (abs_sin_le_one _) (hT.sin y h1 h2)).2
  · exact (hgf _ _ _ (abs_cos_le_one _) (hT.cosf y h1 h2)).2
  · exact (hgf _ _ _ (abs_sin_le_one _) (hT.sinf y h1 h2)).2

-- a detector with 10 bins of size 1: a point at distance 3.5 along the first axis is counted in the bin from 3 to 4 of the first cell
example {T : Trig} (hT : Accurate T) (hB : Bounded T) : ∃ d1 d2, initSizes T 80 Plane.new 1 8 10 (fi 1) = .ok d1 ∧ insert d1 [(f 35 1, 0, 0)] = .ok d2 ∧ d2.getHoughTransform 0 0 8 = .ok 1 := by
  obtain ⟨o1, o2⟩ := fi_is (n := 1) (by norm_num)
  have hf : (f 35 1).Fin ∧ (f 35 1).val = 7 / 2 := by
    have h := Geometry2Fp.val_finite (a := f 35 1) (s := .positive) (m := 14680064) (e := -22) (h := by decide) (by decide +kernel)
    refine ⟨h.1, h.2.trans ?_⟩
    norm_num [sgn]
  obtain ⟨d1, d2, h1, h2, h3⟩ := C119_insert hT hB 80 Plane.new (a := 1) (b := 8) (c := 10) (k := 2) (rhoRes := fi 1) (by unfold SizesOk; norm_num) (by norm_num) (by norm_num) (by norm_num) o1
    (by rw [o2]; norm_num) (by rw [o2]; norm_num) (by rw [o2]; norm_num) (points := [(f 35 1, 0, 0)]) (by norm_num) (by
      intro p hp
      rw [List.mem_singleton] at hp
      rw [hp]
      refine ⟨⟨hf.1, ?_⟩, ⟨zero_is.1, ?_⟩, zero_is.1, ?_⟩
      · simp only [hf.2]; norm_num [abs_le]
      · simp only [zero_is.2]; norm_num
      · simp only [zero_is.2]; norm_num)
  refine ⟨d1, d2, h1, h2, ?_⟩
  obtain ⟨g, h4, -⟩ := h3 0 0 (by norm_num) (by norm_num)
  obtain ⟨h5, h6, h7⟩ := h4 8 (by norm_num)
  have hu : along (cellDir 1 8 0 0) (f 35 1, 0, 0) = 7 / 2 := by
    unfold along cellDir dir
    simp [hf.2, (zero_is (spec := .binary32)).2]
  rw [show ((8 : ℕ) : ℤ) = 8 by rfl] at h5
  rw [h5]
  congr 1
  have l1 : exactCount (cellDir 1 8 0 0) 10 (fi 1).val [(f 35 1, 0, 0)] (8 : ℕ) (-2 ^ ((2 : ℤ) - 17)) = 1 := by
    unfold exactCount
    rw [List.filter_cons_of_pos, List.filter_nil]
    · rfl
    · simp only [decide_eq_true_eq]
      rw [hu, o2]
      unfold InBin
      norm_num
  have l2 : exactCount (cellDir 1 8 0 0) 10 (fi 1).val [(f 35 1, 0, 0)] (8 : ℕ) (2 ^ ((2 : ℤ) - 17)) ≤ 1 := by
    unfold exactCount
    exact List.length_filter_le _ _
  omega

end Verif.HoughFp
