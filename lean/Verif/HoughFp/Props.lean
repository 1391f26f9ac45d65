import Verif.HoughFp.Index
import Verif.Hough.PlaneProps
import Verif.TlsFp.Lemmas

/-! Property theorems C110 (see properties.jsonl). -/
namespace Verif.HoughFp
open Verif Hough Ieee Fp Interval Interval.Spec Float.Model

/-- The projection `y` is in the bin `r` of the code, enlarged by `e` at both ends; the first bin has twice the width (C60). -/
def InBin (rhoMin rhoRes : ℝ) (r : ℤ) (e y : ℝ) : Prop :=
  (if r = 0 then rhoMin - rhoRes - e < y else rhoMin + r * rhoRes - e ≤ y) ∧ y < rhoMin + (r + 1) * rhoRes + e

/-- The truncation of a number is a given index. -/
theorem trunc_iff (q : ℝ) (r : ℤ) (h0 : 0 ≤ r) : trunc q = r ↔ (if r = 0 then -1 < q else (r : ℝ) ≤ q) ∧ q < r + 1 := by
  unfold trunc
  by_cases hx : 0 ≤ q
  · rw [if_pos hx, Int.floor_eq_iff]
    refine and_congr_left fun _ => ?_
    by_cases hr0 : r = 0
    · rw [if_pos hr0, hr0]
      push_cast
      exact ⟨fun _ => by linarith, fun _ => hx⟩
    · rw [if_neg hr0]
  · rw [if_neg hx, Int.ceil_eq_iff]
    have hx := not_le.1 hx
    by_cases hr0 : r = 0
    · rw [if_pos hr0, hr0]
      push_cast
      exact ⟨fun h => ⟨by linarith [h.1], by linarith⟩, fun h => ⟨by linarith [h.1], hx.le⟩⟩
    · rw [if_neg hr0]
      have hr1 : (1 : ℝ) ≤ r := by exact_mod_cast (by omega : 1 ≤ r)
      exact ⟨fun h => by linarith [h.1], fun h => by linarith [h.1]⟩

/-- C110, one point: the index is defined; a bin with this index contains the exact projection up to the margin, and a projection inside a bin by more than the margin has its index. -/
theorem C110_index_partial {k : ℤ} {rhoMin rhoRes : Flt} {n p : V3 Flt} (h : Dom k rhoMin rhoRes n p) :
    ∃ i, index rhoMin rhoRes n p = .ok i ∧ ∀ r : ℤ, 0 ≤ r →
      (i = r → InBin rhoMin.val rhoRes.val r (margin k) (dot n p)) ∧ (InBin rhoMin.val rhoRes.val r (-margin k) (dot n p) → i = r) := by
  obtain ⟨q, h1, -, h3⟩ := index_near h
  have r0 : 0 < rhoRes.val := (two_pow_pos _).trans_le h.rhoRes.2.1
  refine ⟨_, h1, fun r hr => ?_⟩
  rw [trunc_iff q r hr]
  unfold InBin
  have h3 := _root_.abs_le.1 h3
  constructor
  · rintro ⟨a, b⟩
    have b' := mul_lt_mul_of_pos_right b r0
    refine ⟨?_, by linarith⟩
    split_ifs with hz
    · rw [if_pos hz] at a
      have := mul_lt_mul_of_pos_right a r0
      linarith
    · rw [if_neg hz] at a
      have := mul_le_mul_of_nonneg_right a r0.le
      linarith
  · rintro ⟨a, b⟩
    refine ⟨?_, ?_⟩
    · split_ifs with hz
      · rw [if_pos hz] at a
        refine lt_of_mul_lt_mul_right ?_ r0.le
        linarith
      · rw [if_neg hz] at a
        refine le_of_mul_le_mul_right ?_ r0
        linarith
    · refine lt_of_mul_lt_mul_right (a := rhoRes.val) ?_ r0.le
      linarith

open Classical in
/-- The number of points with projections in a bin. -/
noncomputable def count (d : Plane Flt) (n : V3 Flt) (points : List (V3 Flt)) (r : ℤ) (e : ℝ) : ℕ :=
  (points.filter fun p => decide (InBin d.rhoMin.val d.rhoRes.val r e (dot n p))).length

/-- What is asked of the detector `d'` after the insertion of points in `d`: the counter of each cell grows by a number of points that is at least that of the bin made smaller by `e` and at most
that of the bin made larger by `e`; each cell of the spectrum is the sum of the squares along rho (in the arithmetic of `size_t`). -/
def Counted (d d' : Plane Flt) (points : List (V3 Flt)) (e : ℝ) : Prop :=
  ∀ i j, (0 ≤ i ∧ i < d.thetaNum) → (0 ≤ j ∧ j < d.phiNum) → ∃ n, d.getNormal i j = .ok n ∧
    (∀ r, (0 ≤ r ∧ r < d.rhoNum) → ∃ old c, d.getHoughTransform i j r = .ok old ∧ d'.getHoughTransform i j r = .ok (wrap (old + c)) ∧
      count d n points r (-e) ≤ c ∧ c ≤ count d n points r e) ∧
    ∃ f : ℕ → ℕ, (∀ r : ℕ, (r : ℤ) < d.rhoNum → d'.getHoughTransform i j r = .ok (f r)) ∧
      d'.getHoughSpectrum i j = .ok (wrap (∑ r ∈ Finset.range d.rhoNum.toNat, f r ^ 2))

/-- The sizes of the points and of a detector with the normals `l`. -/
def AllDom (k : ℤ) (d : Plane Flt) (l : List ℤ → V3 Flt) (points : List (V3 Flt)) : Prop :=
  ∀ i j, (0 ≤ i ∧ i < d.thetaNum) → (0 ≤ j ∧ j < d.phiNum) → ∀ p ∈ points, Dom k d.rhoMin d.rhoRes (l [i, j]) p

/-- C110: in `float`, on every usable detector, the insertion of points is defined and counts the points of each bin of the code exactly. -/
def C110_statement : Prop :=
  ∀ (d : Plane Flt) (t s : List ℤ → ℕ) (l : List ℤ → V3 Flt) (k : ℤ) (points : List (V3 Flt)), PlaneOk d t s l → 8 ≤ d.phiNum → I32 d.phiNum → AllDom k d l points →
    ∃ d', insert d points = .ok d' ∧ Counted d d' points 0

/-- C110, the part that holds: for points with coordinates up to 2^k the insertion is defined and counts exactly the points that are farther from the ends of their bins than the margin 33 * 2^(k - 25);
the detector remains usable. -/
theorem C110_insert_partial {d : Plane Flt} {t s : List ℤ → ℕ} {l : List ℤ → V3 Flt} {k : ℤ} (h : PlaneOk d t s l) (h8 : 8 ≤ d.phiNum) (hI : I32 d.phiNum)
    (points : List (V3 Flt)) (hp : AllDom k d l points) :
    ∃ d', insert d points = .ok d' ∧ Counted d d' points (33 * 2 ^ (k - 25)) ∧ (∃ t' s', PlaneOk d' t' s' l) ∧
      (d'.thetaNum, d'.phiNum, d'.rhoNum, d'.rhoMin, d'.rhoRes) = (d.thetaNum, d.phiNum, d.rhoNum, d.rhoMin, d.rhoRes) := by
  classical
  let f : List ℤ → V3 Flt → ℤ := fun is p => match index d.rhoMin d.rhoRes (l is) p with
    | .ok i => i
    | .error _ => 0
  have hf : Indices d l points f := by
    intro i j hi hj p hpp
    obtain ⟨x, hx, -⟩ := C110_index_partial (hp i j hi hj p hpp)
    show _ = Except.ok (match index d.rhoMin d.rhoRes (l [i, j]) p with
      | .ok i => i
      | .error _ => 0)
    rw [hx]
  obtain ⟨T, S, e, g⟩ := insert_ok h h8 hI points f hf
  refine ⟨_, e, fun i j hi hj => ⟨l [i, j], (get_ok h (r := 0) hi hj).1, fun r hrho => ⟨t [i, j, r], votes (f [i, j]) points r, (get_ok h hi hj).2.2 hrho, ?_, ?_, ?_⟩,
    fun r => newTransform t f points [i, j, (r : ℤ)], fun r hrho => (get_ok g hi hj).2.2 ⟨by omega, hrho⟩, ?_⟩, ⟨_, _, g⟩, rfl⟩
  · rw [(get_ok g hi hj).2.2 hrho]
    rfl
  · unfold count votes
    rw [← List.countP_eq_length_filter]
    refine List.countP_mono_left fun p hpp => ?_
    simp only [decide_eq_true_eq]
    obtain ⟨x, hx, hb⟩ := C110_index_partial (hp i j hi hj p hpp)
    have := hf i j hi hj p hpp
    rw [hx, Except.ok.injEq] at this
    rw [← this]
    exact (hb r hrho.1).2
  · unfold count votes
    rw [← List.countP_eq_length_filter]
    refine List.countP_mono_left fun p hpp => ?_
    simp only [decide_eq_true_eq]
    obtain ⟨x, hx, hb⟩ := C110_index_partial (hp i j hi hj p hpp)
    have := hf i j hi hj p hpp
    rw [hx, Except.ok.injEq] at this
    rw [← this]
    exact (hb r hrho.1).1
  · rw [(get_ok g (r := 0) hi hj).2.1]
    rfl

/-- Numbers for the examples. -/
def fi (n : ℤ) : Flt := TlsFp.ofInt .binary32 n

theorem fi_is {n : ℤ} (h : |(n : ℝ)| ≤ 2 ^ (24 : ℤ)) : (fi n).Fin ∧ (fi n).val = n :=
  TlsFp.ofInt_is (h.trans (two_pow_le (show (24 : ℤ) ≤ 24 by norm_num))) (h.trans (two_pow_le (show (24 : ℤ) ≤ 127 by norm_num)))

/-- The first axis. -/
def ux : V3 Flt := (fi 1, 0, 0)

/-- The detector with one theta, 8 phi and 10 rho, all normals along the first axis, with the given range of rho. -/
theorem detector (m r : Flt) : ∃ d : Plane Flt, PlaneOk d (fun _ => 0) (fun _ => 0) (fun _ => ux) ∧ (d.thetaNum, d.phiNum, d.rhoNum) = (1, 8, 10) ∧ (d.rhoMin, d.rhoRes) = (m, r) := by
  have h3 : ∀ x ∈ [(1 : ℤ), 8, 10], 0 < x ∧ I32 x := by simp [I32]
  have h2 : ∀ x ∈ [(1 : ℤ), 8], 0 < x ∧ I32 x := by simp [I32]
  obtain ⟨t, ct, -, ht⟩ := initDims_ok 100 0 (Grid.new 0 3) [1, 8, 10] h3 (by decide) (by decide)
  obtain ⟨s, cs, -, hs⟩ := initDims_ok 100 0 (Grid.new 0 2) [1, 8] h2 (by decide) (by decide)
  obtain ⟨l, cl, -, hl⟩ := initDims_ok 100 ux (Grid.new ux 2) [1, 8] h2 (by decide) (by decide)
  exact ⟨⟨Grid.fill t 0, Grid.fill s 0, Grid.fill l ux, 1, 8, 10, 0, 0, m, 0, 0, r, 1, 1, 1⟩,
    ⟨ht.fill 0, hs.fill 0, hl.fill _, fun _ => by norm_num, one_pos, show (0 : ℤ) < 8 by decide, show (0 : ℤ) < 10 by decide⟩, rfl, rfl⟩

/-- The number before one. -/
def x1 : Flt := lit .binary32 99999994 (-8)

theorem x1_is : x1.Fin ∧ x1.val = 1 - 2 ^ (-24 : ℤ) := by
  have h : x1.x = .finite .positive 16777215 (-24) (by decide) := by decide +kernel
  refine ⟨by unfold Fp.Fin; rw [h]; trivial, ?_⟩
  unfold Fp.val
  rw [h, Ieee.val]
  norm_num [sgn]

theorem zero_fl : (0 : Flt).Fin ∧ (0 : Flt).val = 0 := zero_is

/-- The votes of one point with the index `i` for all the normals of a detector of the examples. -/
theorem one_vote {d : Plane Flt} {m r : Flt} (h : PlaneOk d (fun _ => 0) (fun _ => 0) (fun _ => ux)) (h1 : (d.thetaNum, d.phiNum, d.rhoNum) = (1, 8, 10)) (h2 : (d.rhoMin, d.rhoRes) = (m, r))
    {p : V3 Flt} {i : ℤ} (hi : index m r ux p = .ok i) : ∃ d', insert d [p] = .ok d' ∧ ∀ k, 0 ≤ k ∧ k < 10 → d'.getHoughTransform 0 0 k = .ok (if i = k then 1 else 0) := by
  simp only [Prod.mk.injEq] at h1 h2
  obtain ⟨T, S, e, g⟩ := insert_ok h (by omega) (by unfold I32; omega) [p] (fun _ _ => i) (fun a b _ _ q hq => by
    rw [List.mem_singleton] at hq
    rw [hq, h2.1, h2.2]
    exact hi)
  refine ⟨_, e, fun k hk => ?_⟩
  rw [(get_ok g (i := 0) (j := 0) ⟨le_rfl, h.theta⟩ ⟨le_rfl, h.phi⟩).2.2 ⟨hk.1, by show k < d.rhoNum; omega⟩]
  unfold newTransform votes
  simp only [List.countP_cons, List.countP_nil]
  by_cases hik : i = k <;> simp [hik, wrap]

/-- C110 is false for points near the ends of bins: with the bins of one unit from -5, the point at 1 - 2^-24 is in the bin 5 and is counted in the bin 6. -/
theorem C110_violated : ¬ C110_statement := by
  intro hs
  obtain ⟨d, h, h1, h2⟩ := detector (fi (-5)) (fi 1)
  have hi : index (fi (-5)) (fi 1) ux (x1, 0, 0) = .ok 6 := by decide +kernel
  obtain ⟨d', e, hv⟩ := one_vote h h1 h2 hi
  simp only [Prod.mk.injEq] at h1 h2
  have f1 := fi_is (n := 1) (by norm_num)
  have f5 := fi_is (n := -5) (by norm_num)
  push_cast at f1 f5
  have hdom : AllDom 1 d (fun _ => ux) [(x1, 0, 0)] := by
    intro i j _ _ p hp
    rw [List.mem_singleton] at hp
    subst hp
    rw [h2.1, h2.2]
    refine ⟨by norm_num, by norm_num, ⟨⟨f1.1, ?_⟩, ⟨zero_fl.1, ?_⟩, ⟨zero_fl.1, ?_⟩⟩, ⟨⟨x1_is.1, ?_⟩, ⟨zero_fl.1, ?_⟩, ⟨zero_fl.1, ?_⟩⟩, ⟨f5.1, ?_⟩, f1.1, ?_, ?_⟩
    · show |(fi 1).val| ≤ 1
      rw [f1.2]; norm_num
    · show |(0 : Flt).val| ≤ 1
      rw [zero_fl.2]; norm_num
    · show |(0 : Flt).val| ≤ 1
      rw [zero_fl.2]; norm_num
    · show |x1.val| ≤ 2 ^ (1 : ℤ)
      rw [x1_is.2]; norm_num [abs_le]
    · show |(0 : Flt).val| ≤ 2 ^ (1 : ℤ)
      rw [zero_fl.2]; norm_num
    · show |(0 : Flt).val| ≤ 2 ^ (1 : ℤ)
      rw [zero_fl.2]; norm_num
    · rw [f5.2]; norm_num
    · rw [f1.2]; norm_num
    · rw [f1.2]; norm_num
  obtain ⟨d'', e', hc⟩ := hs d _ _ _ 1 _ h (by omega) (by unfold I32; omega) hdom
  rw [e, Except.ok.injEq] at e'
  subst e'
  obtain ⟨n, hn, hr, -⟩ := hc 0 0 ⟨le_rfl, h.theta⟩ ⟨le_rfl, h.phi⟩
  rw [(get_ok h (r := 0) ⟨le_rfl, h.theta⟩ ⟨le_rfl, h.phi⟩).1, Except.ok.injEq] at hn
  obtain ⟨old, c, o1, o2, -, o4⟩ := hr 6 (by omega)
  rw [(get_ok h ⟨le_rfl, h.theta⟩ ⟨le_rfl, h.phi⟩).2.2 (by omega), Except.ok.injEq] at o1
  rw [hv 6 (by omega), if_pos rfl, Except.ok.injEq, ← o1] at o2
  have hz : count d n [(x1, 0, 0)] 6 0 = 0 := by
    classical
    unfold count
    rw [List.length_eq_zero_iff, List.filter_eq_nil_iff]
    intro p hp
    rw [List.mem_singleton] at hp
    subst hp
    rw [decide_eq_true_iff]
    unfold InBin
    rw [h2.1, h2.2, f5.2, f1.2, ← hn]
    have hd : dot ux (x1, 0, 0) = 1 - 2 ^ (-24 : ℤ) := by
      show (fi 1).val * x1.val + (0 : Flt).val * (0 : Flt).val + (0 : Flt).val * (0 : Flt).val = _
      rw [f1.2, x1_is.2, zero_fl.2]
      norm_num
    rw [hd]
    norm_num
  rw [hz] at o4
  have : c = 0 := by omega
  rw [this] at o2
  exact absurd o2 (by decide)

/-- The last parameter of a reported plane. -/
theorem param_ok {d : Plane Flt} {t s : List ℤ → ℕ} {l : List ℤ → V3 Flt} (h : PlaneOk d t s l) {i j r : ℤ} (hi : 0 ≤ i ∧ i < d.thetaNum)
    (hj : 0 ≤ j ∧ j < d.phiNum) (hr : 0 ≤ r ∧ r < d.rhoNum) : getPlaneParam d i j r = .ok (l [i, j], -(d.rhoRes * TlsFp.ofInt .binary32 r + d.rhoMin)) := by
  have a1 : ∀ {p : Prop} [Decidable p], p → Cxx.assert p = .ok () := fun hp => if_pos hp
  unfold getPlaneParam
  rw [a1 hi, bind_ok, a1 hj, bind_ok, a1 hr, bind_ok, (get_ok h (r := 0) hi hj).1]
  rfl

/-- C110, the planes: a point counted in a cell is within a resolution and the margin of the plane that the detector reports for the cell. -/
theorem C110_plane_partial {d : Plane Flt} {t s : List ℤ → ℕ} {l : List ℤ → V3 Flt} {k : ℤ} (h : PlaneOk d t s l) {i j r : ℤ} (hi : 0 ≤ i ∧ i < d.thetaNum)
    (hj : 0 ≤ j ∧ j < d.phiNum) (hr : 0 ≤ r ∧ r < d.rhoNum) (hr' : r ≤ 16777216) {p : V3 Flt} (hd : Dom k d.rhoMin d.rhoRes (l [i, j]) p) (hx : index d.rhoMin d.rhoRes (l [i, j]) p = .ok r) :
    ∃ n w, getPlaneParam d i j r = .ok (n, w) ∧ w.Fin ∧ dot n p + w.val < d.rhoRes.val + 2 ^ (k - 18) ∧
      (if r = 0 then -d.rhoRes.val - 2 ^ (k - 18) < dot n p + w.val else -2 ^ (k - 18) ≤ dot n p + w.val) := by
  refine ⟨_, _, param_ok h hi hj hr, ?_⟩
  obtain ⟨q, h1, -, h3⟩ := index_near hd
  rw [h1, Except.ok.injEq] at hx
  have k0 := hd.k0
  have k1 := hd.k1
  obtain ⟨hr1, hr2, hr3⟩ := hd.rhoRes
  obtain ⟨hm1, hm2⟩ := hd.rhoMin
  have r0 : 0 < d.rhoRes.val := (two_pow_pos _).trans_le hr2
  have hrr : |(r : ℝ)| ≤ 2 ^ (24 : ℤ) := by
    have a : (0 : ℝ) ≤ r := by exact_mod_cast hr.1
    have b : (r : ℝ) ≤ 16777216 := by exact_mod_cast hr'
    rw [abs_of_nonneg a]
    norm_num
    exact b
  have fr := fi_is hrr
  unfold fi at fr
  obtain ⟨hb1, hb2⟩ := (trunc_iff q r hr.1).1 hx
  obtain ⟨-, g2, g3⟩ := project_near hd
  have hu := two_pow_pos (k - 25)
  have hk3 : (2 : ℝ) ^ (k + 3) = 8 * 2 ^ k := by rw [two_pow_add]; norm_num; ring
  have hk2 : (2 : ℝ) ^ (k + 2) = 4 * 2 ^ k := by rw [two_pow_add]; norm_num; ring
  have hk4 : (2 : ℝ) ^ (k + 4) = 16 * 2 ^ k := by rw [two_pow_add]; norm_num; ring
  have hk5 : (2 : ℝ) ^ (k + 5) = 32 * 2 ^ k := by rw [two_pow_add]; norm_num; ring
  have hkk : (2 : ℝ) ^ k = 33554432 * 2 ^ (k - 25) := by rw [show k = (k - 25) + 25 by ring, two_pow_add]; norm_num; ring
  have hk18 : (2 : ℝ) ^ (k - 18) = 128 * 2 ^ (k - 25) := by rw [show k - 18 = (k - 25) + 7 by ring, two_pow_add]; norm_num; ring
  have hk21 : (2 : ℝ) ^ (k + 4 - 25) = 16 * 2 ^ (k - 25) := by rw [show k + 4 - 25 = (k - 25) + 4 by ring, two_pow_add]; norm_num; ring
  have hk20 : (2 : ℝ) ^ (k + 5 - 25) = 32 * 2 ^ (k - 25) := by rw [show k + 5 - 25 = (k - 25) + 5 by ring, two_pow_add]; norm_num; ring
  have h3' := _root_.abs_le.1 h3
  unfold margin at h3'
  rw [hk3] at g2
  rw [hk2] at hm2
  have g2' := _root_.abs_le.1 g2
  have g3' := _root_.abs_le.1 g3
  -- the product
  have hrq : 0 ≤ d.rhoRes.val * r ∧ d.rhoRes.val * r ≤ 2 ^ (k + 4) := by
    refine ⟨mul_nonneg r0.le (by exact_mod_cast hr.1), ?_⟩
    rw [hk4]
    by_cases hz : r = 0
    · rw [hz]; push_cast; rw [mul_zero]; positivity
    · rw [if_neg hz] at hb1
      have := mul_le_mul_of_nonneg_right hb1 r0.le
      linarith
  have hP := mul_is (b := TlsFp.ofInt .binary32 r) hr1 fr.1 (by
    rw [fr.2, abs_of_nonneg hrq.1]
    exact hrq.2.trans (two_pow_le (show k + 4 ≤ 127 by omega)))
  rw [fr.2] at hP
  have hPb := hP.2.abs_le (k := k + 4) (show (-149 : ℤ) ≤ k + 4 by omega) (by rw [abs_of_nonneg hrq.1]; exact hrq.2)
  have hPe := (hP.2.err (k := k + 4) (show (-149 : ℤ) + 24 ≤ k + 4 by omega) (by rw [abs_of_nonneg hrq.1]; exact hrq.2)).trans (two_pow_le (show k + 4 - 24 - 1 ≤ k + 4 - 25 by omega))
  change |(d.rhoRes * TlsFp.ofInt .binary32 r).val| ≤ _ at hPb
  change |(d.rhoRes * TlsFp.ofInt .binary32 r).val - _| ≤ _ at hPe
  obtain ⟨s1, -, s3⟩ := (sum_is (k := k + 5) (by omega) (by omega) hP.1 hm1 (by rw [hk5]; rw [hk4] at hPb; linarith [two_pow_pos k])).1
  refine ⟨neg_fin.2 s1, ?_⟩
  rw [neg_val]
  rw [hk21] at hPe
  rw [hk20] at s3
  have hPe' := _root_.abs_le.1 hPe
  have s3' := _root_.abs_le.1 s3
  rw [hk18]
  have b2 := mul_lt_mul_of_pos_right hb2 r0
  refine ⟨by linarith, ?_⟩
  split_ifs with hz
  · rw [if_pos hz] at hb1
    have := mul_lt_mul_of_pos_right hb1 r0
    rw [hz] at hPe' b2 s3' ⊢
    push_cast at hPe' b2 s3' ⊢
    rw [mul_zero] at hPe'
    linarith
  · rw [if_neg hz] at hb1
    have := mul_le_mul_of_nonneg_right hb1 r0.le
    linarith

/-- The points of a reported plane need not be counted for it: with 10 cells of resolution 0.1, the point at the rho reported for the cell 1 is counted in the cell 0. -/
theorem C110_plane_violated : ∃ (d d' : Plane Flt) (w : Flt), PlaneOk d (fun _ => 0) (fun _ => 0) (fun _ => ux) ∧ (d.rhoMin, d.rhoRes) = (fi (-5) * lit .binary32 1 (-1), lit .binary32 1 (-1)) ∧
    getPlaneParam d 0 0 1 = .ok (ux, w) ∧ dot ux (-w, 0, 0) + w.val = 0 ∧ insert d [(-w, 0, 0)] = .ok d' ∧ d'.getHoughTransform 0 0 1 = .ok 0 ∧ d'.getHoughTransform 0 0 0 = .ok 1 := by
  obtain ⟨d, h, h1, h2⟩ := detector (fi (-5) * lit .binary32 1 (-1)) (lit .binary32 1 (-1))
  have h1' := h1
  have h2' := h2
  simp only [Prod.mk.injEq] at h1' h2'
  have hw := param_ok h (i := 0) (j := 0) (r := 1) ⟨le_rfl, h.theta⟩ ⟨le_rfl, h.phi⟩ (by omega)
  rw [h2'.1, h2'.2] at hw
  obtain ⟨d', e, hv⟩ := one_vote h h1 h2 (p := (- -(lit .binary32 1 (-1) * TlsFp.ofInt .binary32 1 + fi (-5) * lit .binary32 1 (-1)), 0, 0)) (i := 0) (by decide +kernel)
  refine ⟨d, d', _, h, h2, hw, ?_, e, hv 1 (by omega), hv 0 (by omega)⟩
  have f1 := fi_is (n := 1) (by norm_num)
  push_cast at f1
  show (fi 1).val * (- -_ : Flt).val + (0 : Flt).val * (0 : Flt).val + (0 : Flt).val * (0 : Flt).val + (-_ : Flt).val = 0
  rw [f1.2, zero_fl.2, neg_val, neg_val]
  ring

/-- A point without index for the first normal makes the insertion undefined. -/
theorem insert_error {d : Plane Flt} {t s : List ℤ → ℕ} {l : List ℤ → V3 Flt} (h : PlaneOk d t s l) (h8 : 8 ≤ d.phiNum) (hI : I32 d.phiNum) {p : V3 Flt} {e : Err}
    (he : index d.rhoMin d.rhoRes (l [0, 0]) p = .error e) (ps : List (V3 Flt)) : insert d (p :: ps) = .error e := by
  have hdiv : Cxx.idiv d.phiNum 8 = .ok (d.phiNum.tdiv 8) := by
    unfold Cxx.idiv Cxx.int
    rw [if_neg (by norm_num), if_pos]
    unfold I32 at hI
    rw [Int.tdiv_eq_ediv_of_nonneg (by omega)]
    omega
  have hmod : Cxx.imod 0 (d.phiNum.tdiv 8) = .ok 0 := by
    rw [Int.tdiv_eq_ediv_of_nonneg (by omega)]
    unfold Cxx.imod Cxx.idiv Cxx.int
    rw [if_neg (by omega), if_pos (by simp)]
    simp [bind, Except.bind, pure, Except.pure]
  unfold insert
  rw [hdiv, bind_ok]
  obtain ⟨m, hm⟩ : ∃ m, d.thetaNum.toNat = m + 1 := ⟨d.thetaNum.toNat - 1, by have := h.theta; omega⟩
  obtain ⟨k, hk⟩ : ∃ k, d.phiNum.toNat = k + 1 := ⟨d.phiNum.toNat - 1, by have := h.phi; omega⟩
  unfold forN
  rw [hm, hk, List.range_succ_eq_map, List.range_succ_eq_map]
  simp only [List.foldlM_cons, Nat.cast_zero]
  rw [hmod, bind_ok, h.lut.read (cell2.2 ⟨⟨le_rfl, h.theta⟩, ⟨le_rfl, h.phi⟩⟩), bind_ok]
  unfold voteAll
  rw [List.foldlM_cons, he]
  rfl

/-- C110 fails for every detector when a coordinate of a point is NaN, as in unorganised clouds with invalid points: the conversion to `int` is undefined. -/
theorem C110_nan_violated {d : Plane Flt} {t s : List ℤ → ℕ} {l : List ℤ → V3 Flt} (h : PlaneOk d t s l) (h8 : 8 ≤ d.phiNum) (hI : I32 d.phiNum) {p : V3 Flt}
    (hp : p.1.NaN ∨ p.2.1.NaN ∨ p.2.2.NaN) (ps : List (V3 Flt)) : insert d (p :: ps) = .error (.ub .overflow) := by
  refine insert_error h h8 hI ?_ ps
  have h1 : (project (l [0, 0]) p).NaN := by
    unfold project
    rcases hp with hp | hp | hp
    · exact NaN.add (.inl (NaN.add (.inl (NaN.mul (.inr hp)))))
    · exact NaN.add (.inl (NaN.add (.inr (NaN.mul (.inr hp)))))
    · exact NaN.add (.inr (NaN.mul (.inr hp)))
  have h2 : ((project (l [0, 0]) p - d.rhoMin) / d.rhoRes).NaN := NaN.div (.inl (NaN.sub (.inl h1)))
  unfold index castInt
  rw [toInt?_none]
  unfold Fp.Fin
  rw [show ((project (l [0, 0]) p - d.rhoMin) / d.rhoRes).x = .notANumber from h2]
  exact id

/-- C110 fails for far points: with bins of one unit a point at 10^10 makes the insertion undefined. -/
theorem C110_far_violated : ∃ d : Plane Flt, PlaneOk d (fun _ => 0) (fun _ => 0) (fun _ => ux) ∧ (d.rhoMin, d.rhoRes) = (fi (-5), fi 1) ∧ insert d [(lit .binary32 1 10, 0, 0)] = .error (.ub .overflow) := by
  obtain ⟨d, h, h1, h2⟩ := detector (fi (-5)) (fi 1)
  have h1' := h1
  have h2' := h2
  simp only [Prod.mk.injEq] at h1' h2'
  refine ⟨d, h, h2, insert_error h (by omega) (by unfold I32; omega) ?_ []⟩
  rw [h2'.1, h2'.2]
  decide +kernel

-- the points of the inner part of a bin: 0.5 is in the bin 5, 2.25 in the bin 7, -5.5 in the bin 0
example : index (fi (-5)) (fi 1) ux (lit .binary32 5 (-1), 0, 0) = .ok 5 ∧ index (fi (-5)) (fi 1) ux (lit .binary32 225 (-2), fi 3, fi 4) = .ok 7 ∧
    index (fi (-5)) (fi 1) ux (lit .binary32 0 0 - lit .binary32 55 (-1), 0, 0) = .ok 0 ∧ index (fi (-5)) (fi 1) ux (fi (-7), 0, 0) = .ok (-2) := by
  decide +kernel

end Verif.HoughFp
