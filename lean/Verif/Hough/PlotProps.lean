import Verif.Hough.PlotModel
import Verif.Hough.PlaneProps
import Mathlib.Algebra.Order.BigOperators.Group.List

/-! Property theorems C153 (see properties.jsonl): the points near a detected plane. -/
namespace Verif.Hough
open Verif Interval Interval.Spec

variable {K : Type} [Field K] [LinearOrder K] [FloorRing K] [IsStrictOrderedRing K]

/-- The points of the cloud whose coordinates satisfy the equation of the plane up to an error below `distMax`. -/
def nearPoints (q : V3 K × K) (cloud : List (V3 K)) (distMax : K) : List (V3 K) :=
  cloud.filter fun p => decide (|q.1.1 * p.1 + q.1.2.1 * p.2.1 + q.1.2.2 * p.2.2 + q.2| < distMax)

/-- The mean of the points is `c`: `n` times a coordinate is the sum of the coordinates. -/
def IsMean (l : List (V3 K)) (c : V3 K) : Prop :=
  l.length * c.1 = (l.map fun p => p.1).sum ∧ l.length * c.2.1 = (l.map fun p => p.2.1).sum ∧ l.length * c.2.2 = (l.map fun p => p.2.2).sum

omit [FloorRing K] [IsStrictOrderedRing K] in
theorem planeValue_eq (q : V3 K × K) (p : V3 K) : planeValue q p = q.1.1 * p.1 + q.1.2.1 * p.2.1 + q.1.2.2 * p.2.2 + q.2 := by
  unfold planeValue
  ring

omit [FloorRing K] [IsStrictOrderedRing K] in
theorem plot_fold (q : V3 K × K) (δ : K) (cloud : List (V3 K)) (s : V3 K) (n : ℤ) (h0 : 0 ≤ n) (h0' : n ≤ 2147483647) : cloud.foldlM (plotStep q δ) (s, n) =
    if n + (nearPoints q cloud δ).length ≤ 2147483647 then .ok ((s.1 + ((nearPoints q cloud δ).map fun p => p.1).sum, s.2.1 + ((nearPoints q cloud δ).map fun p => p.2.1).sum,
      s.2.2 + ((nearPoints q cloud δ).map fun p => p.2.2).sum), n + (nearPoints q cloud δ).length) else .error (.ub .overflow) := by
  induction cloud generalizing s n with
  | nil =>
    rw [if_pos (by simpa [nearPoints] using h0')]
    simp [nearPoints]
    rfl
  | cons p cloud ih =>
    rw [List.foldlM_cons, plotStep, planeValue_eq]
    by_cases hp : |q.1.1 * p.1 + q.1.2.1 * p.2.1 + q.1.2.2 * p.2.2 + q.2| < δ
    · have e : nearPoints q (p :: cloud) δ = p :: nearPoints q cloud δ := List.filter_cons_of_pos (by simpa using hp)
      rw [if_pos hp, e]
      by_cases h1 : n + 1 ≤ 2147483647
      · have e1 : Cxx.int (n + 1) = .ok (n + 1) := by rw [Cxx.int, if_pos (by omega)]
        simp only [e1]
        have hb : ∀ f : V3 K × ℤ → Outcome (V3 K × ℤ), (((do let n ← (Except.ok (n + 1) : Outcome ℤ); return ((s.1 + p.1, s.2.1 + p.2.1, s.2.2 + p.2.2), n)) : Outcome (V3 K × ℤ)) >>= f) =
            f ((s.1 + p.1, s.2.1 + p.2.1, s.2.2 + p.2.2), n + 1) := fun _ => rfl
        rw [hb, ih _ _ (by omega) h1]
        simp only [List.map_cons, List.sum_cons, List.length_cons, Nat.cast_add, Nat.cast_one, add_assoc, add_comm (1 : ℤ)]
      · have e1 : Cxx.int (n + 1) = .error (.ub .overflow) := by rw [Cxx.int, if_neg (by omega)]
        simp only [e1]
        rw [if_neg (by simp only [List.length_cons, Nat.cast_add, Nat.cast_one]; omega)]
        rfl
    · have e : nearPoints q (p :: cloud) δ = nearPoints q cloud δ := List.filter_cons_of_neg (by simpa using hp)
      rw [if_neg hp, e]
      exact ih s n h0 h0'

/-- The plane value of a sum. -/
theorem near_sum (q : V3 K × K) (δ : K) (l : List (V3 K)) (h : ∀ p ∈ l, |q.1.1 * p.1 + q.1.2.1 * p.2.1 + q.1.2.2 * p.2.2 + q.2| < δ) :
    |q.1.1 * (l.map fun p => p.1).sum + q.1.2.1 * (l.map fun p => p.2.1).sum + q.1.2.2 * (l.map fun p => p.2.2).sum + l.length * q.2| ≤ l.length * δ ∧
    (l ≠ [] → |q.1.1 * (l.map fun p => p.1).sum + q.1.2.1 * (l.map fun p => p.2.1).sum + q.1.2.2 * (l.map fun p => p.2.2).sum + l.length * q.2| < l.length * δ) := by
  induction l with
  | nil => simp
  | cons p l ih =>
    have h1 := h p (by simp)
    have h2 := (ih fun p hp => h p (by simp [hp])).1
    simp only [List.map_cons, List.sum_cons, List.length_cons, Nat.cast_add, Nat.cast_one]
    rw [abs_lt] at h1
    rw [abs_le] at h2
    have key : |q.1.1 * (p.1 + (l.map fun p => p.1).sum) + q.1.2.1 * (p.2.1 + (l.map fun p => p.2.1).sum) + q.1.2.2 * (p.2.2 + (l.map fun p => p.2.2).sum) + ((l.length : K) + 1) * q.2| <
        ((l.length : K) + 1) * δ := by
      rw [abs_lt]
      constructor <;> linarith [h1.1, h1.2, h2.1, h2.2]
    exact ⟨key.le, fun _ => key⟩

/-- C153: `plotPlane` counts the points near the plane, gives their centre, and the centre is near the plane as well; without near points it gives the origin. -/
theorem C153_centre (q : V3 K × K) (cloud : List (V3 K)) (distMax : K) (h : cloud.length ≤ 2147483647) : ∃ c, plotPlane q cloud distMax = .ok (c, ((nearPoints q cloud distMax).length : ℤ)) ∧
    (nearPoints q cloud distMax = [] → c = 0) ∧
    (nearPoints q cloud distMax ≠ [] → IsMean (nearPoints q cloud distMax) c ∧ |q.1.1 * c.1 + q.1.2.1 * c.2.1 + q.1.2.2 * c.2.2 + q.2| < distMax) := by
  have hl : (nearPoints q cloud distMax).length ≤ cloud.length := List.length_filter_le _ _
  have hn := near_sum q distMax (nearPoints q cloud distMax) fun p hp => by simpa using (List.mem_filter.1 hp).2
  have e : plotPlane q cloud distMax = (cloud.foldlM (plotStep q distMax) ((0, 0, 0), 0) >>= fun r =>
      if r.2 > 0 then return ((r.1.1 / r.2, r.1.2.1 / r.2, r.1.2.2 / r.2), r.2) else return r) := rfl
  rw [plot_fold q distMax cloud (0, 0, 0) 0 le_rfl (by norm_num), if_pos (by omega)] at e
  have e' := e.trans (show (Except.ok _ >>= _) = _ from rfl)
  dsimp only at e'
  generalize nearPoints q cloud distMax = N at *
  by_cases h0 : N = []
  · subst h0
    refine ⟨0, e'.trans ?_, fun _ => rfl, fun g => absurd rfl g⟩
    simp
    rfl
  · have hpos : 0 < N.length := List.length_pos_iff.2 h0
    have hk : (0 : K) < N.length := by exact_mod_cast hpos
    refine ⟨((N.map fun p => p.1).sum / N.length, (N.map fun p => p.2.1).sum / N.length, (N.map fun p => p.2.2).sum / N.length), e'.trans ?_, fun g => absurd g h0, fun _ => ⟨?_, ?_⟩⟩
    · rw [bind_ok]
      dsimp only
      rw [if_pos (by omega)]
      simp only [zero_add, Int.cast_natCast]
      rfl
    · exact ⟨mul_div_cancel₀ _ hk.ne', mul_div_cancel₀ _ hk.ne', mul_div_cancel₀ _ hk.ne'⟩
    · have := hn.2 h0
      have e2 : q.1.1 * (N.map fun p => p.1).sum + q.1.2.1 * (N.map fun p => p.2.1).sum + q.1.2.2 * (N.map fun p => p.2.2).sum + N.length * q.2 =
          N.length * (q.1.1 * ((N.map fun p => p.1).sum / N.length) + q.1.2.1 * ((N.map fun p => p.2.1).sum / N.length) + q.1.2.2 * ((N.map fun p => p.2.2).sum / N.length) + q.2) := by
        field_simp
      rw [e2, abs_mul, abs_of_pos hk] at this
      exact lt_of_mul_lt_mul_left this hk.le

omit [FloorRing K] [IsStrictOrderedRing K] in
/-- C153: with more near points than an `int` can count the behaviour is undefined. -/
theorem C153_overflow (q : V3 K × K) (cloud : List (V3 K)) (distMax : K) (h : 2147483647 < (nearPoints q cloud distMax).length) :
    plotPlane q cloud distMax = .error (.ub .overflow) := by
  unfold plotPlane
  rw [plot_fold q distMax cloud (0, 0, 0) 0 le_rfl (by norm_num), if_neg (by omega)]
  rfl

/-- The counters of the cells after the insertion of a cloud. -/
theorem count_after {d : Plane K} {t s : List ℤ → ℕ} {l : List ℤ → V3 K} (h : PlaneOk d t s l) (h8 : 8 ≤ d.phiNum) (hI : I32 d.phiNum) (hres : 0 < d.rhoRes) (cloud : List (V3 K))
    (hp : AllCastable d l cloud) (hlen : cloud.length ≤ 2147483647) : ∃ d', d.insertRange cloud = .ok d' ∧ ∀ i j, (0 ≤ i ∧ i < d.thetaNum) → (0 ≤ j ∧ j < d.phiNum) → ∀ r, (0 ≤ r ∧ r < d.rhoNum) →
      d.getPlaneParam i j r = .ok (l [i, j], -(d.rhoRes * r + d.rhoMin)) ∧
      d'.getHoughTransform i j r = .ok (cloud.filter fun p => codeBin d r ((l [i, j]).1 * p.1 + (l [i, j]).2.1 * p.2.1 + (l [i, j]).2.2 * p.2.2)).length := by
  obtain ⟨d', e, c, z⟩ := C60_range_partial h h8 hI hres cloud hp
  refine ⟨d', e, fun i j hi hj r hr => ⟨(param_ok h hi hj hr).1, ?_⟩⟩
  obtain ⟨n, n1, n2, -⟩ := c i j hi hj
  have : n = l [i, j] := Except.ok.inj (n1.symm.trans ((get_ok h (r := r) hi hj).1))
  subst this
  obtain ⟨old, o1, o2⟩ := n2 r hr
  obtain rfl := Except.ok.inj (o1.symm.trans (z i j r hi hj hr))
  rw [o2]
  have hle := List.length_filter_le (fun p : V3 K => codeBin d r ((l [i, j]).1 * p.1 + (l [i, j]).2.1 * p.2.1 + (l [i, j]).2.2 * p.2.2)) cloud
  rw [zero_add, wrap, Nat.mod_eq_of_lt (by omega)]

/-- C153: after the insertion of the cloud, the plane of a cell has at least as many near points as the cell has votes, for every `distMax` from the resolution of rho on. With the resolution itself,
it has at most those of the cell and of the one before. -/
theorem C153_votes {d : Plane K} {t s : List ℤ → ℕ} {l : List ℤ → V3 K} (h : PlaneOk d t s l) (h8 : 8 ≤ d.phiNum) (hI : I32 d.phiNum) (hres : 0 < d.rhoRes) (cloud : List (V3 K))
    (hp : AllCastable d l cloud) (hlen : cloud.length ≤ 2147483647) : ∃ d', d.insertRange cloud = .ok d' ∧ ∀ i j, (0 ≤ i ∧ i < d.thetaNum) → (0 ≤ j ∧ j < d.phiNum) → ∀ r, (0 ≤ r ∧ r < d.rhoNum) →
      ∃ q v, d.getPlaneParam i j r = .ok q ∧ d'.getHoughTransform i j r = .ok v ∧
        (∀ distMax, d.rhoRes ≤ distMax → ∃ c, ∃ n : ℤ, plotPlane q cloud distMax = .ok (c, n) ∧ v ≤ n) ∧
        (∃ c, ∃ n : ℤ, plotPlane q cloud d.rhoRes = .ok (c, n) ∧ (r = 0 → n = v) ∧
          (0 < r → ∃ v', d'.getHoughTransform i j (r - 1) = .ok v' ∧ n ≤ v + v')) := by
  obtain ⟨d', e, k⟩ := count_after h h8 hI hres cloud hp hlen
  refine ⟨d', e, fun i j hi hj r hr => ⟨_, _, (k i j hi hj r hr).1, (k i j hi hj r hr).2, fun δ hδ => ?_, ?_⟩⟩
  · obtain ⟨c, ec, -⟩ := C153_centre (l [i, j], -(d.rhoRes * r + d.rhoMin)) cloud δ hlen
    refine ⟨c, _, ec, ?_⟩
    unfold nearPoints
    rw [← List.countP_eq_length_filter, ← List.countP_eq_length_filter]
    refine Int.ofNat_le.2 (List.countP_mono_left fun p _ hb => ?_)
    unfold codeBin at hb
    rw [decide_eq_true_eq] at hb ⊢
    dsimp only
    rw [abs_lt]
    by_cases h0 : r = 0
    · subst h0
      rw [if_pos rfl] at hb
      push_cast at hb ⊢
      constructor <;> linarith [hb.1, hb.2]
    · rw [if_neg h0] at hb
      constructor <;> linarith [hb.1, hb.2]
  · obtain ⟨c, ec, -⟩ := C153_centre (l [i, j], -(d.rhoRes * r + d.rhoMin)) cloud d.rhoRes hlen
    refine ⟨c, _, ec, fun h0 => ?_, fun h0 => ?_⟩
    · unfold nearPoints
      subst h0
      refine congrArg (fun n : ℕ => (n : ℤ)) (congrArg List.length (congrArg (fun f => cloud.filter f) (funext fun p => ?_)))
      unfold codeBin
      refine decide_eq_decide.2 ?_
      dsimp only
      rw [if_pos rfl, abs_lt]
      push_cast
      constructor
      · rintro ⟨a, b⟩
        constructor <;> linarith
      · rintro ⟨a, b⟩
        constructor <;> linarith
    · refine ⟨_, (k i j hi hj (r - 1) (by omega)).2, ?_⟩
      unfold nearPoints
      rw [← List.countP_eq_length_filter, ← List.countP_eq_length_filter, ← List.countP_eq_length_filter]
      have hadd : ∀ (f g u : V3 K → Bool), (∀ p, f p = true → g p = true ∨ u p = true) → cloud.countP f ≤ cloud.countP g + cloud.countP u := by
        intro f g u hfg
        clear * - hfg
        induction cloud with
        | nil => simp
        | cons p cloud ih =>
          rw [List.countP_cons, List.countP_cons, List.countP_cons]
          have := hfg p
          split_ifs <;> first | omega | simp_all
      have := hadd (fun p => decide (|(l [i, j]).1 * p.1 + (l [i, j]).2.1 * p.2.1 + (l [i, j]).2.2 * p.2.2 + -(d.rhoRes * r + d.rhoMin)| < d.rhoRes))
        (fun p => codeBin d r ((l [i, j]).1 * p.1 + (l [i, j]).2.1 * p.2.1 + (l [i, j]).2.2 * p.2.2))
        (fun p => codeBin d (r - 1) ((l [i, j]).1 * p.1 + (l [i, j]).2.1 * p.2.1 + (l [i, j]).2.2 * p.2.2)) (by
          intro p hb
          unfold codeBin
          rw [decide_eq_true_eq] at hb ⊢
          rw [decide_eq_true_eq]
          rw [abs_lt] at hb
          rw [if_neg (by omega)]
          rcases le_or_gt (d.rhoMin + r * d.rhoRes) ((l [i, j]).1 * p.1 + (l [i, j]).2.1 * p.2.1 + (l [i, j]).2.2 * p.2.2) with g | g
          · exact Or.inl ⟨g, by linarith [hb.2]⟩
          · refine Or.inr ⟨?_, by push_cast; linarith⟩
            split_ifs with h1
            · have : (r : K) = 1 := by exact_mod_cast (show r = 1 by omega)
              rw [this] at hb
              linarith [hb.1]
            · push_cast
              linarith [hb.1])
      exact_mod_cast this

omit [FloorRing K] in
/-- The truncated value is not farther from zero. -/
theorem trunc_abs [FloorRing K] {x B : K} {n : ℤ} (hB : B = n) (h : |x| ≤ B) : |trunc x| ≤ n := by
  rw [abs_le] at h ⊢
  subst hB
  unfold trunc
  split_ifs with h0
  · exact ⟨(by have := Int.floor_nonneg.2 h0; have : (0 : K) ≤ n := h0.trans h.2; have : 0 ≤ n := by exact_mod_cast this
               omega), by have := (Int.floor_le x).trans h.2; exact_mod_cast this⟩
  · push Not at h0
    refine ⟨?_, ?_⟩
    · have := h.1.trans (Int.le_ceil x)
      exact_mod_cast this
    · have h1 : ⌈x⌉ ≤ 0 := Int.ceil_le.2 (by simpa using h0.le)
      have : (0 : K) ≤ n := by linarith [h.1, h.2]
      have : 0 ≤ n := by exact_mod_cast this
      omega

/-- C153 for the program: the detector is initialised by sizes and a resolution, the coordinates of the points are not huge, and the distance is twice the resolution. -/
theorem C153_program (maxSize : ℕ) {a b c : ℤ} (h : SizesOk maxSize a b c) (h8 : 8 ≤ b) {rhoRes : ℝ} (hres : 0 < rhoRes) (cloud : List (V3 ℝ)) (hlen : cloud.length ≤ 2147483647)
    (hp : ∀ p ∈ cloud, |p.1| + |p.2.1| + |p.2.2| ≤ 2 ^ 30 * rhoRes) : ∃ d d', Plane.new.initSizes Functions.Spec.real maxSize a b c rhoRes = .ok d ∧ d.insertRange cloud = .ok d' ∧
      ∀ i j r, (0 ≤ i ∧ i < a) → (0 ≤ j ∧ j < b) → (0 ≤ r ∧ r < c) → ∃ q v m, ∃ n : ℤ, d.getPlaneParam i j r = .ok q ∧ d'.getHoughTransform i j r = .ok v ∧
        plotPlane q cloud (2 * rhoRes) = .ok (m, n) ∧ v ≤ n ∧ (0 < v → |q.1.1 * m.1 + q.1.2.1 * m.2.1 + q.1.2.2 * m.2.2 + q.2| < 2 * rhoRes) := by
  obtain ⟨d, e, ok, e3, e4⟩ := C60_init Functions.Spec.real maxSize Plane.new h 0 0 (-((c.tdiv 2 : ℤ) : ℝ) * rhoRes) (1 / 2 * Functions.Spec.real.pi / a)
    (2 * Functions.Spec.real.pi / b) rhoRes
  simp only [Prod.mk.injEq] at e3 e4
  obtain ⟨rfl, rfl, rfl⟩ := e3
  obtain ⟨emin, rfl⟩ := e4
  have hmul : d.phiNum ≤ 2147483647 ∧ d.rhoNum ≤ 2147483647 := by
    obtain ⟨g1, g2, g3, g4, -⟩ := h
    constructor
    · nlinarith [mul_pos g1 g3, mul_pos g1 g2]
    · nlinarith [mul_pos g1 g3, mul_pos g1 g2]
  have hI : I32 d.phiNum := ⟨by omega, hmul.1⟩
  obtain ⟨d', e', k⟩ := C153_votes ok h8 hI hres cloud (by
    intro i j hi hj p hpm
    have hn := hp p hpm
    have c2 : ∀ x y : ℝ, |x| ≤ 1 → |y| ≤ 1 → |x * y| ≤ 1 := fun x y hx hy => by
      rw [abs_mul]
      exact mul_le_one₀ hx (abs_nonneg y) hy
    have n1 := c2 _ _ (Real.abs_cos_le_one (1 / 2 * Functions.Spec.real.pi / d.thetaNum * (([i, j].getD 0 0 : ℤ) : ℝ) + 0))
      (Real.abs_cos_le_one (2 * Functions.Spec.real.pi / d.phiNum * (([i, j].getD 1 0 : ℤ) : ℝ) + 0))
    have n2 := c2 _ _ (Real.abs_cos_le_one (1 / 2 * Functions.Spec.real.pi / d.thetaNum * (([i, j].getD 0 0 : ℤ) : ℝ) + 0))
      (Real.abs_sin_le_one (2 * Functions.Spec.real.pi / d.phiNum * (([i, j].getD 1 0 : ℤ) : ℝ) + 0))
    have n3 := Real.abs_sin_le_one (1 / 2 * Functions.Spec.real.pi / d.thetaNum * (([i, j].getD 0 0 : ℤ) : ℝ) + 0)
    suffices ∀ n : V3 ℝ, |n.1| ≤ 1 → |n.2.1| ≤ 1 → |n.2.2| ≤ 1 → I32 (bin d.rhoMin d.rhoRes n p) from this _ n1 n2 n3
    clear n1 n2 n3
    intro n n1 n2 n3
    have hb : |(project n p - d.rhoMin) / d.rhoRes| ≤ ((2147483647 : ℤ) : ℝ) := by
      rw [abs_div, abs_of_pos hres, div_le_iff₀ hres, emin]
      have h1 := abs_sub (project n p) (-((d.rhoNum.tdiv 2 : ℤ) : ℝ) * d.rhoRes)
      refine h1.trans ?_
      have h2 : |(-((d.rhoNum.tdiv 2 : ℤ) : ℝ) * d.rhoRes)| ≤ 1073741823 * d.rhoRes := by
        rw [abs_mul, abs_neg, abs_of_pos hres]
        have h3 : 0 ≤ d.rhoNum.tdiv 2 ∧ d.rhoNum.tdiv 2 ≤ 1073741823 := by
          rw [Int.tdiv_eq_ediv_of_nonneg (by have := ok.rho; omega)]
          have := ok.rho
          omega
        rw [abs_of_nonneg (by exact_mod_cast h3.1)]
        exact mul_le_mul_of_nonneg_right (by exact_mod_cast h3.2) hres.le
      have h3 : |project n p| ≤ 2 ^ 30 * d.rhoRes := by
        refine le_trans ?_ hn
        unfold project
        have c1 : ∀ x y : ℝ, |x| ≤ 1 → |x * y| ≤ |y| := fun x y hx => by
          rw [abs_mul]
          exact mul_le_of_le_one_left (abs_nonneg y) hx
        refine (abs_add_three _ _ _).trans (add_le_add (add_le_add (c1 _ _ n1) (c1 _ _ n2)) (c1 _ _ n3))
      push_cast
      linarith
    have := abs_le.1 (trunc_abs rfl hb)
    exact ⟨le_trans (by norm_num) this.1, this.2⟩) hlen
  refine ⟨d, d', e, e', fun i j r hi hj hr => ?_⟩
  obtain ⟨q, v, k1, k2, k3, -⟩ := k i j hi hj r hr
  obtain ⟨m, n, k4, k5⟩ := k3 (2 * d.rhoRes) (by linarith)
  refine ⟨q, v, m, n, k1, k2, k4, k5, fun hv => ?_⟩
  obtain ⟨m', g1, -, g3⟩ := C153_centre q cloud (2 * d.rhoRes) hlen
  rw [k4] at g1
  obtain ⟨rfl, rfl⟩ := Prod.mk.inj (Except.ok.inj g1)
  refine (g3 fun g => ?_).2
  rw [g] at k5
  simp at k5
  omega

/-- The plane `z = 1` and three points, two of them near. -/
example : plotPlane (((0, 0, 1), -1) : V3 ℚ × ℚ) [(0, 0, 1), (2, 4, 3 / 2), (0, 0, 2)] 1 = .ok ((1, 2, 5 / 4), 2) := by decide +kernel

end Verif.Hough
