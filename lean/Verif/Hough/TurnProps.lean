import Verif.Hough.PlotProps

/-! Property theorems C164 (see properties.jsonl): the counters of the plane detector turn with the cloud. -/
namespace Verif.Hough
open Verif Interval Interval.Spec

section
variable {K : Type} [Field K] [LinearOrder K] [FloorRing K]

/-- The detectors `a` and `b` have the same counters and sums of squares when the cells of phi are renamed by `g`. -/
def SameCounters (thetaNum phiNum rhoNum : ℤ) (g : ℤ → ℤ) (a b : Plane K) : Prop :=
  ∀ i j, (0 ≤ i ∧ i < thetaNum) → (0 ≤ j ∧ j < phiNum) → (∃ v, a.getHoughSpectrum i j = .ok v ∧ b.getHoughSpectrum i (g j) = .ok v) ∧
    ∀ r, (0 ≤ r ∧ r < rhoNum) → ∃ v, a.getHoughTransform i j r = .ok v ∧ b.getHoughTransform i (g j) r = .ok v

/-- Points that fall in the same bins give the same counters. -/
theorem insert_same {d e : Plane K} {t s t' s' : List ℤ → ℕ} {l l' : List ℤ → V3 K} (h : PlaneOk d t s l) (h' : PlaneOk e t' s' l') (h8 : 8 ≤ d.phiNum) (hI : I32 d.phiNum)
    (hs : (e.thetaNum, e.phiNum, e.rhoNum) = (d.thetaNum, d.phiNum, d.rhoNum)) (hr : d.rhoRes ≠ 0) (hr' : e.rhoRes ≠ 0) (points : List (V3 K)) (f : V3 K → V3 K) (g : ℤ → ℤ)
    (hg : ∀ j, (0 ≤ j ∧ j < d.phiNum) → 0 ≤ g j ∧ g j < d.phiNum) (hg' : ∀ j, (0 ≤ j ∧ j < d.phiNum) → ∃ k, (0 ≤ k ∧ k < d.phiNum) ∧ g k = j)
    (hb : ∀ i j p, (0 ≤ i ∧ i < d.thetaNum) → (0 ≤ j ∧ j < d.phiNum) → bin e.rhoMin e.rhoRes (l' [i, g j]) (f p) = bin d.rhoMin d.rhoRes (l [i, j]) p)
    (hp : AllCastable d l points) :
    ∃ a b, d.insertRange points = .ok a ∧ e.insertRange (points.map f) = .ok b ∧ SameCounters d.thetaNum d.phiNum d.rhoNum g a b := by
  simp only [Prod.mk.injEq] at hs
  obtain ⟨s1, s2, s3⟩ := hs
  obtain ⟨T, S, e1, g1⟩ := insert_ok (setZero_ok h) h8 hI hr points hp
  have hp' : AllCastable e.setZero l' (points.map f) := by
    intro i j hi hj p hpm
    obtain ⟨q, hq, rfl⟩ := List.mem_map.1 hpm
    change 0 ≤ i ∧ i < e.thetaNum at hi
    change 0 ≤ j ∧ j < e.phiNum at hj
    rw [s1] at hi
    rw [s2] at hj
    obtain ⟨k, hk, rfl⟩ := hg' j hj
    change I32 (bin e.rhoMin e.rhoRes _ _)
    rw [hb i k q hi hk]
    exact hp i k hi hk q hq
  obtain ⟨T', S', e2, g2⟩ := insert_ok (setZero_ok h') (show 8 ≤ e.phiNum by omega) (show I32 e.phiNum by rw [s2]; exact hI) hr' (points.map f) hp'
  have key : ∀ i j, (0 ≤ i ∧ i < d.thetaNum) → (0 ≤ j ∧ j < d.phiNum) → ∀ r : ℤ, newTransform e.setZero (fun _ => 0) l' (points.map f) [i, g j, r] =
      newTransform d.setZero (fun _ => 0) l points [i, j, r] := by
    intro i j hi hj r
    unfold newTransform votes
    refine congrArg wrap (congrArg (0 + ·) ?_)
    rw [List.countP_map]
    refine List.countP_congr fun p _ => ?_
    simp only [Function.comp_apply, decide_eq_true_eq]
    exact Eq.congr_left (hb i j p hi hj)
  refine ⟨_, _, e1, e2, fun i j hi hj => ⟨⟨_, (get_ok g1 (r := 0) hi hj).2.1, ?_⟩, fun r hrho => ⟨_, (get_ok g1 hi hj).2.2 hrho, ?_⟩⟩⟩
  · rw [(get_ok g2 (r := 0) (i := i) (j := g j) (by show 0 ≤ i ∧ i < e.thetaNum; rw [s1]; exact hi) (by show _ ∧ _ < e.phiNum; rw [s2]; exact hg j hj)).2.1]
    refine congrArg Except.ok ?_
    unfold newSpectrum
    refine congrArg wrap ?_
    change ∑ r ∈ Finset.range e.rhoNum.toNat, _ = ∑ r ∈ Finset.range d.rhoNum.toNat, _
    rw [s3]
    exact Finset.sum_congr rfl fun r _ => congrArg (· ^ 2) (key i j hi hj r)
  · rw [(get_ok g2 (i := i) (j := g j) (r := r) (by show 0 ≤ i ∧ i < e.thetaNum; rw [s1]; exact hi) (by show _ ∧ _ < e.phiNum; rw [s2]; exact hg j hj)).2.2
      (by show 0 ≤ r ∧ r < e.rhoNum; rw [s3]; exact hrho)]
    exact congrArg Except.ok (key i j hi hj r)

end

/-- The normal of a cell of a detector initialised by sizes. -/
noncomputable def cellNormal (a b : ℤ) (i j : ℤ) : V3 ℝ :=
  (Real.cos (Real.pi / 2 / a * i) * Real.cos (2 * Real.pi / b * j), Real.cos (Real.pi / 2 / a * i) * Real.sin (2 * Real.pi / b * j), Real.sin (Real.pi / 2 / a * i))

/-- A detector initialised by sizes, and the points for which its indices are defined. -/
theorem program_ok (maxSize : ℕ) {a b c : ℤ} (h : SizesOk maxSize a b c) {rhoRes : ℝ} (hres : 0 < rhoRes) :
    ∃ d, Plane.new.initSizes Functions.Spec.real maxSize a b c rhoRes = .ok d ∧ PlaneOk d (fun _ => 0) (fun _ => 0) (fun is => cellNormal a b (is.getD 0 0) (is.getD 1 0)) ∧
      (d.thetaNum, d.phiNum, d.rhoNum) = (a, b, c) ∧ I32 b ∧ d.rhoMin = -((c.tdiv 2 : ℤ) : ℝ) * rhoRes ∧ d.rhoRes = rhoRes ∧
      ∀ cloud : List (V3 ℝ), (∀ p ∈ cloud, |p.1| + |p.2.1| + |p.2.2| ≤ 2 ^ 30 * rhoRes) →
        AllCastable d (fun is => cellNormal a b (is.getD 0 0) (is.getD 1 0)) cloud := by
  obtain ⟨d, e, ok, e3, e4⟩ := C60_init Functions.Spec.real maxSize Plane.new h 0 0 (-((c.tdiv 2 : ℤ) : ℝ) * rhoRes) (1 / 2 * Functions.Spec.real.pi / a)
    (2 * Functions.Spec.real.pi / b) rhoRes
  have hl : (fun is : List ℤ => (Functions.Spec.real.cos (1 / 2 * Functions.Spec.real.pi / a * (is.getD 0 0 : ℤ) + 0) *
        Functions.Spec.real.cos (2 * Functions.Spec.real.pi / b * (is.getD 1 0 : ℤ) + 0),
      Functions.Spec.real.cos (1 / 2 * Functions.Spec.real.pi / a * (is.getD 0 0 : ℤ) + 0) * Functions.Spec.real.sin (2 * Functions.Spec.real.pi / b * (is.getD 1 0 : ℤ) + 0),
      Functions.Spec.real.sin (1 / 2 * Functions.Spec.real.pi / a * (is.getD 0 0 : ℤ) + 0))) = fun is => cellNormal a b (is.getD 0 0) (is.getD 1 0) := by
    funext is
    unfold cellNormal Functions.Spec.real
    simp only [add_zero]
    rw [show (1 : ℝ) / 2 * Real.pi = Real.pi / 2 by ring]
  rw [hl] at ok
  simp only [Prod.mk.injEq] at e3 e4
  obtain ⟨rfl, rfl, rfl⟩ := e3
  obtain ⟨emin, rfl⟩ := e4
  have hmul : d.phiNum ≤ 2147483647 ∧ d.rhoNum ≤ 2147483647 := by
    obtain ⟨g1, g2, g3, g4, -⟩ := h
    constructor
    · nlinarith [mul_pos g1 g3, mul_pos g1 g2]
    · nlinarith [mul_pos g1 g3, mul_pos g1 g2]
  have hphi := ok.phi
  have hrho := ok.rho
  refine ⟨d, e, ok, rfl, ⟨by omega, hmul.1⟩, emin, rfl, fun cloud hp i j hi hj p hpm => ?_⟩
  have hn := hp p hpm
  have c2 : ∀ x y : ℝ, |x| ≤ 1 → |y| ≤ 1 → |x * y| ≤ 1 := fun x y hx hy => by
    rw [abs_mul]
    exact mul_le_one₀ hx (abs_nonneg y) hy
  suffices ∀ n : V3 ℝ, |n.1| ≤ 1 → |n.2.1| ≤ 1 → |n.2.2| ≤ 1 → I32 (bin d.rhoMin d.rhoRes n p) from
    this _ (c2 _ _ (Real.abs_cos_le_one _) (Real.abs_cos_le_one _)) (c2 _ _ (Real.abs_cos_le_one _) (Real.abs_sin_le_one _)) (Real.abs_sin_le_one _)
  intro n n1 n2 n3
  have hb : |(project n p - d.rhoMin) / d.rhoRes| ≤ ((2147483647 : ℤ) : ℝ) := by
    rw [abs_div, abs_of_pos hres, div_le_iff₀ hres, emin]
    refine (abs_sub (project n p) (-((d.rhoNum.tdiv 2 : ℤ) : ℝ) * d.rhoRes)).trans ?_
    have h2 : |(-((d.rhoNum.tdiv 2 : ℤ) : ℝ) * d.rhoRes)| ≤ 1073741823 * d.rhoRes := by
      rw [abs_mul, abs_neg, abs_of_pos hres]
      have h3 : 0 ≤ d.rhoNum.tdiv 2 ∧ d.rhoNum.tdiv 2 ≤ 1073741823 := by
        rw [Int.tdiv_eq_ediv_of_nonneg (by omega)]
        omega
      rw [abs_of_nonneg (by exact_mod_cast h3.1)]
      exact mul_le_mul_of_nonneg_right (by exact_mod_cast h3.2) hres.le
    have h3 : |project n p| ≤ 2 ^ 30 * d.rhoRes := by
      refine le_trans ?_ hn
      unfold project
      have c1 : ∀ x y : ℝ, |x| ≤ 1 → |x * y| ≤ |y| := fun x y hx => by
        rw [abs_mul]
        exact mul_le_of_le_one_left (abs_nonneg y) hx
      exact (abs_add_three _ _ _).trans (add_le_add (add_le_add (c1 _ _ n1) (c1 _ _ n2)) (c1 _ _ n3))
    push_cast
    linarith
  have := abs_le.1 (trunc_abs rfl hb)
  exact ⟨le_trans (by norm_num) this.1, this.2⟩

/-- The point turned by `φ` about the vertical axis. -/
noncomputable def turned (φ : ℝ) (p : V3 ℝ) : V3 ℝ := (Real.cos φ * p.1 - Real.sin φ * p.2.1, Real.sin φ * p.1 + Real.cos φ * p.2.1, p.2.2)

theorem cellNormal_mod (a b i j : ℤ) (hb : b ≠ 0) : cellNormal a b i (j % b) = cellNormal a b i j := by
  have hb' : (b : ℝ) ≠ 0 := Int.cast_ne_zero.2 hb
  have e : 2 * Real.pi / b * ((j % b : ℤ) : ℝ) = 2 * Real.pi / b * j - (j / b : ℤ) * (2 * Real.pi) := by
    have : ((j % b : ℤ) : ℝ) = j - b * (j / b : ℤ) := by
      rw [Int.emod_def]
      push_cast
      ring
    rw [this]
    field_simp
  unfold cellNormal
  rw [e, Real.cos_sub_int_mul_two_pi, Real.sin_sub_int_mul_two_pi]

/-- **C164** The counters of the cloud turned by `m` cells of phi are those of the cloud, `m` cells of phi further around. -/
theorem C164_turn (maxSize : ℕ) {a b c : ℤ} (h : SizesOk maxSize a b c) (h8 : 8 ≤ b) {rhoRes : ℝ} (hres : 0 < rhoRes) (cloud : List (V3 ℝ))
    (hp : ∀ p ∈ cloud, |p.1| + |p.2.1| + |p.2.2| ≤ 2 ^ 30 * rhoRes) (m : ℤ) :
    ∃ d x y, Plane.new.initSizes Functions.Spec.real maxSize a b c rhoRes = .ok d ∧ d.insertRange cloud = .ok x ∧
      d.insertRange (cloud.map (turned (m * (2 * Real.pi / b)))) = .ok y ∧ SameCounters a b c (fun j => (j + m) % b) x y := by
  obtain ⟨d, e, ok, e3, hI, emin, eres, hcast⟩ := program_ok maxSize h hres
  simp only [Prod.mk.injEq] at e3
  obtain ⟨rfl, rfl, rfl⟩ := e3
  have hpos : 0 < d.phiNum := by omega
  obtain ⟨x, y, k1, k2, k3⟩ := insert_same ok ok h8 hI rfl (eres ▸ hres.ne') (eres ▸ hres.ne') cloud (turned (m * (2 * Real.pi / d.phiNum))) (fun j => (j + m) % d.phiNum)
    (fun j _ => ⟨Int.emod_nonneg _ hpos.ne', Int.emod_lt_of_pos _ hpos⟩)
    (fun j hj => ⟨(j - m) % d.phiNum, ⟨Int.emod_nonneg _ hpos.ne', Int.emod_lt_of_pos _ hpos⟩, by
      show ((j - m) % d.phiNum + m) % d.phiNum = j
      rw [Int.emod_add_emod, sub_add_cancel, Int.emod_eq_of_lt hj.1 hj.2]⟩)
    (fun i j p hi hj => by
      unfold bin
      refine congrArg (fun z => trunc ((z - d.rhoMin) / d.rhoRes)) ?_
      show project (cellNormal d.thetaNum d.phiNum i ((j + m) % d.phiNum)) _ = project (cellNormal d.thetaNum d.phiNum i j) p
      rw [cellNormal_mod _ _ _ _ hpos.ne']
      unfold project cellNormal turned
      dsimp only
      rw [show 2 * Real.pi / (d.phiNum : ℝ) * ((j + m : ℤ) : ℝ) = 2 * Real.pi / d.phiNum * j + m * (2 * Real.pi / d.phiNum) by push_cast; ring, Real.cos_add, Real.sin_add]
      have := Real.sin_sq_add_cos_sq (m * (2 * Real.pi / (d.phiNum : ℝ)))
      generalize Real.sin (m * (2 * Real.pi / (d.phiNum : ℝ))) = s at *
      generalize Real.cos (m * (2 * Real.pi / (d.phiNum : ℝ))) = t at *
      generalize Real.sin (2 * Real.pi / (d.phiNum : ℝ) * j) = u
      generalize Real.cos (2 * Real.pi / (d.phiNum : ℝ) * j) = v
      generalize Real.cos (Real.pi / 2 / (d.thetaNum : ℝ) * i) = w
      linear_combination (w * v * p.1 + w * u * p.2.1) * this)
    (hcast cloud hp)
  exact ⟨d, x, y, e, k1, k2, k3⟩

/-- **C164** The counters of the cloud reflected in the plane y = 0 are those of the cloud in the opposite order of phi. -/
theorem C164_mirror (maxSize : ℕ) {a b c : ℤ} (h : SizesOk maxSize a b c) (h8 : 8 ≤ b) {rhoRes : ℝ} (hres : 0 < rhoRes) (cloud : List (V3 ℝ))
    (hp : ∀ p ∈ cloud, |p.1| + |p.2.1| + |p.2.2| ≤ 2 ^ 30 * rhoRes) :
    ∃ d x y, Plane.new.initSizes Functions.Spec.real maxSize a b c rhoRes = .ok d ∧ d.insertRange cloud = .ok x ∧
      d.insertRange (cloud.map fun p => (p.1, -p.2.1, p.2.2)) = .ok y ∧ SameCounters a b c (fun j => -j % b) x y := by
  obtain ⟨d, e, ok, e3, hI, emin, eres, hcast⟩ := program_ok maxSize h hres
  simp only [Prod.mk.injEq] at e3
  obtain ⟨rfl, rfl, rfl⟩ := e3
  have hpos : 0 < d.phiNum := by omega
  obtain ⟨x, y, k1, k2, k3⟩ := insert_same ok ok h8 hI rfl (eres ▸ hres.ne') (eres ▸ hres.ne') cloud (fun p => (p.1, -p.2.1, p.2.2)) (fun j => -j % d.phiNum)
    (fun j _ => ⟨Int.emod_nonneg _ hpos.ne', Int.emod_lt_of_pos _ hpos⟩)
    (fun j hj => ⟨-j % d.phiNum, ⟨Int.emod_nonneg _ hpos.ne', Int.emod_lt_of_pos _ hpos⟩, by
      show -(-j % d.phiNum) % d.phiNum = j
      rw [← Int.zero_sub (-j % d.phiNum), Int.sub_emod_emod, Int.zero_sub, neg_neg, Int.emod_eq_of_lt hj.1 hj.2]⟩)
    (fun i j p hi hj => by
      unfold bin
      refine congrArg (fun z => trunc ((z - d.rhoMin) / d.rhoRes)) ?_
      show project (cellNormal d.thetaNum d.phiNum i (-j % d.phiNum)) _ = project (cellNormal d.thetaNum d.phiNum i j) p
      rw [cellNormal_mod _ _ _ _ hpos.ne']
      unfold project cellNormal
      dsimp only
      rw [show 2 * Real.pi / (d.phiNum : ℝ) * ((-j : ℤ) : ℝ) = -(2 * Real.pi / d.phiNum * j) by push_cast; ring, Real.cos_neg, Real.sin_neg]
      ring)
    (hcast cloud hp)
  exact ⟨d, x, y, e, k1, k2, k3⟩

/-- **C164** The unit of length does not matter. -/
theorem C164_unit (maxSize : ℕ) {a b c : ℤ} (h : SizesOk maxSize a b c) (h8 : 8 ≤ b) {rhoRes : ℝ} (hres : 0 < rhoRes) (cloud : List (V3 ℝ))
    (hp : ∀ p ∈ cloud, |p.1| + |p.2.1| + |p.2.2| ≤ 2 ^ 30 * rhoRes) {u : ℝ} (hu : 0 < u) :
    ∃ d e x y, Plane.new.initSizes Functions.Spec.real maxSize a b c rhoRes = .ok d ∧ Plane.new.initSizes Functions.Spec.real maxSize a b c (u * rhoRes) = .ok e ∧
      d.insertRange cloud = .ok x ∧ e.insertRange (cloud.map fun p => (u * p.1, u * p.2.1, u * p.2.2)) = .ok y ∧ SameCounters a b c id x y := by
  obtain ⟨d, hd, ok, e3, hI, emin, eres, hcast⟩ := program_ok maxSize h hres
  obtain ⟨e, he, ok', e3', -, emin', eres', -⟩ := program_ok maxSize h (mul_pos hu hres)
  have hsz := e3'.trans e3.symm
  simp only [Prod.mk.injEq] at e3
  obtain ⟨rfl, rfl, rfl⟩ := e3
  obtain ⟨x, y, k1, k2, k3⟩ := insert_same ok ok' h8 hI hsz (eres ▸ hres.ne') (eres' ▸ (mul_pos hu hres).ne') cloud (fun p => (u * p.1, u * p.2.1, u * p.2.2)) id
    (fun j hj => hj) (fun j hj => ⟨j, hj, rfl⟩)
    (fun i j p hi hj => by
      unfold bin
      refine congrArg trunc ?_
      rw [emin, emin', eres, eres']
      have : ∀ n : V3 ℝ, project n (u * p.1, u * p.2.1, u * p.2.2) = u * project n p := fun n => by unfold project; ring
      rw [this, show u * project (cellNormal d.thetaNum d.phiNum (([i, id j] : List ℤ).getD 0 0) (([i, id j] : List ℤ).getD 1 0)) p -
        -((d.rhoNum.tdiv 2 : ℤ) : ℝ) * (u * rhoRes) = u * (project (cellNormal d.thetaNum d.phiNum i j) p - -((d.rhoNum.tdiv 2 : ℤ) : ℝ) * rhoRes) by
          simp only [id, List.getD_cons_zero, List.getD_cons_succ]; ring]
      exact mul_div_mul_left _ _ hu.ne')
    (hcast cloud hp)
  exact ⟨d, e, x, y, hd, he, k1, k2, k3⟩

/-- A quarter of a turn, two cells of eight. -/
example (p : V3 ℝ) : turned (2 * (2 * Real.pi / 8)) p = (-p.2.1, p.1, p.2.2) := by
  unfold turned
  rw [show (2 : ℝ) * (2 * Real.pi / 8) = Real.pi / 2 by ring, Real.cos_pi_div_two, Real.sin_pi_div_two]
  simp

end Verif.Hough
