import Verif.Hough.LineProps
import Mathlib.Analysis.SpecialFunctions.Trigonometric.Inverse
import Mathlib.Analysis.SpecialFunctions.Complex.Arg

/-!
The constructors with sizes of the Hough detectors (geometry/src/hough_line_detector.cpp, geometry/src/hough_plane_detector.cpp), and C104: which lines and planes have a cell.
-/
namespace Verif.Hough
open Verif Functions PeakFinder

section
variable {K : Type} [Field K]

/-- `HoughLineDetector(thetaNum, rhoNum, rhoRes)`, hough_line_detector.cpp:33-38; the members that `init` does not use are as in the default constructor. -/
def Line.ofSizes (L : Libm K) (maxSize : Nat) (thetaNum rhoNum : Int) (rhoRes : K) : Outcome (Line K) := do
  let d ← Line.new.initSizes L maxSize thetaNum rhoNum rhoRes
  return { d with ithetaWin := 1, irhoWin := 1 }

/-- `HoughPlaneDetector(thetaNum, phiNum, rhoNum, rhoRes)`, hough_plane_detector.cpp:37-43. -/
def Plane.ofSizes (L : Libm K) (maxSize : Nat) (thetaNum phiNum rhoNum : Int) (rhoRes : K) : Outcome (Plane K) := do
  let d ← Plane.new.initSizes L maxSize thetaNum phiNum rhoNum rhoRes
  return { d with ithetaWin := 1, iphiWin := 1, irhoWin := 1 }

end

/-! ### C104 -/

/-- `x` is in the cell `i` of a grid. -/
def InCell (xmin res : ℝ) (i : ℤ) (x : ℝ) : Prop := xmin + i * res ≤ x ∧ x ≤ xmin + (i + 1) * res

/-- The line `a x + b y = c` has parameters in a cell of the detector. -/
def LineCovered (d : Line ℝ) (a b c : ℝ) : Prop := ∃ (i r : ℤ) (θ ρ : ℝ), (0 ≤ i ∧ i < d.thetaNum) ∧ (0 ≤ r ∧ r < d.rhoNum) ∧ InCell d.thetaMin d.thetaRes i θ ∧
  InCell d.rhoMin d.rhoRes r ρ ∧ ∀ x y : ℝ, a * x + b * y = c ↔ Real.cos θ * x + Real.sin θ * y = ρ

/-- The plane `a x + b y + e z = c` has parameters in a cell of the detector. -/
def PlaneCovered (d : Plane ℝ) (a b e c : ℝ) : Prop := ∃ (i j r : ℤ) (θ φ ρ : ℝ), (0 ≤ i ∧ i < d.thetaNum) ∧ (0 ≤ j ∧ j < d.phiNum) ∧ (0 ≤ r ∧ r < d.rhoNum) ∧
  InCell d.thetaMin d.thetaRes i θ ∧ InCell d.phiMin d.phiRes j φ ∧ InCell d.rhoMin d.rhoRes r ρ ∧
  ∀ x y z : ℝ, a * x + b * y + e * z = c ↔ Real.cos θ * Real.cos φ * x + Real.cos θ * Real.sin φ * y + Real.sin θ * z = ρ

/-- C104, full statement: the detectors made from sizes cover the lines up to the distance `rhoNum * rhoRes` and the planes up to `(rhoNum / 2) * rhoRes`. -/
def C104_statement : Prop :=
  (∀ maxSize m n (res : ℝ), LineSizes maxSize m n → 0 < res → ∃ d, Line.ofSizes Functions.Spec.real maxSize m n res = .ok d ∧
    ∀ a b c : ℝ, a ^ 2 + b ^ 2 = 1 → |c| ≤ n * res → LineCovered d a b c) ∧
  (∀ maxSize m k n (res : ℝ), SizesOk maxSize m k n → 0 < res → ∃ d, Plane.ofSizes Functions.Spec.real maxSize m k n res = .ok d ∧
    ∀ a b e c : ℝ, a ^ 2 + b ^ 2 + e ^ 2 = 1 → |c| ≤ (n / 2 : ℤ) * res → PlaneCovered d a b e c)

theorem cell_exists {xmin res x : ℝ} {n : ℤ} (hn : 0 < n) (hr : 0 < res) (h0 : xmin ≤ x) (h1 : x ≤ xmin + n * res) : ∃ i, (0 ≤ i ∧ i < n) ∧ InCell xmin res i x := by
  by_cases h : x = xmin + n * res
  · refine ⟨n - 1, by omega, ?_, ?_⟩
    · rw [h]; push_cast; nlinarith
    · rw [h]; push_cast; nlinarith
  · have h2 : x < xmin + n * res := lt_of_le_of_ne h1 h
    refine ⟨⌊(x - xmin) / res⌋, ⟨Int.floor_nonneg.2 (div_nonneg (by linarith) hr.le), ?_⟩, ?_, ?_⟩
    · rw [Int.floor_lt, div_lt_iff₀ hr]
      linarith
    · have := Int.floor_le ((x - xmin) / res)
      rw [le_div_iff₀ hr] at this
      linarith
    · have := (Int.lt_floor_add_one ((x - xmin) / res)).le
      rw [div_le_iff₀ hr] at this
      linarith

theorem init_members {L : Libm ℝ} {maxSize : ℕ} {d d' : Plane ℝ} {a b c : ℤ} {x1 x2 x3 x4 x5 x6 : ℝ} (h : d.init L maxSize a b c x1 x2 x3 x4 x5 x6 = .ok d') :
    (d'.thetaNum, d'.phiNum, d'.rhoNum) = (a, b, c) ∧ (d'.thetaMin, d'.phiMin, d'.rhoMin) = (x1, x2, x3) ∧ (d'.thetaRes, d'.phiRes, d'.rhoRes) = (x4, x5, x6) := by
  unfold Plane.init at h
  obtain ⟨_, -, h⟩ := bind_inv h
  obtain ⟨_, -, h⟩ := bind_inv h
  obtain ⟨_, -, h⟩ := bind_inv h
  obtain ⟨_, -, h⟩ := bind_inv h
  obtain rfl := Except.ok.inj h
  exact ⟨rfl, rfl, rfl⟩

/-- The detector of the constructor with sizes: its grid. -/
theorem line_ofSizes (maxSize : ℕ) {m n : ℤ} (h : LineSizes maxSize m n) (res : ℝ) : ∃ d, Line.ofSizes Functions.Spec.real maxSize m n res = .ok d ∧
    (d.thetaNum, d.rhoNum) = (m, n) ∧ (d.thetaMin, d.rhoMin, d.thetaRes, d.rhoRes) = (0, 0, Real.pi / m, res) ∧ (d.ithetaWin, d.irhoWin) = (1, 1) ∧
    LineOk d (fun _ => 0) (fun _ => 0) := by
  obtain ⟨d, e, ok, h1, h2, -⟩ := C62_init Functions.Spec.real maxSize Line.new h 0 0 (Real.pi / m) res
  refine ⟨{ d with ithetaWin := 1, irhoWin := 1 }, ?_, h1, h2, rfl, ⟨ok.transform, ok.spectrum, ok.theta, ok.rho⟩⟩
  have e : Line.new.initSizes Functions.Spec.real maxSize m n res = .ok d := e
  unfold Line.ofSizes
  rw [e]
  rfl

theorem plane_ofSizes (maxSize : ℕ) {m k n : ℤ} (h : SizesOk maxSize m k n) (res : ℝ) : ∃ d, Plane.ofSizes Functions.Spec.real maxSize m k n res = .ok d ∧
    (d.thetaNum, d.phiNum, d.rhoNum) = (m, k, n) ∧ (d.thetaMin, d.phiMin, d.rhoMin) = (0, 0, -((n.tdiv 2 : ℤ) : ℝ) * res) ∧
    (d.thetaRes, d.phiRes, d.rhoRes) = (1 / 2 * Real.pi / m, 2 * Real.pi / k, res) ∧ (d.ithetaWin, d.iphiWin, d.irhoWin) = (1, 1, 1) := by
  obtain ⟨d, e, -⟩ := C60_init Functions.Spec.real maxSize Plane.new h 0 0 (-((n.tdiv 2 : ℤ) : ℝ) * res) (1 / 2 * Real.pi / m) (2 * Real.pi / k) res
  obtain ⟨h1, h2, h3⟩ := init_members e
  refine ⟨{ d with ithetaWin := 1, iphiWin := 1, irhoWin := 1 }, ?_, h1, h2, h3, rfl⟩
  have e : Plane.new.initSizes Functions.Spec.real maxSize m k n res = .ok d := e
  unfold Plane.ofSizes
  rw [e]
  rfl

/-- C104, planes: each plane up to the distance `(rhoNum / 2) * rhoRes` from the origin has a cell. -/
theorem C104_planes_partial (maxSize : ℕ) {m k n : ℤ} (h : SizesOk maxSize m k n) {res : ℝ} (hr : 0 < res) : ∃ d, Plane.ofSizes Functions.Spec.real maxSize m k n res = .ok d ∧
    ∀ a b e c : ℝ, a ^ 2 + b ^ 2 + e ^ 2 = 1 → |c| ≤ (n / 2 : ℤ) * res → PlaneCovered d a b e c := by
  obtain ⟨d, hd, h1, h2, h3, -⟩ := plane_ofSizes maxSize h res
  refine ⟨d, hd, ?_⟩
  simp only [Prod.mk.injEq] at h1 h2 h3
  obtain ⟨hm, hk, hn, -⟩ := h
  have hm' : (0 : ℝ) < m := by exact_mod_cast hm
  have hk' : (0 : ℝ) < k := by exact_mod_cast hk
  have hpi := Real.pi_pos
  have htd : n.tdiv 2 = n / 2 := Int.tdiv_eq_ediv_of_nonneg hn.le
  have key : ∀ a b e c : ℝ, a ^ 2 + b ^ 2 + e ^ 2 = 1 → |c| ≤ (n / 2 : ℤ) * res → 0 ≤ e → PlaneCovered d a b e c := by
    intro a b e c hu hc he
    have he1 : e ≤ 1 := by nlinarith [sq_nonneg a, sq_nonneg b]
    have hs : Real.sin (Real.arcsin e) = e := Real.sin_arcsin (by linarith) he1
    have hcos : Real.cos (Real.arcsin e) = ‖(⟨a, b⟩ : ℂ)‖ := by
      rw [Real.cos_arcsin, Complex.norm_def, Complex.normSq_mk]
      congr 1
      nlinarith
    obtain ⟨i, hi, ci⟩ := cell_exists (xmin := 0) (x := Real.arcsin e) (res := 1 / 2 * Real.pi / m) hm (by positivity) (Real.arcsin_nonneg.2 he) (by
      have := Real.arcsin_le_pi_div_two e
      have e1 : (m : ℝ) * (1 / 2 * Real.pi / m) = Real.pi / 2 := by field_simp
      linarith)
    obtain ⟨φ, p0, p1, pc, ps⟩ : ∃ φ : ℝ, 0 ≤ φ ∧ φ ≤ 2 * Real.pi ∧ ‖(⟨a, b⟩ : ℂ)‖ * Real.cos φ = a ∧ ‖(⟨a, b⟩ : ℂ)‖ * Real.sin φ = b := by
      have q1 := Complex.norm_mul_cos_arg ⟨a, b⟩
      have q2 := Complex.norm_mul_sin_arg ⟨a, b⟩
      have q3 := Complex.neg_pi_lt_arg ⟨a, b⟩
      have q4 := Complex.arg_le_pi ⟨a, b⟩
      by_cases hneg : 0 ≤ Complex.arg ⟨a, b⟩
      · exact ⟨_, hneg, by linarith, q1, q2⟩
      · refine ⟨Complex.arg ⟨a, b⟩ + 2 * Real.pi, by linarith, by linarith, ?_, ?_⟩
        · rw [Real.cos_add_two_pi]; exact q1
        · rw [Real.sin_add_two_pi]; exact q2
    obtain ⟨j, hj, cj⟩ := cell_exists (xmin := 0) (x := φ) (res := 2 * Real.pi / k) hk (by positivity) p0 (by
      have e1 : (k : ℝ) * (2 * Real.pi / k) = 2 * Real.pi := by field_simp
      linarith)
    have hc' := abs_le.1 hc
    have h2n : (((n / 2 : ℤ) : ℝ)) * 2 ≤ n := by
      have : n / 2 * 2 ≤ n := by omega
      exact_mod_cast this
    obtain ⟨r, hr', cr⟩ := cell_exists (xmin := -((n.tdiv 2 : ℤ) : ℝ) * res) (x := c) (res := res) hn hr (by rw [htd]; linarith) (by rw [htd]; nlinarith)
    refine ⟨i, j, r, Real.arcsin e, φ, c, by omega, by omega, by omega, ?_, ?_, ?_, fun x y z => ?_⟩
    · rw [h2.1, h3.1]; exact ci
    · rw [h2.2.1, h3.2.1]; exact cj
    · rw [h2.2.2, h3.2.2]; exact cr
    · rw [hcos, hs, pc, ps]
  intro a b e c hu hc
  by_cases he : 0 ≤ e
  · exact key a b e c hu hc he
  · obtain ⟨i, j, r, θ, φ, ρ, q1, q2, q3, q4, q5, q6, q7⟩ := key (-a) (-b) (-e) (-c) (by nlinarith) (by rwa [abs_neg]) (by linarith)
    refine ⟨i, j, r, θ, φ, ρ, q1, q2, q3, q4, q5, q6, fun x y z => ?_⟩
    rw [← q7]
    constructor <;> intro h <;> linarith

/-- C104, lines: a line up to the distance `rhoNum * rhoRes` has a cell exactly when the normal on the side of the line does not point downwards. Missing: the other lines, about one half
(`C104_violated`). -/
theorem C104_lines_partial (maxSize : ℕ) {m n : ℤ} (h : LineSizes maxSize m n) {res : ℝ} (hr : 0 < res) : ∃ d, Line.ofSizes Functions.Spec.real maxSize m n res = .ok d ∧
    ∀ a b c : ℝ, a ^ 2 + b ^ 2 = 1 → |c| ≤ n * res → (LineCovered d a b c ↔ 0 ≤ b * c) := by
  obtain ⟨d, hd, h1, h2, -⟩ := line_ofSizes maxSize h res
  refine ⟨d, hd, ?_⟩
  simp only [Prod.mk.injEq] at h1 h2
  obtain ⟨hm, hn, -⟩ := h
  have hm' : (0 : ℝ) < m := by exact_mod_cast hm
  have hpi := Real.pi_pos
  have hcell : ∀ i : ℤ, 0 ≤ i → i < m → ∀ x, InCell 0 (Real.pi / m) i x → 0 ≤ x ∧ x ≤ Real.pi := by
    rintro i h0 h1 x ⟨g1, g2⟩
    have e1 : (m : ℝ) * (Real.pi / m) = Real.pi := by field_simp
    have i0 : (0 : ℝ) ≤ i := by exact_mod_cast h0
    have i1 : (i : ℝ) + 1 ≤ m := by exact_mod_cast h1
    have hp : 0 < Real.pi / m := by positivity
    constructor
    · nlinarith
    · nlinarith
  have key : ∀ a b c : ℝ, a ^ 2 + b ^ 2 = 1 → |c| ≤ n * res → 0 ≤ b → 0 ≤ c → LineCovered d a b c := by
    intro a b c hu hc hb hc0
    have ha1 : a ≤ 1 := by nlinarith [sq_nonneg b]
    have ha2 : -1 ≤ a := by nlinarith [sq_nonneg b]
    have hcos : Real.cos (Real.arccos a) = a := Real.cos_arccos ha2 ha1
    have hsin : Real.sin (Real.arccos a) = b := by
      rw [Real.sin_arccos, show 1 - a ^ 2 = b ^ 2 by linarith, Real.sqrt_sq hb]
    obtain ⟨i, hi, ci⟩ := cell_exists (xmin := 0) (x := Real.arccos a) (res := Real.pi / m) hm (by positivity) (Real.arccos_nonneg a) (by
      have := Real.arccos_le_pi a
      have e1 : (m : ℝ) * (Real.pi / m) = Real.pi := by field_simp
      linarith)
    obtain ⟨r, hr', cr⟩ := cell_exists (xmin := 0) (x := c) (res := res) hn hr hc0 (by have := (abs_le.1 hc).2; linarith)
    refine ⟨i, r, Real.arccos a, c, by omega, by omega, ?_, ?_, fun x y => by rw [hcos, hsin]⟩
    · rw [h2.1, h2.2.2.1]; exact ci
    · rw [h2.2.1, h2.2.2.2]; exact cr
  intro a b c hu hc
  constructor
  · rintro ⟨i, r, θ, ρ, q1, q2, q3, q4, q5⟩
    rw [h2.1, h2.2.2.1] at q3
    rw [h2.2.1, h2.2.2.2] at q4
    obtain ⟨t0, t1⟩ := hcell i q1.1 (by omega) θ q3
    have hs := Real.sin_nonneg_of_nonneg_of_le_pi t0 t1
    have hρ : 0 ≤ ρ := by
      have : (0 : ℝ) ≤ r := by exact_mod_cast q2.1
      have := q4.1
      nlinarith
    -- the foot of the line and another point of it
    have f1 := (q5 (c * a) (c * b)).1 (by linear_combination c * hu)
    have f2 := (q5 (c * a - b) (c * b + a)).1 (by linear_combination c * hu)
    have f3 : Real.sin θ * a = Real.cos θ * b := by linarith
    have f4 := Real.sin_sq_add_cos_sq θ
    have f5 : c * (Real.cos θ * a + Real.sin θ * b) = ρ := by linarith
    -- the scalar product of the two normals is 1 or -1
    have f6 : Real.sin θ = (Real.cos θ * a + Real.sin θ * b) * b := by
      linear_combination (-Real.sin θ) * hu + a * f3
    have f7 : b * c = b * (Real.cos θ * a + Real.sin θ * b) * (c * (Real.cos θ * a + Real.sin θ * b)) := by
      have f8 : (Real.cos θ * a + Real.sin θ * b) ^ 2 = 1 := by
        linear_combination (Real.sin θ ^ 2 + Real.cos θ ^ 2) * hu + f4 - (Real.sin θ * a - Real.cos θ * b) * f3
      linear_combination (-b * c) * f8
    rw [f7, f5]
    have : b * (Real.cos θ * a + Real.sin θ * b) = Real.sin θ := by linarith
    rw [this]
    exact mul_nonneg hs hρ
  · intro hbc
    have neg : ∀ a b c : ℝ, LineCovered d (-a) (-b) (-c) → LineCovered d a b c := by
      rintro a b c ⟨i, r, θ, ρ, q1, q2, q3, q4, q5⟩
      refine ⟨i, r, θ, ρ, q1, q2, q3, q4, fun x y => ?_⟩
      rw [← q5]
      constructor <;> intro h <;> linarith
    rcases lt_trichotomy c 0 with hc0 | hc0 | hc0
    · exact neg a b c (key _ _ _ (by nlinarith) (by rwa [abs_neg]) (by nlinarith) (by linarith))
    · subst hc0
      by_cases hb : 0 ≤ b
      · exact key a b 0 hu hc hb le_rfl
      · exact neg a b 0 (key _ _ _ (by nlinarith) (by rwa [abs_neg]) (by linarith) (by simp))
    · exact key a b c hu hc (by nlinarith) hc0.le

/-- The code violates C104: the line `y = -1` has no cell, whatever the sizes. -/
theorem C104_lines_violated (maxSize : ℕ) {m n : ℤ} (h : LineSizes maxSize m n) {res : ℝ} (hr : 1 ≤ res) : ∃ d, Line.ofSizes Functions.Spec.real maxSize m n res = .ok d ∧
    ¬ LineCovered d 0 1 (-1) := by
  obtain ⟨d, hd, h1⟩ := C104_lines_partial maxSize h (by linarith : 0 < res)
  refine ⟨d, hd, ?_⟩
  have hn : (1 : ℝ) ≤ n := by exact_mod_cast h.2.1
  rw [h1 0 1 (-1) (by norm_num) (by rw [abs_neg, abs_one]; nlinarith)]
  norm_num

theorem C104_violated : ¬ C104_statement := by
  rintro ⟨h, -⟩
  have hs : LineSizes 100 2 2 := by unfold LineSizes; norm_num
  obtain ⟨d, hd, h1⟩ := h 100 2 2 1 hs one_pos
  obtain ⟨d', hd', h2⟩ := C104_lines_violated 100 hs (le_refl (1 : ℝ))
  rw [hd] at hd'
  obtain rfl := Except.ok.inj hd'
  exact h2 (h1 0 1 (-1) (by norm_num) (by norm_num))

/-- An ordinary case: the line `3/5 x + 4/5 y = 1` has a cell of a detector with 2 angles and 2 distances. -/
example : ∃ d, Line.ofSizes Functions.Spec.real 100 2 2 1 = .ok d ∧ LineCovered d (3 / 5) (4 / 5) 1 := by
  obtain ⟨d, hd, h1⟩ := C104_lines_partial 100 (show LineSizes 100 2 2 by unfold LineSizes; norm_num) one_pos
  exact ⟨d, hd, (h1 _ _ _ (by norm_num) (by norm_num)).2 (by norm_num)⟩

end Verif.Hough
