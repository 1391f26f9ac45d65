import Verif.PlaneAligner.Model
import Mathlib.Analysis.SpecialFunctions.Sqrt
import Mathlib.Tactic.Ring
import Mathlib.Tactic.Linarith
import Mathlib.Tactic.FieldSimp
import Mathlib.Tactic.LinearCombination

/-! Property theorem C65 (see properties.jsonl). The square root is that of the reals. -/
namespace Verif.PlaneAligner
open Verif V3

/-- Specification: squared distance and oriented volume of a tetrahedron. -/
def dist2 (p q : V3 ℝ) : ℝ := (p.x - q.x) ^ 2 + (p.y - q.y) ^ 2 + (p.z - q.z) ^ 2

/-- Six times the signed volume of the tetrahedron. -/
def vol (o p q r : V3 ℝ) : ℝ :=
  (p.x - o.x) * ((q.y - o.y) * (r.z - o.z) - (q.z - o.z) * (r.y - o.y)) - (p.y - o.y) * ((q.x - o.x) * (r.z - o.z) - (q.z - o.z) * (r.x - o.x)) +
    (p.z - o.z) * ((q.x - o.x) * (r.y - o.y) - (q.y - o.y) * (r.x - o.x))

/-- The transformation preserves distances and orientation. -/
def Rigid (f : V3 ℝ → V3 ℝ) : Prop := (∀ p q, dist2 (f p) (f q) = dist2 p q) ∧ ∀ o p q r, vol (f o) (f p) (f q) (f r) = vol o p q r

/-- Length of a vector. -/
noncomputable def len (n : V3 ℝ) : ℝ := Real.sqrt (n.x ^ 2 + n.y ^ 2 + n.z ^ 2)

/-- A point is an inlier of the plane `n · p + d = 0`. -/
def Inlier (n : V3 ℝ) (d tol : ℝ) (p : V3 ℝ) : Prop := |n.x * p.x + n.y * p.y + n.z * p.z + d| < tol

noncomputable instance (n : V3 ℝ) (d tol : ℝ) (p : V3 ℝ) : Decidable (Inlier n d tol p) := Classical.dec _

/-- An orthonormal right-handed frame. -/
structure Frame (a b c : V3 ℝ) : Prop where
  aa : dot a a = 1
  cc : dot c c = 1
  ac : dot a c = 0
  b : b = cross c a

theorem normalize_unit {v : V3 ℝ} (h : 0 < dot v v) : dot (normalize Real.sqrt v) (normalize Real.sqrt v) = 1 ∧ normalize Real.sqrt v = sdiv v (Real.sqrt (dot v v)) := by
  unfold normalize
  rw [if_pos h]
  refine ⟨?_, rfl⟩
  have h1 : Real.sqrt (dot v v) * Real.sqrt (dot v v) = dot v v := Real.mul_self_sqrt h.le
  have h2 : Real.sqrt (dot v v) ≠ 0 := (Real.sqrt_pos.2 h).ne'
  generalize Real.sqrt (dot v v) = s at *
  show v.x / s * (v.x / s) + v.y / s * (v.y / s) + v.z / s * (v.z / s) = 1
  field_simp
  have h3 : s * s = v.x * v.x + v.y * v.y + v.z * v.z := h1
  linear_combination -h3

theorem frame {n : V3 ℝ} (h : 0 < dot n n) : Frame (axes Real.sqrt n).1 (axes Real.sqrt n).2.1 (axes Real.sqrt n).2.2 ∧ (axes Real.sqrt n).2.2 = sdiv n (Real.sqrt (dot n n)) := by
  obtain ⟨h1, h2⟩ := normalize_unit h
  unfold axes
  dsimp only
  generalize normalize Real.sqrt n = c at *
  have hpos : 0 < dot (sub (axisX (maxIdx c)) (smul (dot (axisX (maxIdx c)) c) c)) (sub (axisX (maxIdx c)) (smul (dot (axisX (maxIdx c)) c) c)) := by
    simp only [dot] at h1
    have hs : ∀ a b : ℝ, |a| ≤ |b| → a * a ≤ b * b := fun a b hab => by
      rw [← abs_mul_abs_self a, ← abs_mul_abs_self b]
      exact mul_self_le_mul_self (abs_nonneg a) hab
    have hxz : ∀ i : ℕ, i = 0 ∨ i = 1 → c.z * c.z < 1 → 0 < dot (sub (axisX i) (smul (dot (axisX i) c) c)) (sub (axisX i) (smul (dot (axisX i) c) c)) := by
      intro i hi hz
      have e : (axisX i : V3 ℝ) = ⟨0, 0, 1⟩ := by rcases hi with rfl | rfl <;> rfl
      rw [e]
      simp only [dot, sub, smul]
      have : (0 - (0 * c.x + 0 * c.y + 1 * c.z) * c.x) * (0 - (0 * c.x + 0 * c.y + 1 * c.z) * c.x) + (0 - (0 * c.x + 0 * c.y + 1 * c.z) * c.y) * (0 - (0 * c.x + 0 * c.y + 1 * c.z) * c.y) +
          (1 - (0 * c.x + 0 * c.y + 1 * c.z) * c.z) * (1 - (0 * c.x + 0 * c.y + 1 * c.z) * c.z) = 1 - c.z * c.z := by
        linear_combination (c.z * c.z) * h1
      rw [this]
      linarith
    have hzz : c.x * c.x < 1 → 0 < dot (sub (axisX 2) (smul (dot (axisX 2) c) c)) (sub (axisX 2) (smul (dot (axisX 2) c) c)) := by
      intro hx
      have e : (axisX 2 : V3 ℝ) = ⟨1, 0, 0⟩ := rfl
      rw [e]
      simp only [dot, sub, smul]
      have : (1 - (1 * c.x + 0 * c.y + 0 * c.z) * c.x) * (1 - (1 * c.x + 0 * c.y + 0 * c.z) * c.x) + (0 - (1 * c.x + 0 * c.y + 0 * c.z) * c.y) * (0 - (1 * c.x + 0 * c.y + 0 * c.z) * c.y) +
          (0 - (1 * c.x + 0 * c.y + 0 * c.z) * c.z) * (0 - (1 * c.x + 0 * c.y + 0 * c.z) * c.z) = 1 - c.x * c.x := by
        linear_combination (c.x * c.x) * h1
      rw [this]
      linarith
    have hx0 := mul_self_nonneg c.x
    have hy0 := mul_self_nonneg c.y
    have hz0 := mul_self_nonneg c.z
    unfold maxIdx
    split_ifs with a1 a2 a3
    · have := hs _ _ (a1.le.trans a2.le)
      exact hzz (by linarith)
    · have := hs _ _ (not_lt.1 a2)
      exact hxz 1 (Or.inr rfl) (by linarith)
    · have := hs _ _ a3.le
      exact hzz (by linarith)
    · have := hs _ _ (not_lt.1 a3)
      exact hxz 0 (Or.inl rfl) (by linarith)
  generalize (axisX (maxIdx c) : V3 ℝ) = e at *
  obtain ⟨u1, u2⟩ := normalize_unit hpos
  refine ⟨⟨u1, h1, ?_, rfl⟩, h2⟩
  rw [u2]
  generalize Real.sqrt _ = s
  have : dot (sub e (smul (dot e c) c)) c = 0 := by
    simp only [dot, sub, smul] at *
    linear_combination (-(e.x * c.x + e.y * c.y + e.z * c.z)) * h1
  simp only [dot, sdiv] at *
  rw [div_mul_eq_mul_div, div_mul_eq_mul_div, div_mul_eq_mul_div, ← add_div, ← add_div, this, zero_div]

theorem Frame.det {a b c : V3 ℝ} (h : Frame a b c) : dot a (cross b c) = 1 := by
  have h1 := h.aa
  have h2 := h.cc
  have h3 := h.ac
  rw [h.b]
  simp only [dot, cross] at *
  linear_combination (c.x * c.x + c.y * c.y + c.z * c.z) * h1 + h2 - (a.x * c.x + a.y * c.y + a.z * c.z) * h3

theorem Frame.inverse {a b c : V3 ℝ} (h : Frame a b c) : inverse3 a b c = some (a, b, c) := by
  have h1 := h.aa
  have h2 := h.cc
  have h3 := h.ac
  have h4 := h.b
  have hd := h.det
  have e1 : cross b c = a := by
    rw [h4]
    simp only [dot, cross] at *
    obtain ⟨ax, ay, az⟩ := a
    congr 1
    · linear_combination ax * h2 - c.x * h3
    · linear_combination ay * h2 - c.y * h3
    · linear_combination az * h2 - c.z * h3
  have e3 : cross a b = c := by
    rw [h4]
    simp only [dot, cross] at *
    obtain ⟨cx, cy, cz⟩ := c
    congr 1
    · linear_combination cx * h1 - a.x * h3
    · linear_combination cy * h1 - a.y * h3
    · linear_combination cz * h1 - a.z * h3
  have hs : ∀ v : V3 ℝ, sdiv v 1 = v := fun v => by simp [sdiv]
  unfold inverse3
  dsimp only
  rw [hd, if_neg one_ne_zero, hs, hs, hs, e1, e3, ← h4]

/-- The transformation of a frame and a center. -/
theorem Frame.apply {a b c : V3 ℝ} (o p : V3 ℝ) :
    ((T3.id.pretranslate (smul (-1) o)).prerotate a b c).apply p = ⟨dot a (sub p o), dot b (sub p o), dot c (sub p o)⟩ := by
  simp only [T3.apply, T3.prerotate, T3.pretranslate, T3.id, dot, add, smul, sub]
  congr 1 <;> ring

theorem Frame.rigid {a b c : V3 ℝ} (h : Frame a b c) (o : V3 ℝ) : Rigid ((T3.id.pretranslate (smul (-1) o)).prerotate a b c).apply := by
  constructor
  · intro p q
    rw [Frame.apply, Frame.apply, h.b]
    have gram : ∀ d : V3 ℝ, dot (cross c a) d ^ 2 = dot c c * dot a a * dot d d + 2 * dot a c * dot a d * dot c d - dot c c * dot a d ^ 2 - dot a a * dot c d ^ 2 - dot d d * dot a c ^ 2 := by
      intro d
      simp only [dot, cross]
      ring
    have hd := gram (sub p q)
    rw [h.aa, h.cc, h.ac] at hd
    simp only [dist2, dot, sub, cross] at *
    linear_combination hd
  · intro o' p q r
    rw [Frame.apply, Frame.apply, Frame.apply, Frame.apply]
    have key : ∀ o' p q r : V3 ℝ, vol ⟨dot a (sub o' o), dot b (sub o' o), dot c (sub o' o)⟩ ⟨dot a (sub p o), dot b (sub p o), dot c (sub p o)⟩
        ⟨dot a (sub q o), dot b (sub q o), dot c (sub q o)⟩ ⟨dot a (sub r o), dot b (sub r o), dot c (sub r o)⟩ = dot a (cross b c) * vol o' p q r := by
      intro o' p q r
      simp only [vol, dot, sub, cross]
      ring
    rw [key, h.det, one_mul]

theorem inliers_eq (s : Aligner ℝ) (points : List (V3 ℝ)) : inliers s points =
    (⟨((points.filter fun p => Inlier s.normal s.const s.planeTol p).map V3.x).sum, ((points.filter fun p => Inlier s.normal s.const s.planeTol p).map V3.y).sum,
      ((points.filter fun p => Inlier s.normal s.const s.planeTol p).map V3.z).sum⟩, (points.filter fun p => Inlier s.normal s.const s.planeTol p).length) := by
  have key : ∀ (points : List (V3 ℝ)) (acc : V3 ℝ × ℕ), points.foldl (fun acc p =>
      if |p.x * s.normal.x + p.y * s.normal.y + p.z * s.normal.z + s.const| < s.planeTol then (add acc.1 p, acc.2 + 1) else acc) acc =
      (⟨acc.1.x + ((points.filter fun p => Inlier s.normal s.const s.planeTol p).map V3.x).sum, acc.1.y + ((points.filter fun p => Inlier s.normal s.const s.planeTol p).map V3.y).sum,
      acc.1.z + ((points.filter fun p => Inlier s.normal s.const s.planeTol p).map V3.z).sum⟩, acc.2 + (points.filter fun p => Inlier s.normal s.const s.planeTol p).length) := by
    intro points
    induction points with
    | nil => intro acc; simp
    | cons p points ih =>
      intro acc
      rw [List.foldl_cons, ih]
      have hin : Inlier s.normal s.const s.planeTol p ↔ |p.x * s.normal.x + p.y * s.normal.y + p.z * s.normal.z + s.const| < s.planeTol := by
        unfold Inlier
        rw [mul_comm s.normal.x, mul_comm s.normal.y, mul_comm s.normal.z]
      by_cases h : |p.x * s.normal.x + p.y * s.normal.y + p.z * s.normal.z + s.const| < s.planeTol
      · rw [if_pos h, List.filter_cons_of_pos (by simpa using hin.2 h)]
        simp only [List.map_cons, List.sum_cons, List.length_cons, add, Prod.mk.injEq, V3.mk.injEq]
        exact ⟨⟨by ring, by ring, by ring⟩, by omega⟩
      · rw [if_neg h, List.filter_cons_of_neg (by simpa using fun h' => h (hin.1 h'))]
  unfold inliers
  rw [key]
  simp

/-- C65: the transformation is rigid, its third axis is the normal and the points of the plane go to height zero. -/
def C65_statement : Prop := ∀ (s : Aligner ℝ) (points : List (V3 ℝ)), s.cloud = some points → s.normal ≠ ⟨0, 0, 0⟩ →
  ∃ s' T, s.compute Real.sqrt = .ok s' ∧ s'.transform = some T ∧ Rigid T.apply ∧
    T.r2 = ⟨s.normal.x / len s.normal, s.normal.y / len s.normal, s.normal.z / len s.normal⟩ ∧
    ∀ p : V3 ℝ, s.normal.x * p.x + s.normal.y * p.y + s.normal.z * p.z + s.const = 0 → (T.apply p).z = 0

/-- C65, part: the transformation is rigid, its third axis is the unit normal, a point goes to the height of its projection on the normal (not on the plane) and the origin
to height 0; the mean of the inliers goes to `x = y = 0`. Missing: the points of the plane go to height `- d / |n|` and not to zero, see `C65_violated`. -/
theorem C65_frame_partial (s : Aligner ℝ) (points : List (V3 ℝ)) (hc : s.cloud = some points) (hn : s.normal ≠ ⟨0, 0, 0⟩) :
    ∃ s' T, s.compute Real.sqrt = .ok s' ∧ s'.transform = some T ∧ s'.cloud = s.cloud ∧ Rigid T.apply ∧
    T.r2 = ⟨s.normal.x / len s.normal, s.normal.y / len s.normal, s.normal.z / len s.normal⟩ ∧
    (∀ p : V3 ℝ, (T.apply p).z = (s.normal.x * p.x + s.normal.y * p.y + s.normal.z * p.z) / len s.normal) ∧
    (∀ p : V3 ℝ, s.normal.x * p.x + s.normal.y * p.y + s.normal.z * p.z + s.const = 0 → (T.apply p).z = - s.const / len s.normal) ∧
    (((points.filter fun p => Inlier s.normal s.const s.planeTol p).map fun p => (T.apply p).x).sum = 0 ∧
     ((points.filter fun p => Inlier s.normal s.const s.planeTol p).map fun p => (T.apply p).y).sum = 0) := by
  have hpos : 0 < dot s.normal s.normal := by
    by_contra h
    apply hn
    generalize s.normal = n at h
    obtain ⟨x, y, z⟩ := n
    simp only [dot] at h
    have hx := mul_self_nonneg x
    have hy := mul_self_nonneg y
    have hz := mul_self_nonneg z
    rw [mul_self_eq_zero.1 (by linarith : x * x = 0), mul_self_eq_zero.1 (by linarith : y * y = 0), mul_self_eq_zero.1 (by linarith : z * z = 0)]
  have hlen : len s.normal = Real.sqrt (dot s.normal s.normal) := by
    unfold len dot
    congr 1
    ring
  obtain ⟨hf, haz⟩ := frame hpos
  have hl0 : len s.normal ≠ 0 := by rw [hlen]; exact (Real.sqrt_pos.2 hpos).ne'
  have hcomp : s.compute Real.sqrt = .ok { s with transform := some ((T3.id.pretranslate (smul (-1) (center (axes Real.sqrt s.normal).2.2 (inliers s points).1 (inliers s points).2))).prerotate
      (axes Real.sqrt s.normal).1 (axes Real.sqrt s.normal).2.1 (axes Real.sqrt s.normal).2.2) } := by
    unfold Aligner.compute
    dsimp only
    rw [hc]
    dsimp only
    rw [hf.inverse]
    rfl
  rw [← hlen] at haz
  generalize hax : (axes Real.sqrt s.normal).1 = a at *
  generalize hay : (axes Real.sqrt s.normal).2.1 = b at *
  generalize haz' : (axes Real.sqrt s.normal).2.2 = c at *
  have hctr : dot c (center c (inliers s points).1 (inliers s points).2) = 0 := by
    unfold center
    have hcc := hf.cc
    split_ifs with h
    · have h' : ((inliers s points).2 : ℝ) ≠ 0 := by exact_mod_cast h.ne'
      simp only [dot, sub, smul, sdiv] at *
      field_simp
      linear_combination (-((inliers s points).1.x * c.x + (inliers s points).1.y * c.y + (inliers s points).1.z * c.z)) * hcc
    · rw [inliers_eq] at h ⊢
      dsimp only at h ⊢
      have : points.filter (fun p => Inlier s.normal s.const s.planeTol p) = [] := List.length_eq_zero_iff.1 (by omega)
      simp [this, dot]
  have hz : ∀ p : V3 ℝ, dot c (sub p (center c (inliers s points).1 (inliers s points).2)) = (s.normal.x * p.x + s.normal.y * p.y + s.normal.z * p.z) / len s.normal := by
    intro p
    generalize center c (inliers s points).1 (inliers s points).2 = o at *
    have : dot c (sub p o) = dot c p := by
      simp only [dot, sub] at *
      linear_combination -hctr
    rw [this, haz]
    simp only [dot, sdiv]
    ring
  refine ⟨_, _, hcomp, rfl, rfl, hf.rigid _, ?_, ?_, ?_, ?_⟩
  · have : c = ⟨s.normal.x / len s.normal, s.normal.y / len s.normal, s.normal.z / len s.normal⟩ := haz
    rw [← this]
    simp only [T3.prerotate, T3.pretranslate, T3.id, add, smul]
    simp
  · intro p
    rw [Frame.apply]
    exact hz p
  · intro p hp
    rw [Frame.apply]
    show dot c _ = _
    rw [hz]
    congr 1
    linarith
  · have hsum : ∀ (v o : V3 ℝ) (l : List (V3 ℝ)), (l.map fun p => dot v (sub p o)).sum = dot v ⟨(l.map V3.x).sum, (l.map V3.y).sum, (l.map V3.z).sum⟩ - l.length * dot v o := by
      intro v o l
      induction l with
      | nil => simp [dot]
      | cons p l ih =>
        rw [List.map_cons, List.sum_cons, ih]
        simp only [dot, sub, List.map_cons, List.sum_cons, List.length_cons]
        push_cast
        ring
    have hin := inliers_eq s points
    have hzero : ∀ v : V3 ℝ, dot v c = 0 → ((points.filter fun p => Inlier s.normal s.const s.planeTol p).map fun p =>
        dot v (sub p (center c (inliers s points).1 (inliers s points).2))).sum = 0 := by
      intro v hv
      rw [hsum, hin]
      dsimp only
      generalize (points.filter fun p => Inlier s.normal s.const s.planeTol p) = l
      rw [center]
      split_ifs with h
      · have h' : (l.length : ℝ) ≠ 0 := by exact_mod_cast h.ne'
        simp only [dot, sub, smul, sdiv] at *
        field_simp
        linear_combination ((l.map V3.x).sum * c.x + (l.map V3.y).sum * c.y + (l.map V3.z).sum * c.z) * hv
      · have : l = [] := List.length_eq_zero_iff.1 (by omega)
        simp [this, dot]
    constructor
    · have := hzero a hf.ac
      simpa only [Frame.apply] using this
    · have := hzero b (by rw [hf.b]; simp only [dot, cross]; ring)
      simpa only [Frame.apply] using this

/-- C65 fails for a plane that does not contain the origin: the plane `z + 1 = 0` goes to height `-1`. -/
theorem C65_violated : ¬ C65_statement := by
  intro h
  obtain ⟨s', T, h1, h2, -, -, h5⟩ := h ⟨some [], ⟨0, 0, 1⟩, 1, none, 1⟩ [] rfl (by simp)
  obtain ⟨s'', T', g1, g2, -, -, -, -, g5, -⟩ := C65_frame_partial ⟨some [], ⟨0, 0, 1⟩, 1, none, 1⟩ [] rfl (by simp)
  rw [h1] at g1
  cases g1
  rw [h2] at g2
  cases g2
  have e1 := h5 ⟨0, 0, -1⟩ (by norm_num)
  have e2 := g5 ⟨0, 0, -1⟩ (by norm_num)
  rw [e1] at e2
  norm_num [len] at e2

/-- The stored plane has non-negative constant, and is the plane that was given. -/
theorem C65_coeffs (s : Aligner ℝ) (n : V3 ℝ) (d : ℝ) : 0 ≤ (s.setPlaneCoeffs n d).const ∧ (s.setPlaneCoeffs n d).cloud = s.cloud ∧
    ∀ p : V3 ℝ, ((s.setPlaneCoeffs n d).normal.x * p.x + (s.setPlaneCoeffs n d).normal.y * p.y + (s.setPlaneCoeffs n d).normal.z * p.z + (s.setPlaneCoeffs n d).const = 0 ↔
      n.x * p.x + n.y * p.y + n.z * p.z + d = 0) ∧ 
      (0 < d → (s.setPlaneCoeffs n d).normal = n) ∧ (d ≤ 0 → (s.setPlaneCoeffs n d).normal = ⟨-n.x, -n.y, -n.z⟩) := by
  unfold Aligner.setPlaneCoeffs
  split_ifs with h
  · exact ⟨h.le, rfl, fun p => ⟨Iff.rfl, fun _ => rfl, fun h' => absurd h (not_lt.2 h')⟩⟩
  · refine ⟨by dsimp only; linarith, rfl, fun p => ⟨?_, fun h' => absurd h' h, fun _ => by simp [smul]⟩⟩
    simp only [smul]
    constructor <;> intro h' <;> linarith

/-- With a null normal the transformation is not finite. -/
theorem C65_null_normal (s : Aligner ℝ) (points : List (V3 ℝ)) (hc : s.cloud = some points) (hn : s.normal = ⟨0, 0, 0⟩) :
    ∃ s', s.compute Real.sqrt = .ok s' ∧ s'.transform = none := by
  unfold Aligner.compute
  dsimp only
  rw [hc]
  refine ⟨_, rfl, ?_⟩
  have : inverse3 (axes Real.sqrt s.normal).1 (axes Real.sqrt s.normal).2.1 (axes Real.sqrt s.normal).2.2 = none := by
    have e : (axes Real.sqrt s.normal).2.2 = ⟨0, 0, 0⟩ := by
      rw [hn]
      simp [axes, normalize, dot]
    unfold inverse3
    rw [e]
    simp [cross, dot]
  dsimp only
  rw [this]
  rfl

/-- The output cloud has the transformed points, in order; without a cloud `compute` and `transform` dereference a null pointer. -/
theorem C65_transform (s : Aligner ℝ) : (∀ points T, s.cloud = some points → s.transform = some T → s.transformCloud = .ok (some (points.map T.apply))) ∧
    (s.cloud = none → s.compute Real.sqrt = .error (.ub .outOfBounds) ∧ s.transformCloud = .error (.ub .outOfBounds)) := by
  constructor
  · intro points T h1 h2
    unfold Aligner.transformCloud
    rw [h1, h2]
    rfl
  · intro h
    constructor
    · unfold Aligner.compute
      dsimp only
      rw [h]
    · unfold Aligner.transformCloud
      rw [h]

/-- The calls of a user on a new object: the cloud, the coefficients and the tolerance. The frame belongs to these coefficients (up to the sign) and the inliers to this tolerance. -/
theorem C65_sequence (points : List (V3 ℝ)) (n : V3 ℝ) (d tol : ℝ) (hn : n ≠ ⟨0, 0, 0⟩) :
    ∃ s' T, (((Aligner.new.setInputCloud points).setPlaneCoeffs n d).setPlaneTol tol).compute Real.sqrt = .ok s' ∧ s'.transform = some T ∧ Rigid T.apply ∧
    (∀ p : V3 ℝ, n.x * p.x + n.y * p.y + n.z * p.z + d = 0 → (T.apply p).z = - |d| / len n) ∧
    ((points.filter fun p => Inlier n d tol p).map fun p => (T.apply p).x).sum = 0 ∧ ((points.filter fun p => Inlier n d tol p).map fun p => (T.apply p).y).sum = 0 ∧
    s'.transformCloud = .ok (some (points.map T.apply)) := by
  by_cases h : d > 0
  · obtain ⟨s', T, h1, h2, h3, h4, -, -, h5, h6, h7⟩ := C65_frame_partial (((Aligner.new.setInputCloud points).setPlaneCoeffs n d).setPlaneTol tol) points
      (by simp only [Aligner.setPlaneCoeffs, if_pos h]; rfl) (by simpa only [Aligner.setPlaneCoeffs, if_pos h, Aligner.setPlaneTol] using hn)
    simp only [Aligner.setPlaneCoeffs, if_pos h, Aligner.setPlaneTol, Aligner.setInputCloud] at h3 h5 h6 h7 h1
    refine ⟨s', T, ?_, h2, h4, ?_, h6, h7, (C65_transform s').1 _ _ h3 h2⟩
    · simp only [Aligner.setPlaneCoeffs, if_pos h, Aligner.setPlaneTol, Aligner.setInputCloud]; exact h1
    · rw [abs_of_pos h]; exact h5
  · obtain ⟨s', T, h1, h2, h3, h4, -, -, h5, h6, h7⟩ := C65_frame_partial (((Aligner.new.setInputCloud points).setPlaneCoeffs n d).setPlaneTol tol) points
      (by simp only [Aligner.setPlaneCoeffs, if_neg h]; rfl) (by
        simp only [Aligner.setPlaneCoeffs, if_neg h, Aligner.setPlaneTol]
        obtain ⟨x, y, z⟩ := n
        simpa [smul] using hn)
    have hi : ∀ p, Inlier (smul (-1) n) (-d) tol p ↔ Inlier n d tol p := by
      intro p
      unfold Inlier
      rw [← abs_neg (n.x * p.x + n.y * p.y + n.z * p.z + d)]
      simp only [smul]
      ring_nf
    have hl : len (smul (-1) n) = len n := by simp only [len, smul]; ring_nf
    simp only [Aligner.setPlaneCoeffs, if_neg h, Aligner.setPlaneTol, Aligner.setInputCloud, hi, hl] at h3 h5 h6 h7 h1
    refine ⟨s', T, ?_, h2, h4, ?_, h6, h7, (C65_transform s').1 _ _ h3 h2⟩
    · simp only [Aligner.setPlaneCoeffs, if_neg h, Aligner.setPlaneTol, Aligner.setInputCloud]; exact h1
    · intro p hp
      rw [abs_of_nonpos (not_lt.1 h)]
      apply h5
      simp only [smul]
      linear_combination -hp

/-- The operations on transformations compose on the left. -/
theorem C65_compose (T : T3 ℝ) (v a b c p : V3 ℝ) : (T.pretranslate v).apply p = add (T.apply p) v ∧
    (T.prerotate a b c).apply p = ⟨dot a (T.apply p), dot b (T.apply p), dot c (T.apply p)⟩ := by
  constructor
  · simp only [T3.pretranslate, T3.apply, add, V3.mk.injEq]
    exact ⟨by ring, by ring, by ring⟩
  · simp only [T3.prerotate, T3.apply, add, smul, dot, V3.mk.injEq]
    exact ⟨by ring, by ring, by ring⟩

/-- Before `compute` the transformation is the identity. -/
theorem C65_initial (points : List (V3 ℝ)) : (Aligner.new.setInputCloud points).transformCloud = .ok (some points) := by
  have : ∀ p : V3 ℝ, (T3.id : T3 ℝ).apply p = p := fun p => by simp [T3.id, T3.apply, dot]
  have h : points.map (T3.id : T3 ℝ).apply = points := by rw [List.map_congr_left (g := id) fun p _ => this p, List.map_id]
  simp only [Aligner.transformCloud, Aligner.setInputCloud, Aligner.new, Option.map_some, h]

/-- The default tolerance is the largest `float` below 2 cm: it is closer to 2 cm than half a unit in the last place of `float`, `2 ^ -30`, and smaller. -/
theorem C65_tolerance : (Aligner.new : Aligner ℚ).planeTol < 1 / 50 ∧ 1 / 50 - (Aligner.new : Aligner ℚ).planeTol < 1 / 2 ^ 30 ∧
    ∃ m : ℕ, m < 2 ^ 24 ∧ (Aligner.new : Aligner ℚ).planeTol = m / 2 ^ 29 := by
  refine ⟨by norm_num [Aligner.new], by norm_num [Aligner.new], 10737418, by norm_num, by norm_num [Aligner.new]⟩

-- the plane `4 y + 3 z + 5 = 0`, with unit normal (0, 4/5, 3/5), and "square roots" of 25 and of 16/25: the inliers go to opposite points at height -1; the third point is not an inlier
example : ((((Aligner.new : Aligner ℚ).setInputCloud [⟨1, -2, 1⟩, ⟨3, 1, -3⟩, ⟨0, 0, 0⟩]).setPlaneCoeffs ⟨0, -4, -3⟩ (-5)).compute
    (fun x => if x = 25 then 5 else 4 / 5)).bind (fun s => s.transformCloud) =
    .ok (some [⟨5 / 2, -1, -1⟩, ⟨-5 / 2, 1, -1⟩, ⟨1 / 2, -2, 0⟩]) := by decide +kernel

end Verif.PlaneAligner
