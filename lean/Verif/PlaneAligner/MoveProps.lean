import Verif.PlaneAligner.Props

/-!
C168: what the transformation of the plane aligner (pcl/include/rofl/pcl/point_cloud_plane_aligner.h:75-157) depends on: the order of the points, the unit of the coefficients of the
plane, their sign, and the frame in which the cloud and the plane are given.
-/
namespace Verif.PlaneAligner
open Verif V3

/-- The image of `p` under the matrix of rows `a`, `b`, `c` followed by the translation `t`. -/
noncomputable def move (a b c t p : V3 ℝ) : V3 ℝ := ⟨dot a p + t.x, dot b p + t.y, dot c p + t.z⟩

/-- C168: if the cloud and the plane are moved together by a rotation (right-handed orthonormal rows `a`, `b`, `c`) and a translation `t`, the aligned points are the same. -/
def C168_statement : Prop := ∀ (s s' r r' : Aligner ℝ) (points : List (V3 ℝ)) (a b c t : V3 ℝ) (T T' : T3 ℝ), Frame a b c → s.normal ≠ ⟨0, 0, 0⟩ →
  s.cloud = some points → s'.cloud = some (points.map (move a b c t)) → s'.planeTol = s.planeTol →
  s'.normal = move a b c ⟨0, 0, 0⟩ s.normal → s'.const = s.const - dot (move a b c ⟨0, 0, 0⟩ s.normal) t →
  s.compute Real.sqrt = .ok r → s'.compute Real.sqrt = .ok r' → r.transform = some T → r'.transform = some T' →
  ∀ p, T'.apply (move a b c t p) = T.apply p

theorem dot_pos {n : V3 ℝ} (hn : n ≠ ⟨0, 0, 0⟩) : 0 < dot n n := by
  by_contra h
  apply hn
  obtain ⟨x, y, z⟩ := n
  simp only [dot] at h
  have hx := mul_self_nonneg x
  have hy := mul_self_nonneg y
  have hz := mul_self_nonneg z
  rw [mul_self_eq_zero.1 (by linarith : x * x = 0), mul_self_eq_zero.1 (by linarith : y * y = 0), mul_self_eq_zero.1 (by linarith : z * z = 0)]

theorem compute_eq {s : Aligner ℝ} {points : List (V3 ℝ)} (hc : s.cloud = some points) (hn : s.normal ≠ ⟨0, 0, 0⟩) :
    s.compute Real.sqrt = .ok { s with transform := some ((T3.id.pretranslate (smul (-1) (center (axes Real.sqrt s.normal).2.2 (inliers s points).1 (inliers s points).2))).prerotate
      (axes Real.sqrt s.normal).1 (axes Real.sqrt s.normal).2.1 (axes Real.sqrt s.normal).2.2) } := by
  unfold Aligner.compute
  dsimp only
  rw [hc]
  dsimp only
  rw [(frame (dot_pos hn)).1.inverse]
  rfl

/-- The product of two vectors from their coordinates in a frame. -/
theorem Frame.parseval {a b c : V3 ℝ} (h : Frame a b c) (u v : V3 ℝ) : dot u v = dot u a * dot v a + dot u b * dot v b + dot u c * dot v c := by
  have gram : dot u (cross c a) * dot v (cross c a) = dot c c * (dot a a * dot u v - dot v a * dot u a) - dot a c * (dot a c * dot u v - dot v a * dot u c) + dot v c * (dot a c * dot u a - dot a a * dot u c) := by
    simp only [dot, cross]
    ring
  rw [h.aa, h.cc, h.ac, ← h.b] at gram
  linear_combination -gram

theorem Frame.cross_ab {a b c : V3 ℝ} (h : Frame a b c) : cross a b = c := by
  have h1 := h.aa
  have h3 := h.ac
  rw [h.b]
  simp only [dot, cross] at *
  obtain ⟨cx, cy, cz⟩ := c
  congr 1
  · linear_combination cx * h1 - a.x * h3
  · linear_combination cy * h1 - a.y * h3
  · linear_combination cz * h1 - a.z * h3

theorem Frame.cross_bc {a b c : V3 ℝ} (h : Frame a b c) : cross b c = a := by
  have h2 := h.cc
  have h3 := h.ac
  rw [h.b]
  simp only [dot, cross] at *
  obtain ⟨ax, ay, az⟩ := a
  congr 1
  · linear_combination ax * h2 - c.x * h3
  · linear_combination ay * h2 - c.y * h3
  · linear_combination az * h2 - c.z * h3

theorem dot_comm' (u v : V3 ℝ) : dot u v = dot v u := by simp only [dot]; ring

theorem Frame.dot_move {a b c : V3 ℝ} (h : Frame a b c) (u v : V3 ℝ) : dot (move a b c ⟨0, 0, 0⟩ u) (move a b c ⟨0, 0, 0⟩ v) = dot u v := by
  rw [h.parseval u v, dot_comm' u a, dot_comm' u b, dot_comm' u c, dot_comm' v a, dot_comm' v b, dot_comm' v c]
  simp [move, dot]

theorem Frame.cross_move {a b c : V3 ℝ} (h : Frame a b c) (u v : V3 ℝ) : cross (move a b c ⟨0, 0, 0⟩ u) (move a b c ⟨0, 0, 0⟩ v) = move a b c ⟨0, 0, 0⟩ (cross u v) := by
  have key : ∀ p q : V3 ℝ, dot p u * dot q v - dot q u * dot p v = dot (cross p q) (cross u v) := by
    intro p q
    simp only [dot, cross]
    ring
  have e1 := key b c
  have e2 := key c a
  have e3 := key a b
  rw [h.cross_bc] at e1
  rw [← h.b] at e2
  rw [h.cross_ab] at e3
  simp only [move, cross, add_zero] at *
  rw [e1, e2, e3]

/-- The image of a frame under a rotation. -/
theorem Frame.move {a b c : V3 ℝ} (h : Frame a b c) {u v w : V3 ℝ} (g : Frame u v w) :
    Frame (move a b c ⟨0, 0, 0⟩ u) (PlaneAligner.move a b c ⟨0, 0, 0⟩ v) (PlaneAligner.move a b c ⟨0, 0, 0⟩ w) :=
  ⟨by rw [h.dot_move, g.aa], by rw [h.dot_move, g.cc], by rw [h.dot_move, g.ac], by rw [h.cross_move, g.b]⟩

/-- Sum and number of the inliers of the moved cloud. -/
theorem inliers_move {s s' : Aligner ℝ} {a b c t : V3 ℝ} (h : Frame a b c) (htol : s'.planeTol = s.planeTol) (hn : s'.normal = move a b c ⟨0, 0, 0⟩ s.normal)
    (hd : s'.const = s.const - dot (move a b c ⟨0, 0, 0⟩ s.normal) t) (points : List (V3 ℝ)) :
    inliers s' (points.map (move a b c t)) = (add (move a b c ⟨0, 0, 0⟩ (inliers s points).1) (smul (inliers s points).2 t), (inliers s points).2) := by
  have key : ∀ (points : List (V3 ℝ)) (acc : V3 ℝ × ℕ), (points.map (move a b c t)).foldl (fun acc p =>
      if |p.x * s'.normal.x + p.y * s'.normal.y + p.z * s'.normal.z + s'.const| < s.planeTol then (add acc.1 p, acc.2 + 1) else acc)
        (add (move a b c ⟨0, 0, 0⟩ acc.1) (smul acc.2 t), acc.2) =
      (fun q : V3 ℝ × ℕ => (add (move a b c ⟨0, 0, 0⟩ q.1) (smul q.2 t), q.2)) (points.foldl (fun acc p =>
      if |p.x * s.normal.x + p.y * s.normal.y + p.z * s.normal.z + s.const| < s.planeTol then (add acc.1 p, acc.2 + 1) else acc) acc) := by
    intro points
    induction points with
    | nil => intro acc; rfl
    | cons p points ih =>
      intro acc
      rw [List.map_cons, List.foldl_cons, List.foldl_cons]
      have e : (move a b c t p).x * s'.normal.x + (move a b c t p).y * s'.normal.y + (move a b c t p).z * s'.normal.z + s'.const =
          p.x * s.normal.x + p.y * s.normal.y + p.z * s.normal.z + s.const := by
        have := h.dot_move p s.normal
        rw [hd, hn]
        simp only [PlaneAligner.move, dot] at *
        linear_combination this
      rw [e]
      split_ifs with hin
      · rw [← ih]
        have e2 : add (add (PlaneAligner.move a b c ⟨0, 0, 0⟩ acc.1) (smul (acc.2 : ℝ) t)) (PlaneAligner.move a b c t p) =
            add (PlaneAligner.move a b c ⟨0, 0, 0⟩ (add acc.1 p)) (smul ((acc.2 + 1 : ℕ) : ℝ) t) := by
          simp only [add, smul, PlaneAligner.move, dot, V3.mk.injEq]
          push_cast
          exact ⟨by ring, by ring, by ring⟩
        rw [← e2]
      · exact ih acc
  have := key points (⟨0, 0, 0⟩, 0)
  have e0 : add (move a b c ⟨0, 0, 0⟩ ⟨0, 0, 0⟩) (smul ((0 : ℕ) : ℝ) t) = ⟨0, 0, 0⟩ := by simp [add, PlaneAligner.move, smul, dot]
  unfold inliers
  rw [htol]
  dsimp only at this
  rw [e0] at this
  exact this

/-- The aligned points of the moved scene, with the angle between the horizontal axes. -/
theorem move_core {s s' r r' : Aligner ℝ} {points : List (V3 ℝ)} {a b c t : V3 ℝ} {T T' : T3 ℝ} (h : Frame a b c) (hn0 : s.normal ≠ ⟨0, 0, 0⟩)
    (hc : s.cloud = some points) (hc' : s'.cloud = some (points.map (move a b c t))) (htol : s'.planeTol = s.planeTol)
    (hn : s'.normal = move a b c ⟨0, 0, 0⟩ s.normal) (hd : s'.const = s.const - dot (move a b c ⟨0, 0, 0⟩ s.normal) t)
    (hr : s.compute Real.sqrt = .ok r) (hr' : s'.compute Real.sqrt = .ok r') (hT : r.transform = some T) (hT' : r'.transform = some T')
    (hin : t = ⟨0, 0, 0⟩ ∨ ∃ p ∈ points, Inlier s.normal s.const s.planeTol p) :
    ∃ u v : ℝ, u = dot (axes Real.sqrt s'.normal).1 (move a b c ⟨0, 0, 0⟩ (axes Real.sqrt s.normal).1) ∧
      v = dot (axes Real.sqrt s'.normal).1 (move a b c ⟨0, 0, 0⟩ (axes Real.sqrt s.normal).2.1) ∧ u ^ 2 + v ^ 2 = 1 ∧
      ∀ p, T'.apply (move a b c t p) = ⟨u * (T.apply p).x + v * (T.apply p).y, - v * (T.apply p).x + u * (T.apply p).y,
        (T.apply p).z + dot s'.normal t / len s.normal⟩ := by
  have hdot : dot s'.normal s'.normal = dot s.normal s.normal := by rw [hn, h.dot_move]
  have hpos := dot_pos hn0
  have hn0' : s'.normal ≠ ⟨0, 0, 0⟩ := by
    intro e
    rw [e] at hdot
    simp only [dot] at hdot hpos
    linarith
  have hlen : len s.normal = Real.sqrt (dot s.normal s.normal) := by
    unfold len dot
    congr 1
    ring
  rw [compute_eq hc hn0] at hr
  rw [compute_eq hc' hn0'] at hr'
  obtain rfl := Except.ok.inj hr
  obtain rfl := Except.ok.inj hr'
  obtain rfl := Option.some.inj hT
  obtain rfl := Option.some.inj hT'
  obtain ⟨hf, hz⟩ := frame hpos
  obtain ⟨hf', hz'⟩ := frame (dot_pos hn0')
  rw [hdot] at hz'
  have hC : (axes Real.sqrt s'.normal).2.2 = move a b c ⟨0, 0, 0⟩ (axes Real.sqrt s.normal).2.2 := by
    rw [hz', hz, hn]
    simp only [sdiv, PlaneAligner.move, dot, V3.mk.injEq, add_zero]
    exact ⟨by ring, by ring, by ring⟩
  have hin' : t = ⟨0, 0, 0⟩ ∨ 0 < (inliers s points).2 := by
    refine hin.imp id fun ⟨p, hp, hi⟩ => ?_
    rw [inliers_eq]
    exact List.length_pos_of_mem (List.mem_filter.2 ⟨hp, by simpa using hi⟩)
  rw [inliers_move h htol hn hd]
  have hts : dot s'.normal t / len s.normal = dot (axes Real.sqrt s'.normal).2.2 t := by
    rw [hz', hlen]
    simp only [dot, sdiv]
    ring
  rw [hts]
  dsimp only at *
  clear hz hz' hts hlen hpos hdot hr hr' hin
  generalize (axes Real.sqrt s.normal).1 = A at *
  generalize (axes Real.sqrt s.normal).2.1 = B at *
  generalize (axes Real.sqrt s.normal).2.2 = C at *
  generalize (axes Real.sqrt s'.normal).1 = A' at *
  generalize (axes Real.sqrt s'.normal).2.1 = B' at *
  generalize (axes Real.sqrt s'.normal).2.2 = C' at *
  subst hC
  have hg := h.move hf
  have hAC : dot A' (move a b c ⟨0, 0, 0⟩ C) = 0 := hf'.ac
  have hctr : center (move a b c ⟨0, 0, 0⟩ C) (add (move a b c ⟨0, 0, 0⟩ (inliers s points).1) (smul ((inliers s points).2 : ℝ) t)) (inliers s points).2 =
      add (move a b c ⟨0, 0, 0⟩ (center C (inliers s points).1 (inliers s points).2)) (sub t (smul (dot t (move a b c ⟨0, 0, 0⟩ C)) (move a b c ⟨0, 0, 0⟩ C))) := by
    have hS := h.dot_move (inliers s points).1 C
    generalize (inliers s points).1 = S at *
    generalize (inliers s points).2 = m at *
    unfold center
    split_ifs with hm
    · have hm' : (m : ℝ) ≠ 0 := by exact_mod_cast hm.ne'
      have e : dot (add (move a b c ⟨0, 0, 0⟩ S) (smul (m : ℝ) t)) (move a b c ⟨0, 0, 0⟩ C) = dot S C + m * dot t (move a b c ⟨0, 0, 0⟩ C) := by
        rw [← hS]
        simp only [dot, add, smul]
        ring
      rw [e]
      generalize dot t (move a b c ⟨0, 0, 0⟩ C) = k
      generalize dot S C = l
      simp only [add, sub, smul, sdiv, PlaneAligner.move, dot, V3.mk.injEq]
      refine ⟨?_, ?_, ?_⟩ <;> field_simp <;> ring
    · obtain rfl := hin'.resolve_right hm
      simp [add, sub, smul, dot]
  rw [hctr]
  generalize center C (inliers s points).1 (inliers s points).2 = o
  have hpt : ∀ p, sub (move a b c t p) (add (move a b c ⟨0, 0, 0⟩ o) (sub t (smul (dot t (move a b c ⟨0, 0, 0⟩ C)) (move a b c ⟨0, 0, 0⟩ C)))) =
      add (move a b c ⟨0, 0, 0⟩ (sub p o)) (smul (dot t (move a b c ⟨0, 0, 0⟩ C)) (move a b c ⟨0, 0, 0⟩ C)) := by
    intro p
    generalize dot t (move a b c ⟨0, 0, 0⟩ C) = k
    simp only [add, sub, smul, PlaneAligner.move, dot, V3.mk.injEq]
    exact ⟨by ring, by ring, by ring⟩
  have hlin : ∀ x y z : V3 ℝ, ∀ k : ℝ, dot x (add y (smul k z)) = dot x y + k * dot x z := by
    intro x y z k
    simp only [dot, add, smul]
    ring
  have hB'C : dot B' (move a b c ⟨0, 0, 0⟩ C) = 0 := by
    rw [hf'.b]
    simp only [dot, cross]
    ring
  have hCC : dot (move a b c ⟨0, 0, 0⟩ C) (move a b c ⟨0, 0, 0⟩ C) = 1 := hg.cc
  have hBA : dot B' (move a b c ⟨0, 0, 0⟩ A) = - dot A' (move a b c ⟨0, 0, 0⟩ B) := by
    rw [hf'.b, hg.b]
    simp only [dot, cross]
    ring
  have hBB : dot B' (move a b c ⟨0, 0, 0⟩ B) = dot A' (move a b c ⟨0, 0, 0⟩ A) := by
    have e : dot (cross (move a b c ⟨0, 0, 0⟩ C) A') (cross (move a b c ⟨0, 0, 0⟩ C) (move a b c ⟨0, 0, 0⟩ A)) =
        dot (move a b c ⟨0, 0, 0⟩ C) (move a b c ⟨0, 0, 0⟩ C) * dot A' (move a b c ⟨0, 0, 0⟩ A) -
          dot (move a b c ⟨0, 0, 0⟩ A) (move a b c ⟨0, 0, 0⟩ C) * dot A' (move a b c ⟨0, 0, 0⟩ C) := by
      simp only [dot, cross]
      ring
    rw [hf'.b, hg.b, e, hCC, hAC]
    ring
  refine ⟨_, _, rfl, rfl, ?_, fun p => ?_⟩
  · have := hg.parseval A' A'
    rw [hf'.aa, hAC] at this
    linear_combination -this
  · rw [Frame.apply, Frame.apply, hpt, hlin, hlin, hlin, hAC, hB'C, hCC, h.dot_move]
    have e1 := hg.parseval A' (move a b c ⟨0, 0, 0⟩ (sub p o))
    have e2 := hg.parseval B' (move a b c ⟨0, 0, 0⟩ (sub p o))
    simp only [h.dot_move] at e1 e2
    rw [hAC] at e1
    rw [hB'C, hBA, hBB] at e2
    rw [e1, e2, dot_comm' A (sub p o), dot_comm' B (sub p o), dot_comm' t]
    simp only [V3.mk.injEq]
    exact ⟨by ring, by ring, by ring⟩

/-- C168, part: if the cloud and the plane are moved together, the aligned points are turned around the axis z and raised by the component of the translation along the normal (with a
translation, at least one point is an inlier). Missing: the turn is not the identity and the height is not 0, see `C168_violated`, `C168_height_violated`. -/
theorem C168_move_partial {s s' r r' : Aligner ℝ} {points : List (V3 ℝ)} {a b c t : V3 ℝ} {T T' : T3 ℝ} (h : Frame a b c) (hn0 : s.normal ≠ ⟨0, 0, 0⟩)
    (hc : s.cloud = some points) (hc' : s'.cloud = some (points.map (move a b c t))) (htol : s'.planeTol = s.planeTol)
    (hn : s'.normal = move a b c ⟨0, 0, 0⟩ s.normal) (hd : s'.const = s.const - dot (move a b c ⟨0, 0, 0⟩ s.normal) t)
    (hr : s.compute Real.sqrt = .ok r) (hr' : s'.compute Real.sqrt = .ok r') (hT : r.transform = some T) (hT' : r'.transform = some T')
    (hin : t = ⟨0, 0, 0⟩ ∨ ∃ p ∈ points, Inlier s.normal s.const s.planeTol p) :
    ∃ u v : ℝ, u ^ 2 + v ^ 2 = 1 ∧ ∀ p, T'.apply (move a b c t p) = ⟨u * (T.apply p).x + v * (T.apply p).y, - v * (T.apply p).x + u * (T.apply p).y,
      (T.apply p).z + dot s'.normal t / len s.normal⟩ := by
  obtain ⟨u, v, -, -, h1, h2⟩ := move_core h hn0 hc hc' htol hn hd hr hr' hT hT' hin
  exact ⟨u, v, h1, h2⟩

/-- C168: a scene moved by a translation (with at least one inlier) is aligned to the same points exactly if the translation is parallel to the plane. -/
theorem C168_translate_iff {s s' r r' : Aligner ℝ} {points : List (V3 ℝ)} {t : V3 ℝ} {T T' : T3 ℝ} (hn0 : s.normal ≠ ⟨0, 0, 0⟩)
    (hc : s.cloud = some points) (hc' : s'.cloud = some (points.map fun p => add p t)) (htol : s'.planeTol = s.planeTol)
    (hn : s'.normal = s.normal) (hd : s'.const = s.const - dot s.normal t)
    (hr : s.compute Real.sqrt = .ok r) (hr' : s'.compute Real.sqrt = .ok r') (hT : r.transform = some T) (hT' : r'.transform = some T')
    (hin : ∃ p ∈ points, Inlier s.normal s.const s.planeTol p) : (∀ p, T'.apply (add p t) = T.apply p) ↔ dot s.normal t = 0 := by
  have h : Frame ⟨1, 0, 0⟩ ⟨0, 1, 0⟩ ⟨0, 0, 1⟩ := ⟨by norm_num [dot], by norm_num [dot], by norm_num [dot], by norm_num [cross]⟩
  have hm : ∀ q : V3 ℝ, move ⟨1, 0, 0⟩ ⟨0, 1, 0⟩ ⟨0, 0, 1⟩ ⟨0, 0, 0⟩ q = q := fun q => by simp [move, dot]
  have hm' : ∀ q : V3 ℝ, move ⟨1, 0, 0⟩ ⟨0, 1, 0⟩ ⟨0, 0, 1⟩ t q = add q t := fun q => by simp [move, dot, add]
  obtain ⟨u, v, hu, hv, -, key⟩ := move_core (t := t) h hn0 hc (by rw [hc', show (fun p => add p t) = move ⟨1, 0, 0⟩ ⟨0, 1, 0⟩ ⟨0, 0, 1⟩ t from (funext hm').symm]) htol (by rw [hm]; exact hn) (by rw [hm]; exact hd) hr hr' hT hT' (Or.inr hin)
  have hf := (frame (dot_pos hn0)).1
  rw [hn, hm] at hu hv
  rw [hf.aa] at hu
  have hAB : dot (axes Real.sqrt s.normal).1 (axes Real.sqrt s.normal).2.1 = 0 := by
    rw [hf.b]
    simp only [dot, cross]
    ring
  rw [hAB] at hv
  subst hu hv
  have hl : len s.normal ≠ 0 := by
    unfold len
    have := dot_pos hn0
    refine (Real.sqrt_pos.2 ?_).ne'
    simp only [dot] at this
    linarith [this]
  simp only [hm'] at key
  constructor
  · intro e
    have e1 := congrArg V3.z ((key ⟨0, 0, 0⟩).symm.trans (e ⟨0, 0, 0⟩))
    rw [hn] at e1
    simp only [add_eq_left, div_eq_zero_iff] at e1
    exact e1.resolve_right hl
  · intro e p
    rw [key, hn, e]
    simp

/-- C168: the order of the points does not matter. -/
theorem C168_order {K : Type} [Field K] [LinearOrder K] (sqrt : K → K) (s : Aligner K) {points points' : List (V3 K)} (h : points.Perm points') :
    ∃ r r', (s.setInputCloud points).compute sqrt = .ok r ∧ (s.setInputCloud points').compute sqrt = .ok r' ∧ r.transform = r'.transform := by
  have hco : ∀ pts, (s.setInputCloud pts).compute sqrt = .ok { s.setInputCloud pts with
      transform := (inverse3 (axes sqrt s.normal).1 (axes sqrt s.normal).2.1 (axes sqrt s.normal).2.2).map fun R => (T3.id.pretranslate
        (smul (-1) (center (axes sqrt s.normal).2.2 (inliers (s.setInputCloud pts) pts).1 (inliers (s.setInputCloud pts) pts).2))).prerotate R.1 R.2.1 R.2.2 } := fun _ => rfl
  refine ⟨_, _, hco _, hco _, ?_⟩
  have e : inliers (s.setInputCloud points) points = inliers (s.setInputCloud points') points' := by
    unfold inliers
    refine h.foldl_eq' ?_ _
    intro p _ q _ acc
    split_ifs <;> simp only [add, Prod.mk.injEq, V3.mk.injEq, and_true]
    exact ⟨by ring, by ring, by ring⟩
  dsimp only
  rw [e]

/-- C168 with a motion that keeps the plane: the scene is turned by 90° around the vertical axis and the aligned points are turned. -/
theorem C168_violated : ¬ C168_statement := by
  intro h
  have hax : axes Real.sqrt (⟨0, 0, 1⟩ : V3 ℝ) = (⟨1, 0, 0⟩, ⟨0, 1, 0⟩, ⟨0, 0, 1⟩) := by
    simp [axes, normalize, dot, sdiv, maxIdx, axisX, sub, smul, cross]
  have hne : (⟨0, 0, 1⟩ : V3 ℝ) ≠ ⟨0, 0, 0⟩ := by simp
  have hn : move ⟨0, -1, 0⟩ ⟨1, 0, 0⟩ ⟨0, 0, 1⟩ ⟨0, 0, 0⟩ ⟨0, 0, 1⟩ = (⟨0, 0, 1⟩ : V3 ℝ) := by simp [move, dot]
  have hp : [(⟨1, 0, 0⟩ : V3 ℝ), ⟨-1, 0, 0⟩].map (move ⟨0, -1, 0⟩ ⟨1, 0, 0⟩ ⟨0, 0, 1⟩ ⟨0, 0, 0⟩) = [⟨0, 1, 0⟩, ⟨0, -1, 0⟩] := by simp [move, dot]
  have key := h ⟨some [⟨1, 0, 0⟩, ⟨-1, 0, 0⟩], ⟨0, 0, 1⟩, 0, none, 1⟩ ⟨some [⟨0, 1, 0⟩, ⟨0, -1, 0⟩], ⟨0, 0, 1⟩, 0, none, 1⟩ _ _ [⟨1, 0, 0⟩, ⟨-1, 0, 0⟩]
    ⟨0, -1, 0⟩ ⟨1, 0, 0⟩ ⟨0, 0, 1⟩ ⟨0, 0, 0⟩ _ _ ⟨by norm_num [dot], by norm_num [dot], by norm_num [dot], by norm_num [cross]⟩ hne rfl (by rw [hp]) rfl hn.symm
    (by rw [hn]; norm_num [dot]) (compute_eq rfl hne) (compute_eq rfl hne) rfl rfl ⟨1, 0, 0⟩
  rw [Frame.apply, Frame.apply] at key
  simp only [hax] at key
  norm_num [inliers, center, move, dot, sub, add, smul, sdiv] at key

/-- C168: the unit and the sign of the coefficients of a plane not through the origin do not matter, if the tolerance is in the same unit. -/
theorem C168_coeffs (s : Aligner ℝ) (points : List (V3 ℝ)) (n : V3 ℝ) (d tol k : ℝ) (hn : n ≠ ⟨0, 0, 0⟩) (hk : k ≠ 0) (hd : d ≠ 0 ∨ 0 < k) :
    ∃ r r', ((((s.setInputCloud points).setPlaneTol tol).setPlaneCoeffs n d).compute Real.sqrt) = .ok r ∧
      ((((s.setInputCloud points).setPlaneTol (|k| * tol)).setPlaneCoeffs (smul k n) (k * d)).compute Real.sqrt) = .ok r' ∧ r'.transform = r.transform := by
  have main : ∀ (s s' : Aligner ℝ) (m : V3 ℝ) (j : ℝ), 0 < j → s.normal = m → s'.normal = smul j m → m ≠ ⟨0, 0, 0⟩ → s'.const = j * s.const → s'.planeTol = j * s.planeTol →
      s.cloud = some points → s'.cloud = some points → ∃ r r', s.compute Real.sqrt = .ok r ∧ s'.compute Real.sqrt = .ok r' ∧ r'.transform = r.transform := by
    intro s s' m j hj h1 h2 hm h3 h4 h5 h6
    have hm' : smul j m ≠ ⟨0, 0, 0⟩ := by
      intro e
      apply hm
      obtain ⟨x, y, z⟩ := m
      simp only [smul, V3.mk.injEq, mul_eq_zero, hj.ne', false_or] at e
      rw [e.1, e.2.1, e.2.2]
    have hax : axes Real.sqrt (smul j m) = axes Real.sqrt m := by
      have : normalize Real.sqrt (smul j m) = normalize Real.sqrt m := by
        rw [(normalize_unit (dot_pos hm)).2, (normalize_unit (dot_pos hm')).2]
        have e : dot (smul j m) (smul j m) = j ^ 2 * dot m m := by
          simp only [dot, smul]
          ring
        have hs := (Real.sqrt_pos.2 (dot_pos hm)).ne'
        rw [e, Real.sqrt_mul (sq_nonneg j), Real.sqrt_sq hj.le]
        simp only [sdiv, smul, V3.mk.injEq]
        exact ⟨mul_div_mul_left _ _ hj.ne', mul_div_mul_left _ _ hj.ne', mul_div_mul_left _ _ hj.ne'⟩
      unfold axes
      rw [this]
    have hi : inliers s' points = inliers s points := by
      unfold inliers
      congr 1
      funext acc p
      have e : p.x * s'.normal.x + p.y * s'.normal.y + p.z * s'.normal.z + s'.const = j * (p.x * s.normal.x + p.y * s.normal.y + p.z * s.normal.z + s.const) := by
        rw [h1, h2, h3]
        simp only [smul]
        ring
      rw [e, abs_mul, abs_of_pos hj, h4]
      simp only [mul_lt_mul_iff_right₀ hj]
    refine ⟨_, _, compute_eq h5 (by rw [h1]; exact hm), compute_eq h6 (by rw [h2]; exact hm'), ?_⟩
    dsimp only
    rw [hi, h1, h2, hax]
  have hneg : ∀ m : V3 ℝ, m ≠ ⟨0, 0, 0⟩ → smul (-1) m ≠ ⟨0, 0, 0⟩ := by
    intro m hm e
    apply hm
    obtain ⟨x, y, z⟩ := m
    simp only [smul, V3.mk.injEq, mul_eq_zero, neg_eq_zero, one_ne_zero, false_or] at e
    rw [e.1, e.2.1, e.2.2]
  have hss : ∀ (i j : ℝ) (m : V3 ℝ), smul i (smul j m) = smul (i * j) m := by
    intro i j m
    simp only [smul, V3.mk.injEq]
    exact ⟨by ring, by ring, by ring⟩
  unfold Aligner.setPlaneCoeffs
  rcases lt_or_gt_of_ne hk with hk' | hk'
  · have hd' := hd.resolve_right (not_lt.2 hk'.le)
    rw [abs_of_neg hk']
    rcases lt_or_gt_of_ne hd' with h | h
    · rw [if_neg (not_lt.2 h.le), if_pos (mul_pos_of_neg_of_neg hk' h)]
      exact main _ _ (smul (-1) n) (-k) (neg_pos.2 hk') rfl (by rw [hss, neg_mul_neg, mul_one]) (hneg n hn) (by show k * d = -k * -d; ring) rfl rfl rfl
    · rw [if_pos h, if_neg (not_lt.2 (mul_neg_of_neg_of_pos hk' h).le)]
      exact main _ _ n (-k) (neg_pos.2 hk') rfl (by rw [hss, neg_one_mul]) hn (by show -(k * d) = -k * d; ring) rfl rfl rfl
  · rw [abs_of_pos hk']
    by_cases h : d > 0
    · rw [if_pos h, if_pos (mul_pos hk' h)]
      exact main _ _ n k hk' rfl rfl hn rfl rfl rfl rfl
    · rw [if_neg h, if_neg (not_lt.2 (mul_nonpos_of_nonneg_of_nonpos hk'.le (not_lt.1 h)))]
      exact main _ _ (smul (-1) n) k hk' rfl (by show smul (-1) (smul k n) = smul k (smul (-1) n); rw [hss, hss, mul_comm k]) (hneg n hn) (by show -(k * d) = k * -d; ring) rfl rfl rfl

/-- C168: with the coefficients of a plane and the tolerance in another unit, possibly with the opposite sign, the transformation is the same exactly if the sign does not change or the
plane does not contain the origin. -/
theorem C168_coeffs_iff (s : Aligner ℝ) (points : List (V3 ℝ)) (n : V3 ℝ) (d tol k : ℝ) (hn : n ≠ ⟨0, 0, 0⟩) (hk : k ≠ 0) :
    (∃ r r', ((((s.setInputCloud points).setPlaneTol tol).setPlaneCoeffs n d).compute Real.sqrt) = .ok r ∧
      ((((s.setInputCloud points).setPlaneTol (|k| * tol)).setPlaneCoeffs (smul k n) (k * d)).compute Real.sqrt) = .ok r' ∧ r'.transform = r.transform) ↔ d ≠ 0 ∨ 0 < k := by
  refine ⟨?_, C168_coeffs s points n d tol k hn hk⟩
  rintro ⟨r, r', h1, h2, h3⟩
  by_contra hcon
  rw [not_or, not_not, not_lt] at hcon
  obtain ⟨rfl, hk0⟩ := hcon
  have hk' : k < 0 := lt_of_le_of_ne hk0 hk
  have hsm : ∀ (j : ℝ), j ≠ 0 → smul j n ≠ ⟨0, 0, 0⟩ := by
    intro j hj e
    apply hn
    obtain ⟨x, y, z⟩ := n
    simp only [smul, V3.mk.injEq, mul_eq_zero, hj, false_or] at e
    rw [e.1, e.2.1, e.2.2]
  have hss : smul (-1) (smul k n) = smul (-k) n := by
    simp only [smul, V3.mk.injEq]
    exact ⟨by ring, by ring, by ring⟩
  unfold Aligner.setPlaneCoeffs at h1 h2
  rw [if_neg (lt_irrefl _)] at h1
  rw [mul_zero, if_neg (lt_irrefl _), hss] at h2
  obtain ⟨_, T, c1, t1, -, -, z1, -⟩ := C65_frame_partial _ points rfl (show smul (-1) n ≠ _ from hsm _ (by norm_num)) |> fun h => h1 ▸ h
  obtain ⟨_, T', c2, t2, -, -, z2, -⟩ := C65_frame_partial _ points rfl (show smul (-k) n ≠ _ from hsm _ (by simpa using hk)) |> fun h => h2 ▸ h
  obtain rfl := Except.ok.inj c1
  obtain rfl := Except.ok.inj c2
  rw [t1, t2] at h3
  obtain rfl := Option.some.inj h3
  have hlen : ∀ j : ℝ, len (smul j n) = |j| * len n := by
    intro j
    unfold len
    rw [← Real.sqrt_sq_eq_abs, ← Real.sqrt_mul (sq_nonneg j)]
    congr 1
    simp only [smul]
    ring
  have hl : 0 < len n := by
    unfold len
    have := dot_pos hn
    refine Real.sqrt_pos.2 ?_
    simp only [dot] at this
    linarith [this]
  have e := z1.symm.trans z2
  dsimp only at e
  simp only [hlen, abs_neg, abs_one, one_mul, abs_of_neg hk'] at e
  simp only [smul, V3.mk.injEq] at e
  have hnk : -k ≠ 0 := by simpa using hk
  have g : ∀ w : ℝ, -1 * w / len n = -k * w / (-k * len n) → w = 0 := by
    intro w hw
    rw [mul_div_mul_left _ _ hnk, div_left_inj' hl.ne'] at hw
    linarith
  apply hn
  obtain ⟨x, y, z⟩ := n
  rw [g x e.1, g y e.2.1, g z e.2.2]

/-- The tolerance is compared with the value of the equation of the plane, not with the distance: with the same tolerance and the equation in another unit the center is another one. -/
theorem C168_tol_violated : ¬ ∀ (s : Aligner ℝ) (points : List (V3 ℝ)) (n : V3 ℝ) (d k : ℝ) (r r' : Aligner ℝ), n ≠ ⟨0, 0, 0⟩ → 0 < k →
    (((s.setInputCloud points).setPlaneCoeffs n d).compute Real.sqrt) = .ok r →
    (((s.setInputCloud points).setPlaneCoeffs (smul k n) (k * d)).compute Real.sqrt) = .ok r' → r'.transform = r.transform := by
  intro h
  have hax : ∀ j : ℝ, 0 < j → axes Real.sqrt (⟨0, 0, j⟩ : V3 ℝ) = (⟨1, 0, 0⟩, ⟨0, 1, 0⟩, ⟨0, 0, 1⟩) := by
    intro j hj
    simp [axes, normalize, dot, sdiv, maxIdx, axisX, sub, smul, cross, hj, hj.ne', abs_of_pos hj, Real.sqrt_mul_self hj.le]
  have key := h ⟨none, ⟨0, 0, 1⟩, 0, none, 1⟩ [⟨4, 0, 2⟩, ⟨0, 0, -1⟩] ⟨0, 0, 1⟩ 1 (1 / 4) _ _ (by simp) (by norm_num)
    (by rw [Aligner.setPlaneCoeffs, if_pos one_pos]; exact compute_eq rfl (by simp))
    (by rw [Aligner.setPlaneCoeffs, if_pos (by norm_num)]; exact compute_eq rfl (by simp [smul]))
  have e := congrArg (fun T : Option (T3 ℝ) => T.map fun T => (T.apply ⟨0, 0, 0⟩).x) key
  dsimp only at e
  rw [Option.map_some, Option.map_some, Frame.apply, Frame.apply] at e
  norm_num [smul, hax] at e
  norm_num [inliers, center, dot, sub, add, smul, sdiv, Aligner.setInputCloud] at e

/-- Two points at distances 3 and 0 from the plane `z = -1`. -/
example : inliers (⟨none, ⟨0, 0, 1⟩, 1, none, 1⟩ : Aligner ℚ) [⟨4, 0, 2⟩, ⟨0, 0, -1⟩] = (⟨0, 0, -1⟩, 1) := by decide +kernel

end Verif.PlaneAligner
