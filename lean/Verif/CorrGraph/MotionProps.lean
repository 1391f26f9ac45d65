import Verif.CorrGraph.CliqueProps
import Verif.Geometry2.Props
import Mathlib.Analysis.Complex.Norm

/-! Property theorems C152 (see properties.jsonl): points that are moved by a rigid motion. -/
namespace Verif.CorrGraph
open Verif LabelSet Spec
open _root_.Verif.Functions.Spec (real)
open _root_.Verif.Geometry2 (V2 poseToIsometry2 C76_pose)

/-- The Euclidean norm of a vector, as the functor of geometry/app/test_correspondence_graph.cpp:80-82. -/
noncomputable def norm2 (v : V2 ℝ) : ℝ := Real.sqrt (v.1 ^ 2 + v.2 ^ 2)

/-- The distance functor on the items of a sequence of points, test_correspondence_graph.cpp:80-82. -/
noncomputable def distOf (pts : ℕ → V2 ℝ) (i j : ℕ) : ℝ := norm2 ((pts j).1 - (pts i).1, (pts j).2 - (pts i).2)

/-- The source points of `A` are moved by the pose `(x, y, θ)`, up to an error `η`, to the different destination points given by `σ`; the other points are arbitrary. The tolerance is larger than
twice the error and the points of `A` are farther from each other than the minimum distance. -/
structure Moved (nS nD : ℕ) (src dst : ℕ → V2 ℝ) (A : Finset ℕ) (σ : ℕ → ℕ) (x y θ η tol dmin : ℝ) : Prop where
  srcs : ∀ i ∈ A, i < nS
  dsts : ∀ i ∈ A, σ i < nD
  inj : ∀ i ∈ A, ∀ j ∈ A, σ i = σ j → i = j
  near : ∀ i ∈ A, norm2 ((dst (σ i)).1 - ((poseToIsometry2 real x y θ).apply (src i)).1, (dst (σ i)).2 - ((poseToIsometry2 real x y θ).apply (src i)).2) ≤ η
  tol : 2 * η < tol
  far : ∀ i ∈ A, ∀ j ∈ A, i ≠ j → dmin < distOf src i j

/-- C152: `associate` returns a set of associations that contains all the correct ones. -/
def C152_statement : Prop :=
  ∀ (srt : List (PairDistance ℝ) → List (PairDistance ℝ)) (nS nD : ℕ) (src dst : ℕ → V2 ℝ) (A : Finset ℕ) (σ : ℕ → ℕ) (x y θ η tol dmin : ℝ), SortSpec srt → nS * nD ≤ 2147483647 →
    Moved nS nD src dst A σ x y θ η tol dmin → A.Nonempty →
    ∃ g' st assoc, (setup srt tol dmin nS nD (distOf src) (distOf dst)).associate false 0 = .ok (g', st, assoc) ∧
      ∃ l ∈ assoc, ∀ i ∈ A, ((i : ℤ), (σ i : ℤ)) ∈ l

theorem norm2_complex (v : V2 ℝ) : norm2 v = ‖(⟨v.1, v.2⟩ : ℂ)‖ := by
  rw [norm2, Complex.norm_def, Complex.normSq_mk]
  ring_nf

theorem distOf_comm (pts : ℕ → V2 ℝ) (i j : ℕ) : distOf pts i j = distOf pts j i := by
  simp only [distOf, norm2]
  congr 1
  ring

theorem dist2_distOf (pts : ℕ → V2 ℝ) (i j : ℕ) : dist2 (distOf pts) i j = distOf pts i j := by
  rw [dist2]
  rcases le_total i j with h | h
  · rw [min_eq_left h, max_eq_right h]
  · rw [min_eq_right h, max_eq_left h, distOf_comm]

section
variable {srt : List (PairDistance ℝ) → List (PairDistance ℝ)} {nS nD : ℕ} {src dst : ℕ → V2 ℝ} {A : Finset ℕ} {σ : ℕ → ℕ} {x y θ η tol dmin : ℝ}

/-- The distances of the moved points differ by at most twice the error. -/
theorem moved_dist (h : Moved nS nD src dst A σ x y θ η tol dmin) {i j : ℕ} (hi : i ∈ A) (hj : j ∈ A) : |distOf src i j - distOf dst (σ i) (σ j)| < tol := by
  have e : distOf src i j = norm2 (((poseToIsometry2 real x y θ).apply (src j)).1 - ((poseToIsometry2 real x y θ).apply (src i)).1,
      ((poseToIsometry2 real x y θ).apply (src j)).2 - ((poseToIsometry2 real x y θ).apply (src i)).2) := by
    rw [distOf, norm2, norm2]
    exact congrArg Real.sqrt (C76_pose x y θ (src j) (src i) 0).2.1.symm
  have hi' := h.near i hi
  have hj' := h.near j hj
  rw [e, distOf]
  generalize (poseToIsometry2 real x y θ).apply (src i) = p at *
  generalize (poseToIsometry2 real x y θ).apply (src j) = q at *
  rw [norm2_complex] at *
  rw [norm2_complex]
  have t := abs_norm_sub_norm_le (⟨q.1 - p.1, q.2 - p.2⟩ : ℂ) ⟨(dst (σ j)).1 - (dst (σ i)).1, (dst (σ j)).2 - (dst (σ i)).2⟩
  have t2 := norm_sub_le (⟨(dst (σ i)).1 - p.1, (dst (σ i)).2 - p.2⟩ : ℂ) ⟨(dst (σ j)).1 - q.1, (dst (σ j)).2 - q.2⟩
  have e3 : (⟨q.1 - p.1, q.2 - p.2⟩ : ℂ) - ⟨(dst (σ j)).1 - (dst (σ i)).1, (dst (σ j)).2 - (dst (σ i)).2⟩ =
      ⟨(dst (σ i)).1 - p.1, (dst (σ i)).2 - p.2⟩ - ⟨(dst (σ j)).1 - q.1, (dst (σ j)).2 - q.2⟩ := by
    apply Complex.ext <;> simp only [Complex.sub_re, Complex.sub_im] <;> ring
  rw [e3] at t
  linarith [h.tol]

theorem moved_cons (h : Moved nS nD src dst A σ x y θ η tol dmin) {i j : ℕ} (hi : i ∈ A) (hj : j ∈ A) (hne : i ≠ j) :
    Consistent dmin tol (distOf src) (distOf dst) i (σ i) j (σ j) := by
  rw [C63_tolerance, dist2_distOf, dist2_distOf]
  exact ⟨hne, fun e => hne (h.inj i hi j hj e), h.far i hi j hj hne, moved_dist h hi hj⟩

/-- C152: the correct correspondences are linked to each other in the graph. -/
theorem C152_linked (hs : SortSpec srt) (hN : nS * nD ≤ 2147483647) (h : Moved nS nD src dst A σ x y θ η tol dmin) :
    ∃ g', (setup srt tol dmin nS nD (distOf src) (distOf dst)).pushNodes.addEdges = .ok g' ∧
      ∀ i ∈ A, ∃ node, g'.nodes.get ((i * nD + σ i : ℕ) : ℤ) = .ok node ∧ node.isrc = i ∧ node.idst = σ i ∧
        ∀ j ∈ A, inside node.adjacents ((j * nD + σ j : ℕ) : ℤ) = decide (i ≠ j) := by
  obtain ⟨g', e, r⟩ := C63_edges_partial hs tol dmin nS nD (distOf src) (distOf dst) hN
  refine ⟨g', e, fun i hi => ?_⟩
  obtain ⟨node, e1, -, e2, e3, -, e4⟩ := r.2 i (h.srcs i hi) (σ i) (h.dsts i hi)
  refine ⟨node, e1, e2, e3, fun j hj => ?_⟩
  rw [Bool.eq_iff_iff, e4 j (h.srcs j hj) (σ j) (h.dsts j hj), decide_eq_true_eq]
  exact ⟨fun g => g.1, moved_cons h hi hj⟩

/-- The correct correspondences. -/
def correct (A : Finset ℕ) (σ : ℕ → ℕ) : Finset (ℕ × ℕ) := A.image fun i => (i, σ i)

/-- Every clique is part of a maximal one. -/
theorem exists_maximal {α : Type} [DecidableEq α] {adj : α → α → Prop} {V C : Finset α} (hV : C ⊆ V) (hC : Clique adj C) : ∃ F, MaximalClique adj V F ∧ C ⊆ F := by
  classical
  obtain ⟨F, hF, hmax⟩ := Finset.exists_max_image (V.powerset.filter fun D => C ⊆ D ∧ Clique adj D) Finset.card
    ⟨C, by simp only [Finset.mem_filter, Finset.mem_powerset]; exact ⟨hV, Finset.Subset.refl _, hC⟩⟩
  simp only [Finset.mem_filter, Finset.mem_powerset] at hF
  refine ⟨F, ⟨hF.1, hF.2.2, fun v hv hvF hc => ?_⟩, hF.2.1⟩
  have := hmax (insert v F) (by
    simp only [Finset.mem_filter, Finset.mem_powerset]
    exact ⟨Finset.insert_subset hv hF.1, hF.2.1.trans (Finset.subset_insert _ _), hc⟩)
  rw [Finset.card_insert_of_notMem hvF] at this
  omega

/-- C152, the part that holds: when the loop visits the candidates as if they were a copy and the search ends before the bound on the number of calls, one of the printed sets contains
all the correct correspondences. Missing: the behaviour of the code as it is, which is undefined, see `C152_violated`, and returns no association, see `C64_no_association`. -/
theorem C152_found_partial (hs : SortSpec srt) (hN : nS * nD ≤ 2147483647) (h : Moved nS nD src dst A σ x y θ η tol dmin) {it it' : ℤ} {g' : Graph ℝ} {printed : List LabelSet}
    {assoc : List (List (ℤ × ℤ))} (hr : (setup srt tol dmin nS nD (distOf src) (distOf dst)).associate true it = .ok (g', (it', printed), assoc)) (hlt : it' < 200) :
    ∃ S ∈ printed, ∃ l, g'.convertToAssociation S = .ok l ∧ ∀ i ∈ A, ((i : ℤ), (σ i : ℤ)) ∈ l := by
  obtain ⟨F, hF, hsub⟩ := exists_maximal (adj := cons2 tol dmin (distOf src) (distOf dst)) (V := allPairs nS nD) (C := correct A σ)
    (by
      intro p hp
      obtain ⟨i, hi, rfl⟩ := Finset.mem_image.1 hp
      simp only [allPairs, Finset.mem_product, Finset.mem_range]
      exact ⟨h.srcs i hi, h.dsts i hi⟩)
    (by
      intro p hp q hq hne
      obtain ⟨i, hi, rfl⟩ := Finset.mem_image.1 hp
      obtain ⟨j, hj, rfl⟩ := Finset.mem_image.1 hq
      exact moved_cons h hi hj fun e => hne (congrArg (fun i => (i, σ i)) e))
  obtain ⟨S, hS, l, e, hl⟩ := (C64_cliques_partial hs hN hr hlt).2.2 F hF
  exact ⟨S, hS, l, e, fun i hi => (hl.2 _).2 ⟨(i, σ i), hsub (Finset.mem_image.2 ⟨i, hi, rfl⟩), rfl⟩⟩

/-- C152 for at most 7 correspondences: the search ends. -/
theorem C152_small_partial (hs : SortSpec srt) (hN : nS * nD ≤ 7) (h : Moved nS nD src dst A σ x y θ η tol dmin) :
    ∃ g' it' printed, (setup srt tol dmin nS nD (distOf src) (distOf dst)).associate true 0 = .ok (g', (it', printed), []) ∧
      ∃ S ∈ printed, ∃ l, g'.convertToAssociation S = .ok l ∧ ∀ i ∈ A, ((i : ℤ), (σ i : ℤ)) ∈ l := by
  have : (2 : ℤ) ^ (nS * nD) ≤ 2 ^ 7 := by exact_mod_cast Nat.pow_le_pow_right (by norm_num) hN
  obtain ⟨g', it', printed, e, hlt⟩ := C64_small_partial (nS := nS) (nD := nD) (tol := tol) (dmin := dmin) (distS := distOf src) (distD := distOf dst) hs (le_refl (0 : ℤ)) (by omega)
  exact ⟨g', it', printed, e, C152_found_partial hs (by omega) h e hlt⟩

/-- C152: a printed set is a matching, with each item at most once, whatever the points. -/
theorem C152_matching (hs : SortSpec srt) (hN : nS * nD ≤ 2147483647) {it it' : ℤ} {g' : Graph ℝ} {printed : List LabelSet} {assoc : List (List (ℤ × ℤ))}
    (hr : (setup srt tol dmin nS nD (distOf src) (distOf dst)).associate true it = .ok (g', (it', printed), assoc)) (hlt : it' < 200) :
    ∀ S ∈ printed, ∃ l, g'.convertToAssociation S = .ok l ∧ ∀ p ∈ l, ∀ q ∈ l, (p.1 = q.1 ↔ p.2 = q.2) ∧
      (p ≠ q → ∃ a b c e : ℕ, p = ((a : ℤ), (b : ℤ)) ∧ q = ((c : ℤ), (e : ℤ)) ∧ dmin < distOf src a c ∧ |distOf src a c - distOf dst b e| < tol) := by
  intro S hS
  obtain ⟨l, F, e, hl, hF⟩ := (C64_cliques_partial hs hN hr hlt).2.1 S hS
  refine ⟨l, e, fun p hp q hq => ?_⟩
  obtain ⟨p', hp', rfl⟩ := (hl.2 p).1 hp
  obtain ⟨q', hq', rfl⟩ := (hl.2 q).1 hq
  by_cases hpq : p' = q'
  · rw [hpq]
    exact ⟨by simp, fun g => absurd rfl g⟩
  · have c := (C63_tolerance _ _ _ _ _ _ _ _).1 (hF.2.1 p' hp' q' hq' hpq)
    rw [dist2_distOf, dist2_distOf] at c
    refine ⟨?_, fun _ => ⟨_, _, _, _, rfl, rfl, c.2.2.1, c.2.2.2⟩⟩
    simp only [Nat.cast_inj]
    exact ⟨fun g => absurd g c.1, fun g => absurd g c.2.1⟩

end

/-- The point `(3, 0)` and the origin are moved by the pose `(1, 2, 0)`; `η` is zero. -/
theorem exMoved : Moved 2 2 (fun i => if i = 0 then (0, 0) else (3, 0)) (fun i => if i = 0 then (4, 2) else (1, 2)) {0, 1} (fun i => 1 - i) 1 2 0 0 1 0 := by
  have hT : ∀ p : V2 ℝ, (poseToIsometry2 real 1 2 0).apply p = (p.1 + 1, p.2 + 2) := by
    intro p
    simp [poseToIsometry2, Geometry2.T2.id, Geometry2.T2.prerotate, Geometry2.T2.pretranslate, Geometry2.T2.apply, real]
  refine ⟨by simp, by simp, by simp, ?_, by norm_num, ?_⟩
  · intro i hi
    rw [hT]
    simp only [Finset.mem_insert, Finset.mem_singleton] at hi
    rcases hi with rfl | rfl <;> norm_num [norm2]
  · intro i hi j hj hne
    simp only [Finset.mem_insert, Finset.mem_singleton] at hi hj
    rcases hi with rfl | rfl <;> rcases hj with rfl | rfl <;> first | exact absurd rfl hne | norm_num [distOf, norm2]

/-- The two points are found with their images exchanged. -/
example : ∃ g' it' printed, (setup isort 1 0 2 2 (distOf fun i => if i = 0 then (0, 0) else (3, 0)) (distOf fun i => if i = 0 then (4, 2) else (1, 2))).associate true 0 =
    .ok (g', (it', printed), []) ∧ ∃ S ∈ printed, ∃ l, g'.convertToAssociation S = .ok l ∧ ∀ i ∈ ({0, 1} : Finset ℕ), ((i : ℤ), ((1 - i : ℕ) : ℤ)) ∈ l :=
  C152_small_partial isort_spec (by norm_num) exMoved

/-- C152 fails: the search has undefined behaviour for every input with moved points. -/
theorem C152_violated : ¬ C152_statement := by
  intro h
  obtain ⟨g', st, assoc, e, -⟩ := h isort 2 2 _ _ _ _ _ _ _ _ _ _ isort_spec (by norm_num) exMoved (by simp)
  obtain ⟨k, ek⟩ := C64_undefined isort_spec (1 : ℝ) 0 2 2 (distOf fun i => if i = 0 then (0, 0) else (3, 0)) (distOf fun i => if i = 0 then (4, 2) else (1, 2)) (by norm_num) (by norm_num) (by norm_num) 0
    le_rfl (by norm_num)
  rw [e] at ek
  cases ek

end Verif.CorrGraph
