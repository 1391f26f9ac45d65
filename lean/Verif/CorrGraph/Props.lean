import Verif.CorrGraph.Edges
import Mathlib.Data.Finset.Prod
import Mathlib.Data.Finset.Card
import Mathlib.Data.Rat.Defs
import Mathlib.Algebra.Order.Ring.Rat

/-! Property theorems C63 and C64 (see properties.jsonl). -/
namespace Verif.CorrGraph
open Verif LabelSet SortedList Spec
open _root_.Verif.Hough (bind_ok)
variable {K : Type}

/-- A new object with tolerance and minimum distance, and then the source and the destination items. -/
def setup (srt : List (PairDistance K) → List (PairDistance K)) (tol dmin : K) (nS nD : ℕ) (distS distD : ℕ → ℕ → K) : Graph K :=
  ((Graph.new tol dmin).insertSrc srt nS distS).insertDst srt nD distD

/-- The setters give the same objects, and the order of the two insertions does not matter. -/
theorem setup_eq (srt : List (PairDistance K) → List (PairDistance K)) (t0 m0 tol dmin : K) (nS nD : ℕ) (distS distD : ℕ → ℕ → K) :
    ((((Graph.new t0 m0).setTolerance tol).setDistanceMin dmin).insertSrc srt nS distS).insertDst srt nD distD = setup srt tol dmin nS nD distS distD ∧
    ((((Graph.new t0 m0).setDistanceMin dmin).setTolerance tol).insertDst srt nD distD).insertSrc srt nS distS = setup srt tol dmin nS nD distS distD :=
  ⟨rfl, rfl⟩

theorem dist2_comm (dist : ℕ → ℕ → K) (a c : ℕ) : dist2 dist a c = dist2 dist c a := by
  rw [dist2, dist2, min_comm, max_comm]

/-- The graph of a new object, when the sorted distances are in order. -/
theorem build_ordered [LT K] [DecidableLT K] [Add K] [Sub K] {srt : List (PairDistance K) → List (PairDistance K)} (tol dmin : K) (nS nD : ℕ) (distS distD : ℕ → ℕ → K)
    (hS : (srt (pairDistances nS distS)).Perm (pairDistances nS distS) ∧ Ordered (srt (pairDistances nS distS)))
    (hD : (srt (pairDistances nD distD)).Perm (pairDistances nD distD) ∧ Ordered (srt (pairDistances nD distD)))
    (hN : nS * nD ≤ 2147483647) : ∃ g', (setup srt tol dmin nS nD distS distD).pushNodes.addEdges = .ok g' ∧
      NodesOk nS nD (fun k l => ∃ a < nS, ∃ b < nD, ∃ c < nS, ∃ e < nD, k = a * nD + b ∧ l = c * nD + e ∧ Consistent dmin tol distS distD a b c e) g'.nodes := by
  obtain ⟨g', e, -, -, o⟩ := addEdges_ok (g := (setup srt tol dmin nS nD distS distD).pushNodes) (distS := distS) (distD := distD) hS.2 hD.2
    (fun p => hS.1.mem_iff) (fun p => hD.1.mem_iff) hN (pushNodes_ok rfl hN)
  exact ⟨g', e, o⟩

/-- The graph of a new object. -/
theorem build_ok [LinearOrder K] [Add K] [Sub K] {srt : List (PairDistance K) → List (PairDistance K)} (hs : SortSpec srt) (tol dmin : K) (nS nD : ℕ) (distS distD : ℕ → ℕ → K)
    (hN : nS * nD ≤ 2147483647) : ∃ g', (setup srt tol dmin nS nD distS distD).pushNodes.addEdges = .ok g' ∧
      NodesOk nS nD (fun k l => ∃ a < nS, ∃ b < nD, ∃ c < nS, ∃ e < nD, k = a * nD + b ∧ l = c * nD + e ∧ Consistent dmin tol distS distD a b c e) g'.nodes :=
  build_ordered tol dmin nS nD distS distD ⟨(hs _).1, ordered_of_le (hs _).2⟩ ⟨(hs _).1, ordered_of_le (hs _).2⟩ hN

/-- The state after `associate` has built its graph on an object that was given `nS` and `nD` items: node `a * nD + b` stands for the correspondence `a → b` and its neighbours
are the consistent correspondences. -/
def EdgesRight [LT K] [Add K] [Sub K] (g' : Graph K) (tol dmin : K) (nS nD : ℕ) (distS distD : ℕ → ℕ → K) : Prop :=
  g'.nodes.len = nS * nD ∧ ∀ a < nS, ∀ b < nD, ∃ node, g'.nodes.get ((a * nD + b : ℕ) : ℤ) = .ok node ∧ node.index = a * nD + b ∧ node.isrc = a ∧ node.idst = b ∧
    (∀ j, inside node.adjacents j = true → ∃ c < nS, ∃ e < nD, j = ((c * nD + e : ℕ) : ℤ)) ∧
    ∀ c < nS, ∀ e < nD, inside node.adjacents ((c * nD + e : ℕ) : ℤ) = true ↔ Consistent dmin tol distS distD a b c e

/-- The objects that a user can have before `associate`. -/
inductive Reach (srt : List (PairDistance K) → List (PairDistance K)) (t0 m0 : K) : Graph K → Prop
  | new : Reach srt t0 m0 (Graph.new t0 m0)
  | setTolerance {g} (tol) : Reach srt t0 m0 g → Reach srt t0 m0 (g.setTolerance tol)
  | setDistanceMin {g} (dmin) : Reach srt t0 m0 g → Reach srt t0 m0 (g.setDistanceMin dmin)
  | insertSrc {g} (n dist) : Reach srt t0 m0 g → Reach srt t0 m0 (g.insertSrc srt n dist)
  | insertDst {g} (n dist) : Reach srt t0 m0 g → Reach srt t0 m0 (g.insertDst srt n dist)

/-- C63: `associate` links exactly the consistent correspondences of the items inserted last. -/
def C63_statement (K : Type) [LinearOrder K] [Add K] [Sub K] : Prop :=
  ∀ (srt : List (PairDistance K) → List (PairDistance K)) (t0 m0 : K) (g : Graph K) (nS nD : ℕ) (distS distD : ℕ → ℕ → K), SortSpec srt → Reach srt t0 m0 g → nS * nD ≤ 2147483647 →
    ∃ g', ((g.insertSrc srt nS distS).insertDst srt nD distD).pushNodes.addEdges = .ok g' ∧ EdgesRight g' g.distTol g.distMin nS nD distS distD

/-- The nodes and their neighbours determine the edges. -/
theorem edgesRight_of_nodesOk [LT K] [Add K] [Sub K] {g' : Graph K} {tol dmin : K} {nS nD : ℕ} {distS distD : ℕ → ℕ → K} (hN : nS * nD ≤ 2147483647)
    (o : NodesOk nS nD (fun k l => ∃ a < nS, ∃ b < nD, ∃ c < nS, ∃ e < nD, k = a * nD + b ∧ l = c * nD + e ∧ Consistent dmin tol distS distD a b c e) g'.nodes) :
    EdgesRight g' tol dmin nS nD distS distD := by
  obtain ⟨o1, o2⟩ := o
  refine ⟨o1, fun a ha b hb => ?_⟩
  obtain ⟨adj, h1, h2, h3⟩ := o2 a ha b hb
  have hin : ∀ j, inside adj j = true ↔ j ∈ adj.labels := fun j => contains_iff h2
  refine ⟨⟨((a * nD + b : ℕ) : ℤ), a, b, adj⟩, ?_, ?_, rfl, rfl, ?_, ?_⟩
  · rw [Vec.get_nat _ (by rw [o1]; exact (nodeIndex_eq hN ha hb).2.1), h1]
  · push_cast; rfl
  · intro j hj
    dsimp only at hj
    rw [hin, h3] at hj
    obtain ⟨k, rfl, -, -, -, -, c, hc, e, he, -, rfl, -⟩ := hj
    exact ⟨c, hc, e, he, rfl⟩
  · intro c hc e he
    dsimp only
    rw [hin, h3]
    constructor
    · rintro ⟨k, hk, a', ha', b', hb', c', hc', e', he', h4, h5, h6⟩
      obtain ⟨rfl, rfl⟩ := index_inj hb hb' h4
      obtain ⟨rfl, rfl⟩ := index_inj he he' ((Int.ofNat_inj.1 hk).trans h5)
      exact h6
    · exact fun h => ⟨_, rfl, a, ha, b, hb, c, hc, e, he, rfl, rfl, h⟩

/-- C63 for an object whose items are inserted once. Missing: the objects whose items are inserted again, for which it is false, see `C63_violated`. -/
theorem C63_edges_partial [LinearOrder K] [Add K] [Sub K] {srt : List (PairDistance K) → List (PairDistance K)} (hs : SortSpec srt) (tol dmin : K) (nS nD : ℕ) (distS distD : ℕ → ℕ → K)
    (hN : nS * nD ≤ 2147483647) : ∃ g', (setup srt tol dmin nS nD distS distD).pushNodes.addEdges = .ok g' ∧ EdgesRight g' tol dmin nS nD distS distD := by
  obtain ⟨g', e, o⟩ := build_ok hs tol dmin nS nD distS distD hN
  exact ⟨g', e, edgesRight_of_nodesOk hN o⟩

/-- C63 for objects without source items or without destination items: no nodes. -/
theorem C63_no_items [LinearOrder K] [Add K] [Sub K] {srt : List (PairDistance K) → List (PairDistance K)} (hs : SortSpec srt) (tol dmin : K) (n : ℕ) (dist : ℕ → ℕ → K) :
    ∀ g ∈ [Graph.new tol dmin, (Graph.new tol dmin).insertSrc srt n dist, (Graph.new tol dmin).insertDst srt n dist],
      ∃ g', g.pushNodes.addEdges = .ok g' ∧ g'.nodes.len = 0 := by
  have hnil : ∀ p : PairDistance K, p ∈ ([] : List (PairDistance K)) ↔ p ∈ pairDistances 0 dist := fun p => by simp [pairDistances]
  intro g hg
  simp only [List.mem_cons, List.not_mem_nil, or_false] at hg
  rcases hg with rfl | rfl | rfl
  · obtain ⟨g', e, -, -, o⟩ := addEdges_ok (g := (Graph.new tol dmin).pushNodes) (distS := dist) (distD := dist) List.Pairwise.nil List.Pairwise.nil hnil hnil
      (show 0 * 0 ≤ 2147483647 by norm_num) (pushNodes_ok (g := Graph.new tol dmin) rfl (show 0 * 0 ≤ 2147483647 by norm_num))
    exact ⟨g', e, o.1⟩
  · obtain ⟨g', e, -, -, o⟩ := addEdges_ok (g := ((Graph.new tol dmin).insertSrc srt n dist).pushNodes) (distS := dist) (distD := dist) (ordered_of_le (hs _).2) List.Pairwise.nil
      (fun p => (hs ([] ++ pairDistances n dist)).1.mem_iff) hnil (show n * 0 ≤ 2147483647 by omega) (pushNodes_ok (g := (Graph.new tol dmin).insertSrc srt n dist) rfl (show n * 0 ≤ 2147483647 by omega))
    exact ⟨g', e, o.1⟩
  · obtain ⟨g', e, -, -, o⟩ := addEdges_ok (g := ((Graph.new tol dmin).insertDst srt n dist).pushNodes) (distS := dist) (distD := dist) List.Pairwise.nil (ordered_of_le (hs _).2)
      hnil (fun p => (hs ([] ++ pairDistances n dist)).1.mem_iff) (show 0 * n ≤ 2147483647 by omega) (pushNodes_ok (g := (Graph.new tol dmin).insertDst srt n dist) rfl (show 0 * n ≤ 2147483647 by omega))
    exact ⟨g', e, by rw [o.1]; exact Nat.zero_mul _⟩

/-- The relation is symmetric and irreflexive. -/
theorem C63_symm [LinearOrder K] [Add K] [Sub K] {g' : Graph K} {tol dmin : K} {nS nD : ℕ} {distS distD : ℕ → ℕ → K} (h : EdgesRight g' tol dmin nS nD distS distD)
    {a b c e : ℕ} (ha : a < nS) (hb : b < nD) (hc : c < nS) (he : e < nD) : ∃ n1 n2, g'.nodes.get ((a * nD + b : ℕ) : ℤ) = .ok n1 ∧ g'.nodes.get ((c * nD + e : ℕ) : ℤ) = .ok n2 ∧
      (inside n1.adjacents ((c * nD + e : ℕ) : ℤ) = inside n2.adjacents ((a * nD + b : ℕ) : ℤ)) ∧ inside n1.adjacents ((a * nD + b : ℕ) : ℤ) = false := by
  obtain ⟨n1, p1, -, -, -, -, p2⟩ := h.2 a ha b hb
  obtain ⟨n2, q1, -, -, -, -, q2⟩ := h.2 c hc e he
  refine ⟨n1, n2, p1, q1, ?_, ?_⟩
  · rw [Bool.eq_iff_iff, p2 c hc e he, q2 a ha b hb, Consistent, Consistent, dist2_comm distS c a, dist2_comm distD e b]
    tauto
  · rw [Bool.eq_false_iff, ne_eq, p2 a ha b hb]
    exact fun h => h.1 rfl

/-- In exact arithmetic consistency is equality of the distances up to the tolerance. -/
theorem C63_tolerance [Field K] [LinearOrder K] [IsStrictOrderedRing K] (dmin tol : K) (distS distD : ℕ → ℕ → K) (a b c e : ℕ) :
    Consistent dmin tol distS distD a b c e ↔ a ≠ c ∧ b ≠ e ∧ dmin < dist2 distS a c ∧ |dist2 distS a c - dist2 distD b e| < tol := by
  rw [Consistent, abs_lt]
  refine and_congr_right fun _ => and_congr_right fun _ => and_congr_right fun _ => ?_
  constructor
  · rintro ⟨h1, h2⟩
    exact ⟨by linarith, by linarith⟩
  · rintro ⟨h1, h2⟩
    exact ⟨by linarith, by linarith⟩

/-- A sorting function, for the examples. -/
def isort [LinearOrder K] (l : List (PairDistance K)) : List (PairDistance K) := l.insertionSort fun a b => a.distance ≤ b.distance

theorem isort_spec [LinearOrder K] : SortSpec (isort (K := K)) := by
  intro l
  haveI : Std.Total fun a b : PairDistance K => a.distance ≤ b.distance := ⟨fun a b => le_total _ _⟩
  haveI : IsTrans (PairDistance K) fun a b => a.distance ≤ b.distance := ⟨fun a b c => le_trans⟩
  exact ⟨List.perm_insertionSort _ _, List.pairwise_insertionSort _ _⟩

/-- C63 fails for an object whose source items are replaced: the distances of the old items remain and give edges between correspondences that are not consistent. -/
theorem C63_violated : ¬ C63_statement ℚ := by
  intro h
  obtain ⟨g', e, -, h2⟩ := h isort 1 0 ((Graph.new 1 0).insertSrc isort 2 fun _ _ => 1) 2 2 (fun _ _ => 5) (fun _ _ => 1) isort_spec (.insertSrc _ _ .new) (by norm_num)
  obtain ⟨node, e1, -, -, -, -, h3⟩ := h2 0 (by norm_num) 0 (by norm_num)
  have h4 := h3 1 (by norm_num) 1 (by norm_num)
  have hev : ((((((Graph.new (1 : ℚ) 0).insertSrc isort 2 fun _ _ => 1).insertSrc isort 2 fun _ _ => 5).insertDst isort 2 fun _ _ => 1).pushNodes.addEdges).bind
      fun g => (g.nodes.get 0).map fun n => inside n.adjacents 3) = .ok true := by decide +kernel
  rw [e] at hev
  have h5 : inside node.adjacents 3 = true := by
    have : (g'.nodes.get 0).map (fun n => inside n.adjacents 3) = .ok true := hev
    rw [show g'.nodes.get 0 = .ok node from e1] at this
    exact Except.ok.inj this
  have h6 := h4.1 h5
  have : dist2 (fun _ _ => (5 : ℚ)) 0 1 - 1 < dist2 (fun _ _ => (1 : ℚ)) 0 1 := h6.2.2.2.1
  norm_num [dist2] at this

/-- C63 fails for an object whose destination items are replaced, too. -/
theorem C63_dst_violated : ∃ g', (((((Graph.new (1 : ℚ) 0).insertDst isort 2 fun _ _ => 5).insertSrc isort 2 fun _ _ => 5).insertDst isort 2 fun _ _ => 1).pushNodes.addEdges) = .ok g' ∧
    ¬ EdgesRight g' 1 0 2 2 (fun _ _ => 5) (fun _ _ => 1) := by
  have hev : ((((((Graph.new (1 : ℚ) 0).insertDst isort 2 fun _ _ => 5).insertSrc isort 2 fun _ _ => 5).insertDst isort 2 fun _ _ => 1).pushNodes.addEdges).bind
      fun g => (g.nodes.get 0).map fun n => inside n.adjacents 3) = .ok true := by decide +kernel
  generalize e : ((((((Graph.new (1 : ℚ) 0).insertDst isort 2 fun _ _ => 5).insertSrc isort 2 fun _ _ => 5).insertDst isort 2 fun _ _ => 1).pushNodes.addEdges) : Outcome (Graph ℚ)) = r at hev ⊢
  cases r with
  | error x => cases hev
  | ok g' =>
    refine ⟨g', rfl, fun h => ?_⟩
    obtain ⟨node, e1, -, -, -, -, h3⟩ := h.2 0 (by norm_num) 0 (by norm_num)
    have h4 := h3 1 (by norm_num) 1 (by norm_num)
    have h5 : inside node.adjacents 3 = true := by
      have : (g'.nodes.get 0).map (fun n => inside n.adjacents 3) = .ok true := hev
      rw [show g'.nodes.get 0 = .ok node from e1] at this
      exact Except.ok.inj this
    have : dist2 (fun _ _ => (5 : ℚ)) 0 1 - 1 < dist2 (fun _ _ => (1 : ℚ)) 0 1 := (h4.1 h5).2.2.2.1
    norm_num [dist2] at this

/-- When the new items are fewer than the old ones an assertion of `associate` fails. -/
theorem C63_fewer_violated : ((((((Graph.new (1 : ℚ) 0).insertSrc isort 3 fun _ _ => 5).insertSrc isort 1 fun _ _ => 5).insertDst isort 2 fun _ _ => 5).pushNodes.addEdges).map fun _ => ()) =
    .error .abort := by decide +kernel

/-- Example of C63: two equal triangles of sides 3, 4, 5; the node of `0 → 0` is linked to those of `1 → 1` and `2 → 2` only. -/
example : (((setup isort (1 : ℚ) 0 3 3 (fun i j => i + j + 2) (fun i j => i + j + 2)).pushNodes.addEdges).bind
    fun g => (g.nodes.get 0).map fun n => n.adjacents.labels) = .ok [4, 8] := by decide +kernel

end Verif.CorrGraph
