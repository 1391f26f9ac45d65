import Verif.CorrGraph.Props

/-! Property theorems C63, objects whose items are inserted several times (see properties.jsonl). -/
namespace Verif.CorrGraph
open Verif LabelSet SortedList Spec
open _root_.Verif.Hough (bind_ok)
variable {K : Type}

/-- Edges from several lists of distances. -/
theorem addEdges_lists [LT K] [DecidableLT K] [Add K] [Sub K] {g : Graph K} {S D : List (ℕ × (ℕ → ℕ → K))} (hS : Ordered g.distancesSrc)
    (hD : Ordered g.distancesDst) (hS' : ∀ p, p ∈ g.distancesSrc ↔ ∃ x ∈ S, p ∈ pairDistances x.1 x.2)
    (hD' : ∀ p, p ∈ g.distancesDst ↔ ∃ y ∈ D, p ∈ pairDistances y.1 y.2) (hSn : ∀ x ∈ S, x.1 ≤ g.numSrc) (hDn : ∀ y ∈ D, y.1 ≤ g.numDst) (hN : g.numSrc * g.numDst ≤ 2147483647)
    (h : NodesOk g.numSrc g.numDst (fun _ _ => False) g.nodes) :
    ∃ g', g.addEdges = .ok g' ∧ NodesOk g.numSrc g.numDst (fun k l => ∃ x ∈ S, ∃ y ∈ D, ∃ a < x.1, ∃ b < y.1, ∃ c < x.1, ∃ e < y.1,
      k = a * g.numDst + b ∧ l = c * g.numDst + e ∧ Consistent g.distMin g.distTol x.2 y.2 a b c e) g'.nodes := by
  have hmemS : ∀ s, s ∈ upperBound g.distancesSrc g.distMin ↔ ∃ x ∈ S, ∃ a c : ℕ, a < c ∧ c < x.1 ∧ s = ⟨a, c, x.2 a c⟩ ∧ g.distMin < x.2 a c := by
    intro s
    rw [mem_upperBound hS, hS']
    constructor
    · rintro ⟨⟨x, hx, hp⟩, h3⟩
      obtain ⟨a, c, h1, h2, rfl⟩ := mem_pairDistances.1 hp
      exact ⟨x, hx, a, c, h1, h2, rfl, h3⟩
    · rintro ⟨x, hx, a, c, h1, h2, rfl, h3⟩
      exact ⟨⟨x, hx, mem_pairDistances.2 ⟨a, c, h1, h2, rfl⟩⟩, h3⟩
  have hmemD : ∀ z w d, d ∈ (upperBound g.distancesDst z).takeWhile (fun d => decide (d.distance < w)) ↔
      ∃ y ∈ D, ∃ b e : ℕ, b < e ∧ e < y.1 ∧ d = ⟨b, e, y.2 b e⟩ ∧ z < y.2 b e ∧ y.2 b e < w := by
    intro z w d
    rw [mem_takeWhile (upperBound_sorted hD _), mem_upperBound hD, hD']
    constructor
    · rintro ⟨⟨⟨y, hy, hp⟩, h3⟩, h4⟩
      obtain ⟨b, e, h1, h2, rfl⟩ := mem_pairDistances.1 hp
      exact ⟨y, hy, b, e, h1, h2, rfl, h3, h4⟩
    · rintro ⟨y, hy, b, e, h1, h2, rfl, h3, h4⟩
      exact ⟨⟨⟨y, hy, mem_pairDistances.2 ⟨b, e, h1, h2, rfl⟩⟩, h3⟩, h4⟩
  obtain ⟨nodes, e1, o1⟩ := foldlM_edges (nS := g.numSrc) (nD := g.numDst) (f := fun nodes s =>
      ((upperBound g.distancesDst (s.distance - g.distTol)).takeWhile fun d => decide (d.distance < s.distance + g.distTol)).foldlM
        (fun nodes d => addPair g.numDst nodes s d) nodes)
      (B := fun s k l => ∃ d ∈ (upperBound g.distancesDst (s.distance - g.distTol)).takeWhile (fun d => decide (PairDistance.distance d < s.distance + g.distTol)),
        PairEdges g.numDst s.i0.toNat s.i1.toNat d.i0.toNat d.i1.toNat k l) (upperBound g.distancesSrc g.distMin) (by
    intro s hs E nodes hE
    obtain ⟨x, hx, a, c, h1, h2, rfl, -⟩ := (hmemS s).1 hs
    have hxn := hSn x hx
    refine foldlM_edges _ ?_ hE
    intro d hd E nodes hE
    obtain ⟨y, hy, b, e, h3, h4, rfl, -⟩ := (hmemD _ _ d).1 hd
    have hyn := hDn y hy
    obtain ⟨n1, e1, o1⟩ := addEdge_ok hE hN (a := a) (b := b) (c := c) (e := e) (by omega) (by omega) (by omega) (by omega)
    obtain ⟨n2, e2, o2⟩ := addEdge_ok o1 hN (a := a) (b := e) (c := c) (e := b) (by omega) (by omega) (by omega) (by omega)
    refine ⟨n2, ?_, o2.congr fun k l => ?_⟩
    · unfold addPair
      dsimp only
      rw [e1, bind_ok, e2]
    · simp only [PairEdges, Int.toNat_natCast]
      tauto) h
  refine ⟨{ g with nodes := nodes }, ?_, o1.congr fun k l => ?_⟩
  · unfold Graph.addEdges
    rw [e1]
    rfl
  · rw [false_or]
    constructor
    · rintro ⟨s, hs, d, hd, hp⟩
      obtain ⟨x, hx, a, c, h1, h2, rfl, h3⟩ := (hmemS s).1 hs
      obtain ⟨y, hy, b, e, h4, h5, rfl, h6, h7⟩ := (hmemD _ _ d).1 hd
      dsimp only at h6 h7
      simp only [PairEdges, Int.toNat_natCast] at hp
      have e1 : min a c = a := by omega
      have e2 : max a c = c := by omega
      have e3 : min b e = b := by omega
      have e4 : max b e = e := by omega
      have e1' : min c a = a := by omega
      have e2' : max c a = c := by omega
      have e3' : min e b = b := by omega
      have e4' : max e b = e := by omega
      rcases hp with ⟨rfl, rfl⟩ | ⟨rfl, rfl⟩ | ⟨rfl, rfl⟩ | ⟨rfl, rfl⟩
      · exact ⟨x, hx, y, hy, a, by omega, b, by omega, c, by omega, e, by omega, rfl, rfl, by omega, by omega, by simp only [dist2, e1, e2, e3, e4]; exact ⟨h3, h6, h7⟩⟩
      · exact ⟨x, hx, y, hy, c, by omega, e, by omega, a, by omega, b, by omega, rfl, rfl, by omega, by omega, by simp only [dist2, e1', e2', e3', e4']; exact ⟨h3, h6, h7⟩⟩
      · exact ⟨x, hx, y, hy, a, by omega, e, by omega, c, by omega, b, by omega, rfl, rfl, by omega, by omega, by simp only [dist2, e1, e2, e3', e4']; exact ⟨h3, h6, h7⟩⟩
      · exact ⟨x, hx, y, hy, c, by omega, b, by omega, a, by omega, e, by omega, rfl, rfl, by omega, by omega, by simp only [dist2, e1', e2', e3, e4]; exact ⟨h3, h6, h7⟩⟩
    · rintro ⟨x, hx, y, hy, a, ha, b, hb, c, hc, e, he, rfl, rfl, hac, hbe, h1, h2, h3⟩
      refine ⟨_, (hmemS _).2 ⟨x, hx, min a c, max a c, by omega, by omega, rfl, h1⟩, _, (hmemD _ _ _).2 ⟨y, hy, min b e, max b e, by omega, by omega, rfl, h2, h3⟩, ?_⟩
      simp only [PairEdges, Int.toNat_natCast]
      rcases Nat.lt_or_ge a c with p | p <;> rcases Nat.lt_or_ge b e with q | q
      · rw [show min a c = a by omega, show max a c = c by omega, show min b e = b by omega, show max b e = e by omega]; simp
      · rw [show min a c = a by omega, show max a c = c by omega, show min b e = e by omega, show max b e = b by omega]; simp
      · rw [show min a c = c by omega, show max a c = a by omega, show min b e = b by omega, show max b e = e by omega]; simp
      · rw [show min a c = c by omega, show max a c = a by omega, show min b e = e by omega, show max b e = b by omega]; simp

/-- A new object with several insertions of source items and several of destination items, correspondence_graph_association.h:121-166. -/
def setupAll (srt : List (PairDistance K) → List (PairDistance K)) (tol dmin : K) (S D : List (ℕ × (ℕ → ℕ → K))) : Graph K :=
  D.foldl (fun g y => g.insertDst srt y.1 y.2) (S.foldl (fun g x => g.insertSrc srt x.1 x.2) (Graph.new tol dmin))

/-- The order between the insertions of the two kinds does not matter. -/
theorem insert_comm (srt : List (PairDistance K) → List (PairDistance K)) (g : Graph K) (n m : ℕ) (dist dist' : ℕ → ℕ → K) :
    (g.insertSrc srt n dist).insertDst srt m dist' = (g.insertDst srt m dist').insertSrc srt n dist := rfl

theorem foldSrc [LinearOrder K] {srt : List (PairDistance K) → List (PairDistance K)} (hs : SortSpec srt) (S : List (ℕ × (ℕ → ℕ → K))) (g : Graph K) (ho : Ordered g.distancesSrc) :
    ∃ l, S.foldl (fun g x => g.insertSrc srt x.1 x.2) g = { g with numSrc := (S.getLast?.map Prod.fst).getD g.numSrc, distancesSrc := l } ∧ Ordered l ∧
      ∀ p, p ∈ l ↔ p ∈ g.distancesSrc ∨ ∃ x ∈ S, p ∈ pairDistances x.1 x.2 := by
  induction S generalizing g with
  | nil => exact ⟨g.distancesSrc, rfl, ho, fun p => by simp⟩
  | cons x S ih =>
    obtain ⟨l, h1, h2, h3⟩ := ih (g.insertSrc srt x.1 x.2) (ordered_of_le (hs _).2)
    refine ⟨l, ?_, h2, fun p => ?_⟩
    · rw [List.foldl_cons, h1]
      cases S with
      | nil => rfl
      | cons y S =>
        rw [List.getLast?_cons_cons]
        simp only [List.getLast?_eq_some_getLast (List.cons_ne_nil y S)]
        rfl
    · rw [h3]
      have : p ∈ (g.insertSrc srt x.1 x.2).distancesSrc ↔ p ∈ g.distancesSrc ∨ p ∈ pairDistances x.1 x.2 := (hs _).1.mem_iff.trans List.mem_append
      rw [this]
      simp only [List.mem_cons, exists_eq_or_imp]
      tauto

theorem foldDst [LinearOrder K] {srt : List (PairDistance K) → List (PairDistance K)} (hs : SortSpec srt) (D : List (ℕ × (ℕ → ℕ → K))) (g : Graph K) (ho : Ordered g.distancesDst) :
    ∃ l, D.foldl (fun g x => g.insertDst srt x.1 x.2) g = { g with numDst := (D.getLast?.map Prod.fst).getD g.numDst, distancesDst := l } ∧ Ordered l ∧
      ∀ p, p ∈ l ↔ p ∈ g.distancesDst ∨ ∃ x ∈ D, p ∈ pairDistances x.1 x.2 := by
  induction D generalizing g with
  | nil => exact ⟨g.distancesDst, rfl, ho, fun p => by simp⟩
  | cons x S ih =>
    obtain ⟨l, h1, h2, h3⟩ := ih (g.insertDst srt x.1 x.2) (ordered_of_le (hs _).2)
    refine ⟨l, ?_, h2, fun p => ?_⟩
    · rw [List.foldl_cons, h1]
      cases S with
      | nil => rfl
      | cons y S =>
        rw [List.getLast?_cons_cons]
        simp only [List.getLast?_eq_some_getLast (List.cons_ne_nil y S)]
        rfl
    · rw [h3]
      have : p ∈ (g.insertDst srt x.1 x.2).distancesDst ↔ p ∈ g.distancesDst ∨ p ∈ pairDistances x.1 x.2 := (hs _).1.mem_iff.trans List.mem_append
      rw [this]
      simp only [List.mem_cons, exists_eq_or_imp]
      tauto

/-- C63 for an object whose items are inserted any number of times, never with fewer items than before the last time: two correspondences are linked exactly when they are consistent for the distances of some insertion of source
items and some insertion of destination items. -/
theorem C63_history [LinearOrder K] [Add K] [Sub K] {srt : List (PairDistance K) → List (PairDistance K)} (hs : SortSpec srt) (tol dmin : K) (S D : List (ℕ × (ℕ → ℕ → K)))
    (nS nD : ℕ) (distS distD : ℕ → ℕ → K) (hS : S.getLast? = some (nS, distS)) (hD : D.getLast? = some (nD, distD)) (hSn : ∀ x ∈ S, x.1 ≤ nS) (hDn : ∀ y ∈ D, y.1 ≤ nD)
    (hN : nS * nD ≤ 2147483647) :
    ∃ g', (setupAll srt tol dmin S D).pushNodes.addEdges = .ok g' ∧ g'.nodes.len = nS * nD ∧ ∀ a < nS, ∀ b < nD, ∃ node, g'.nodes.get ((a * nD + b : ℕ) : ℤ) = .ok node ∧
      node.index = a * nD + b ∧ node.isrc = a ∧ node.idst = b ∧ (∀ j, inside node.adjacents j = true → ∃ c < nS, ∃ e < nD, j = ((c * nD + e : ℕ) : ℤ)) ∧
      ∀ c < nS, ∀ e < nD, inside node.adjacents ((c * nD + e : ℕ) : ℤ) = true ↔
        ∃ x ∈ S, ∃ y ∈ D, a < x.1 ∧ c < x.1 ∧ b < y.1 ∧ e < y.1 ∧ Consistent dmin tol x.2 y.2 a b c e := by
  obtain ⟨l1, h1, h2, h3⟩ := foldSrc hs S (Graph.new tol dmin) List.Pairwise.nil
  obtain ⟨l2, k1, k2, k3⟩ := foldDst hs D { Graph.new tol dmin with numSrc := nS, distancesSrc := l1 } List.Pairwise.nil
  have e0 : setupAll srt tol dmin S D = { Graph.new tol dmin with numSrc := nS, distancesSrc := l1, numDst := nD, distancesDst := l2 } := by
    unfold setupAll
    rw [h1, hS]
    refine k1.trans ?_
    rw [hD]
    rfl
  rw [e0]
  obtain ⟨g', e, o1, o2⟩ := addEdges_lists (g := ({ Graph.new tol dmin with numSrc := nS, distancesSrc := l1, numDst := nD, distancesDst := l2 } : Graph K).pushNodes) (S := S) (D := D) h2 k2
    (fun p => (h3 p).trans (by simp [Graph.new])) (fun p => (k3 p).trans (by simp [Graph.new])) hSn hDn hN (pushNodes_ok rfl hN)
  refine ⟨g', e, o1, fun a ha b hb => ?_⟩
  obtain ⟨adj, p1, p2, p3⟩ := o2 a ha b hb
  have hin : ∀ j, inside adj j = true ↔ j ∈ adj.labels := fun j => contains_iff p2
  refine ⟨⟨((a * nD + b : ℕ) : ℤ), a, b, adj⟩, ?_, ?_, rfl, rfl, ?_, ?_⟩
  · rw [Vec.get_nat _ (by rw [o1]; exact (nodeIndex_eq hN ha hb).2.1)]
    exact congrArg _ p1
  · push_cast; rfl
  · intro j hj
    obtain ⟨k, rfl, x, hx, y, hy, a', -, b', -, c, hc, e, he, -, hl, -⟩ := (p3 j).1 ((hin j).1 hj)
    exact ⟨c, lt_of_lt_of_le hc (hSn x hx), e, lt_of_lt_of_le he (hDn y hy), by rw [hl]; rfl⟩
  · intro c hc e he
    rw [hin, p3]
    constructor
    · rintro ⟨k, hk, x, hx, y, hy, a', ha', b', hb', c', hc', e', he', hk1, hl, hcon⟩
      have q1 := hSn x hx
      have q2 := hDn y hy
      obtain ⟨rfl, rfl⟩ := index_inj (nD := nD) hb (by omega) hk1
      obtain ⟨rfl, rfl⟩ := index_inj (nD := nD) he (by omega) ((Int.natCast_inj.1 hk).trans hl)
      exact ⟨x, hx, y, hy, ha', hc', hb', he', hcon⟩
    · rintro ⟨x, hx, y, hy, h1, h2, h3, h4, hcon⟩
      exact ⟨c * nD + e, rfl, x, hx, y, hy, a, h1, b, h3, c, h2, e, h4, rfl, rfl, hcon⟩

/-- C63, exact condition when the items are inserted several times (never with fewer items the last time): the links are right if and only if the distances of the earlier insertions make no inconsistent correspondences
consistent. -/
theorem C63_history_iff [LinearOrder K] [Add K] [Sub K] {srt : List (PairDistance K) → List (PairDistance K)} (hs : SortSpec srt) (tol dmin : K) (S D : List (ℕ × (ℕ → ℕ → K)))
    (nS nD : ℕ) (distS distD : ℕ → ℕ → K) (hS : S.getLast? = some (nS, distS)) (hD : D.getLast? = some (nD, distD)) (hSn : ∀ x ∈ S, x.1 ≤ nS) (hDn : ∀ y ∈ D, y.1 ≤ nD)
    (hN : nS * nD ≤ 2147483647) :
    (∃ g', (setupAll srt tol dmin S D).pushNodes.addEdges = .ok g' ∧ EdgesRight g' tol dmin nS nD distS distD) ↔
    ∀ x ∈ S, ∀ y ∈ D, ∀ a < x.1, ∀ c < x.1, ∀ b < y.1, ∀ e < y.1, Consistent dmin tol x.2 y.2 a b c e → Consistent dmin tol distS distD a b c e := by
  obtain ⟨g', e0, hl, h⟩ := C63_history hs tol dmin S D nS nD distS distD hS hD hSn hDn hN
  constructor
  · rintro ⟨g1, f0, -, hr⟩ x hx y hy a ha c hc b hb e he hcon
    obtain rfl := Except.ok.inj (e0.symm.trans f0)
    have q1 := hSn x hx
    have q2 := hDn y hy
    obtain ⟨n1, g1, -, -, -, -, g2⟩ := h a (by omega) b (by omega)
    obtain ⟨n2, k1, -, -, -, -, k2⟩ := hr a (by omega) b (by omega)
    obtain rfl := Except.ok.inj (g1.symm.trans k1)
    exact (k2 c (by omega) e (by omega)).1 ((g2 c (by omega) e (by omega)).2 ⟨x, hx, y, hy, ha, hc, hb, he, hcon⟩)
  · intro hc
    refine ⟨g', e0, hl, fun a ha b hb => ?_⟩
    obtain ⟨n1, g1, g2, g3, g4, g5, g6⟩ := h a ha b hb
    refine ⟨n1, g1, g2, g3, g4, g5, fun c hcn e he => (g6 c hcn e he).trans ⟨?_, fun hcon => ?_⟩⟩
    · rintro ⟨x, hx, y, hy, h1, h2, h3, h4, hcon⟩
      exact hc x hx y hy a h1 c h2 b h3 e h4 hcon
    · exact ⟨_, List.mem_of_getLast? hS, _, List.mem_of_getLast? hD, ha, hcn, hb, he, hcon⟩

/-- Example: two source items at distance 1, then three at distances 5; the first two are still linked at distance 1. -/
example : ((setupAll isort (1 : ℚ) 0 [(2, fun _ _ => 1), (3, fun _ _ => 5)] [(2, fun _ _ => 1)]).pushNodes.addEdges.bind
    fun g => (g.nodes.get 0).map fun n => n.adjacents.labels) = .ok [3] := by decide +kernel

end Verif.CorrGraph
