import Verif.CorrGraph.Cliques
import Mathlib.Tactic.Ring
import Mathlib.Tactic.Linarith

/-! The construction of the graph. -/
namespace Verif.CorrGraph
open Verif LabelSet SortedList Spec
open _root_.Verif.Hough (bind_ok)
variable {K : Type}

/-- What `std::sort` guarantees: a permutation in the order of the distances. -/
def SortSpec [LinearOrder K] (srt : List (PairDistance K) → List (PairDistance K)) : Prop :=
  ∀ l, (srt l).Perm l ∧ (srt l).Pairwise fun a b => a.distance ≤ b.distance

theorem mem_pairDistances {n : ℕ} {dist : ℕ → ℕ → K} {p : PairDistance K} :
    p ∈ pairDistances n dist ↔ ∃ i0 i1 : ℕ, i0 < i1 ∧ i1 < n ∧ p = ⟨i0, i1, dist i0 i1⟩ := by
  simp only [pairDistances, List.mem_flatMap, List.mem_map, List.mem_range]
  constructor
  · rintro ⟨i0, h0, k, hk, rfl⟩
    exact ⟨i0, i0 + 1 + k, by omega, by omega, rfl⟩
  · rintro ⟨i0, i1, h0, h1, rfl⟩
    refine ⟨i0, by omega, i1 - (i0 + 1), by omega, ?_⟩
    rw [show i0 + 1 + (i1 - (i0 + 1)) = i1 by omega]

/-- `a` comes before or with `b` in the order: what is below `a` is below `b`, and what is above `b` is above `a`. -/
def Before [LT K] (a b : K) : Prop := (∀ x, x < a → x < b) ∧ ∀ x, b < x → a < x

/-- The list is in the order of the distances. -/
def Ordered [LT K] (l : List (PairDistance K)) : Prop := l.Pairwise fun a b => Before a.distance b.distance

theorem ordered_of_le [LinearOrder K] {l : List (PairDistance K)} (h : l.Pairwise fun a b => a.distance ≤ b.distance) : Ordered l :=
  h.imp fun hab => ⟨fun _ hx => lt_of_lt_of_le hx hab, fun _ hx => lt_of_le_of_lt hab hx⟩

theorem mem_upperBound [LT K] [DecidableLT K] {l : List (PairDistance K)} (h : Ordered l) {dmin : K} {p : PairDistance K} :
    p ∈ upperBound l dmin ↔ p ∈ l ∧ dmin < p.distance := by
  unfold upperBound
  induction l with
  | nil => simp
  | cons q l ih =>
    have hq := List.pairwise_cons.1 h
    by_cases hd : dmin < q.distance
    · rw [List.dropWhile_cons_of_neg (by simpa using hd), List.mem_cons]
      constructor
      · rintro (rfl | hp)
        · exact ⟨Or.inl rfl, hd⟩
        · exact ⟨Or.inr hp, (hq.1 p hp).1 _ hd⟩
      · exact fun hp => hp.1
    · rw [List.dropWhile_cons_of_pos (by simpa using hd), ih hq.2, List.mem_cons]
      constructor
      · exact fun hp => ⟨Or.inr hp.1, hp.2⟩
      · rintro ⟨rfl | hp, h'⟩
        · exact absurd h' hd
        · exact ⟨hp, h'⟩

theorem upperBound_sorted [LT K] [DecidableLT K] {l : List (PairDistance K)} (h : Ordered l) (dmin : K) :
    Ordered (upperBound l dmin) := h.sublist (List.dropWhile_sublist _)

theorem mem_takeWhile [LT K] [DecidableLT K] {l : List (PairDistance K)} (h : Ordered l) {dmax : K} {p : PairDistance K} :
    p ∈ l.takeWhile (fun d => decide (d.distance < dmax)) ↔ p ∈ l ∧ p.distance < dmax := by
  induction l with
  | nil => simp
  | cons q l ih =>
    have hq := List.pairwise_cons.1 h
    by_cases hd : q.distance < dmax
    · rw [List.takeWhile_cons_of_pos (by simpa using hd), List.mem_cons, List.mem_cons, ih hq.2]
      constructor
      · rintro (rfl | hp)
        · exact ⟨Or.inl rfl, hd⟩
        · exact ⟨Or.inr hp.1, hp.2⟩
      · rintro ⟨rfl | hp, h'⟩
        · exact Or.inl rfl
        · exact Or.inr ⟨hp, h'⟩
    · rw [List.takeWhile_cons_of_neg (by simpa using hd)]
      constructor
      · simp
      · rintro ⟨hp, h'⟩
        rcases List.mem_cons.1 hp with rfl | hp
        · exact absurd h' hd
        · exact absurd ((hq.1 p hp).2 _ h') hd

theorem nodeIndex_eq {nS nD a b : ℕ} (hN : nS * nD ≤ 2147483647) (ha : a < nS) (hb : b < nD) :
    nodeIndex nD a b = ((a * nD + b : ℕ) : ℤ) ∧ a * nD + b < nS * nD ∧ Cxx.toSize ((a * nD + b : ℕ) : ℤ) = a * nD + b := by
  have h1 : a * nD + b < nS * nD := by nlinarith
  have h2 : a < 2147483648 := by nlinarith
  have h3 : b < 2147483648 := by nlinarith
  have ea : Cxx.toSize (a : ℤ) = a := by unfold Cxx.toSize; omega
  have eb : Cxx.toSize (b : ℤ) = b := by unfold Cxx.toSize; omega
  refine ⟨?_, h1, ?_⟩
  · unfold nodeIndex
    rw [ea, eb]
    generalize a * nD + b = z at *
    unfold Cxx.ofSize
    rw [Nat.mod_eq_of_lt (by omega)]
    simp only [Int.bmod]
    split <;> omega
  · generalize a * nD + b = z at *
    unfold Cxx.toSize
    omega

theorem index_inj {nD a b c e : ℕ} (hb : b < nD) (he : e < nD) (h : a * nD + b = c * nD + e) : a = c ∧ b = e := by
  have h1 : (a * nD + b) / nD = a := by
    rw [Nat.add_comm, Nat.add_mul_div_right _ _ (by omega), Nat.div_eq_of_lt hb, Nat.zero_add]
  have h2 : (c * nD + e) / nD = c := by
    rw [Nat.add_comm, Nat.add_mul_div_right _ _ (by omega), Nat.div_eq_of_lt he, Nat.zero_add]
  have : a = c := by rw [← h1, h, h2]
  subst this
  exact ⟨rfl, by omega⟩

theorem foldl_push {α β : Type} (f : β → α) (l : List β) (v : Vec α) : (l.foldl (fun v x => v.push (f x)) v).len = v.len + l.length ∧
    (∀ j, j < v.len → (l.foldl (fun v x => v.push (f x)) v).val j = v.val j) ∧
    ∀ j x, l[j]? = some x → (l.foldl (fun v x => v.push (f x)) v).val (v.len + j) = f x := by
  induction l generalizing v with
  | nil => simp
  | cons y l ih =>
    obtain ⟨h1, h2, h3⟩ := ih (v.push (f y))
    rw [List.foldl_cons]
    refine ⟨by rw [h1]; simp only [Vec.push, List.length_cons]; omega, fun j hj => ?_, fun j x hx => ?_⟩
    · rw [h2 j (by simp only [Vec.push]; omega)]
      simp only [Vec.push]
      rw [if_neg (by omega)]
    · cases j with
      | zero =>
        rw [h2 _ (by simp [Vec.push])]
        simp only [List.getElem?_cons_zero, Option.some.injEq] at hx
        simp [Vec.push, hx]
      | succ j =>
        have := h3 j x (by simpa using hx)
        rw [← this]
        congr 1
        simp only [Vec.push]
        omega

/-- `nodes` are the nodes of `nS` source and `nD` destination items with edges `E`. -/
def NodesOk (nS nD : ℕ) (E : ℕ → ℕ → Prop) (nodes : Vec Node) : Prop :=
  nodes.len = nS * nD ∧ ∀ a < nS, ∀ b < nD, ∃ adj, nodes.val (a * nD + b) = ⟨((a * nD + b : ℕ) : ℤ), a, b, adj⟩ ∧ Sorted adj.labels ∧
    ∀ j : ℤ, j ∈ adj.labels ↔ ∃ k : ℕ, j = k ∧ E (a * nD + b) k

theorem pushNodes_ok {g : Graph K} (h0 : g.nodes.len = 0) (hN : g.numSrc * g.numDst ≤ 2147483647) :
    NodesOk g.numSrc g.numDst (fun _ _ => False) g.pushNodes.nodes := by
  unfold Graph.pushNodes
  dsimp only
  generalize g.numDst = nD at *
  generalize g.numSrc = nS at *
  generalize g.nodes = v at *
  have key : ∀ n ≤ nS, ((List.range n).foldl (fun v (is : ℕ) => (List.range nD).foldl (fun v (id : ℕ) => v.push ⟨nodeIndex nD is id, is, id, empty⟩) v) v).len = n * nD ∧
      ∀ a < n, ∀ b < nD, ((List.range n).foldl (fun v (is : ℕ) => (List.range nD).foldl (fun v (id : ℕ) => v.push ⟨nodeIndex nD is id, is, id, empty⟩) v) v).val (a * nD + b) =
        ⟨((a * nD + b : ℕ) : ℤ), a, b, empty⟩ := by
    intro n
    induction n with
    | zero => exact fun _ => ⟨by simpa using h0, by simp⟩
    | succ n ih =>
      intro hn
      obtain ⟨i1, i2⟩ := ih (by omega)
      rw [List.range_succ, List.foldl_append, List.foldl_cons, List.foldl_nil]
      obtain ⟨p1, p2, p3⟩ := foldl_push (fun id : ℕ => (⟨nodeIndex nD n id, n, id, empty⟩ : Node)) (List.range nD)
        ((List.range n).foldl (fun v (is : ℕ) => (List.range nD).foldl (fun v (id : ℕ) => v.push ⟨nodeIndex nD is id, is, id, empty⟩) v) v)
      rw [i1] at p1 p2 p3
      refine ⟨by rw [p1, List.length_range]; ring, fun a ha b hb => ?_⟩
      by_cases e : a = n
      · subst e
        rw [p3 b b (by simp [hb]), (nodeIndex_eq hN (by omega) hb).1]
      · rw [p2 _ (by nlinarith [show a + 1 ≤ n by omega]), i2 a (by omega) b hb]
  obtain ⟨k1, k2⟩ := key nS le_rfl
  exact ⟨k1, fun a ha b hb => ⟨empty, k2 a ha b hb, List.Pairwise.nil, by simp [empty]⟩⟩

theorem NodesOk.congr {nS nD : ℕ} {E E' : ℕ → ℕ → Prop} {nodes : Vec Node} (h : NodesOk nS nD E nodes) (e : ∀ k l, E k l ↔ E' k l) : NodesOk nS nD E' nodes := by
  rwa [show E' = E from by funext k l; exact propext (e k l).symm]

theorem insertAdjacent_ok {nS nD : ℕ} {E : ℕ → ℕ → Prop} {nodes : Vec Node} (h : NodesOk nS nD E nodes) (hN : nS * nD ≤ 2147483647) {a b : ℕ} (ha : a < nS) (hb : b < nD) (j : ℕ) :
    ∃ nodes', insertAdjacent nodes ((a * nD + b : ℕ) : ℤ) j = .ok nodes' ∧ NodesOk nS nD (fun k l => E k l ∨ (k = a * nD + b ∧ l = j)) nodes' := by
  obtain ⟨-, hi, ht⟩ := nodeIndex_eq hN ha hb
  obtain ⟨adj, h1, h2, h3⟩ := h.2 a ha b hb
  have hlen := h.1
  unfold insertAdjacent
  rw [ht, Vec.get_nat _ (by omega), bind_ok, Vec.set_nat _ (by omega)]
  refine ⟨_, rfl, by simpa using hlen, fun c hc e he => ?_⟩
  dsimp only
  by_cases hk : c * nD + e = a * nD + b
  · obtain ⟨rfl, rfl⟩ := index_inj he hb hk
    rw [if_pos rfl, h1]
    refine ⟨_, rfl, sorted_insert' h2 _, fun z => ?_⟩
    rw [← mem_toFinset, toFinset_insert h2, Finset.mem_insert, mem_toFinset, h3]
    constructor
    · rintro (rfl | ⟨k, rfl, hk⟩)
      · exact ⟨j, rfl, Or.inr ⟨rfl, rfl⟩⟩
      · exact ⟨k, rfl, Or.inl hk⟩
    · rintro ⟨k, rfl, hk | ⟨-, rfl⟩⟩
      · exact Or.inr ⟨k, rfl, hk⟩
      · exact Or.inl rfl
  · rw [if_neg hk]
    obtain ⟨adj', g1, g2, g3⟩ := h.2 c hc e he
    refine ⟨adj', g1, g2, fun z => ?_⟩
    rw [g3]
    simp [hk]

theorem addEdge_ok {nS nD : ℕ} {E : ℕ → ℕ → Prop} {nodes : Vec Node} (h : NodesOk nS nD E nodes) (hN : nS * nD ≤ 2147483647) {a b c e : ℕ} (ha : a < nS) (hb : b < nD)
    (hc : c < nS) (he : e < nD) : ∃ nodes', addEdge nodes (nodeIndex nD a b) (nodeIndex nD c e) = .ok nodes' ∧
      NodesOk nS nD (fun k l => E k l ∨ (k = a * nD + b ∧ l = c * nD + e) ∨ (k = c * nD + e ∧ l = a * nD + b)) nodes' := by
  obtain ⟨i1, i2, i3⟩ := nodeIndex_eq hN ha hb
  obtain ⟨j1, j2, j3⟩ := nodeIndex_eq hN hc he
  obtain ⟨n1, e1, o1⟩ := insertAdjacent_ok h hN ha hb (c * nD + e)
  obtain ⟨n2, e2, o2⟩ := insertAdjacent_ok o1 hN hc he (a * nD + b)
  have hlen := h.1
  refine ⟨n2, ?_, o2.congr fun k l => or_assoc⟩
  unfold addEdge
  rw [i1, j1, i3, j3, hlen, Cxx.assert, if_pos i2, bind_ok, Cxx.assert, if_pos j2, bind_ok, e1, bind_ok, e2]

theorem foldlM_edges {τ : Type} {nS nD : ℕ} {f : Vec Node → τ → Outcome (Vec Node)} {B : τ → ℕ → ℕ → Prop} (l : List τ)
    (hf : ∀ x ∈ l, ∀ E nodes, NodesOk nS nD E nodes → ∃ nodes', f nodes x = .ok nodes' ∧ NodesOk nS nD (fun k l => E k l ∨ B x k l) nodes')
    {E : ℕ → ℕ → Prop} {nodes : Vec Node} (h : NodesOk nS nD E nodes) :
    ∃ nodes', l.foldlM f nodes = .ok nodes' ∧ NodesOk nS nD (fun k j => E k j ∨ ∃ x ∈ l, B x k j) nodes' := by
  induction l generalizing E nodes with
  | nil => exact ⟨nodes, rfl, h.congr (by simp)⟩
  | cons x l ih =>
    obtain ⟨n1, e1, o1⟩ := hf x (by simp) E nodes h
    obtain ⟨n2, e2, o2⟩ := ih (fun y hy => hf y (by simp [hy])) o1
    refine ⟨n2, ?_, o2.congr fun k j => ?_⟩
    · rw [List.foldlM_cons, e1, bind_ok, e2]
    · simp only [List.mem_cons, exists_eq_or_imp]
      tauto

/-- The edges of a pair of source items and a pair of destination items. -/
def PairEdges (nD : ℕ) (a c b e k l : ℕ) : Prop :=
  (k = a * nD + b ∧ l = c * nD + e) ∨ (k = c * nD + e ∧ l = a * nD + b) ∨ (k = a * nD + e ∧ l = c * nD + b) ∨ (k = c * nD + b ∧ l = a * nD + e)

theorem addEdges_ok [LT K] [DecidableLT K] [Add K] [Sub K] {g : Graph K} {distS distD : ℕ → ℕ → K} (hS : Ordered g.distancesSrc)
    (hD : Ordered g.distancesDst) (hS' : ∀ p, p ∈ g.distancesSrc ↔ p ∈ pairDistances g.numSrc distS)
    (hD' : ∀ p, p ∈ g.distancesDst ↔ p ∈ pairDistances g.numDst distD) (hN : g.numSrc * g.numDst ≤ 2147483647)
    (h : NodesOk g.numSrc g.numDst (fun _ _ => False) g.nodes) :
    ∃ g', g.addEdges = .ok g' ∧ g'.numSrc = g.numSrc ∧ g'.numDst = g.numDst ∧ NodesOk g.numSrc g.numDst (fun k l => ∃ a < g.numSrc, ∃ b < g.numDst, ∃ c < g.numSrc, ∃ e < g.numDst,
      k = a * g.numDst + b ∧ l = c * g.numDst + e ∧ Consistent g.distMin g.distTol distS distD a b c e) g'.nodes := by
  have hmemS : ∀ s, s ∈ upperBound g.distancesSrc g.distMin ↔ ∃ a c : ℕ, a < c ∧ c < g.numSrc ∧ s = ⟨a, c, distS a c⟩ ∧ g.distMin < distS a c := by
    intro s
    rw [mem_upperBound hS, hS', mem_pairDistances]
    constructor
    · rintro ⟨⟨a, c, h1, h2, rfl⟩, h3⟩
      exact ⟨a, c, h1, h2, rfl, h3⟩
    · rintro ⟨a, c, h1, h2, rfl, h3⟩
      exact ⟨⟨a, c, h1, h2, rfl⟩, h3⟩
  have hmemD : ∀ x y d, d ∈ (upperBound g.distancesDst x).takeWhile (fun d => decide (d.distance < y)) ↔
      ∃ b e : ℕ, b < e ∧ e < g.numDst ∧ d = ⟨b, e, distD b e⟩ ∧ x < distD b e ∧ distD b e < y := by
    intro x y d
    rw [mem_takeWhile (upperBound_sorted hD _), mem_upperBound hD, hD', mem_pairDistances]
    constructor
    · rintro ⟨⟨⟨a, c, h1, h2, rfl⟩, h3⟩, h4⟩
      exact ⟨a, c, h1, h2, rfl, h3, h4⟩
    · rintro ⟨a, c, h1, h2, rfl, h3, h4⟩
      exact ⟨⟨⟨a, c, h1, h2, rfl⟩, h3⟩, h4⟩
  obtain ⟨nodes, e1, o1⟩ := foldlM_edges (nS := g.numSrc) (nD := g.numDst) (f := fun nodes s =>
      ((upperBound g.distancesDst (s.distance - g.distTol)).takeWhile fun d => decide (d.distance < s.distance + g.distTol)).foldlM
        (fun nodes d => addPair g.numDst nodes s d) nodes)
      (B := fun s k l => ∃ d ∈ (upperBound g.distancesDst (s.distance - g.distTol)).takeWhile (fun d => decide (PairDistance.distance d < s.distance + g.distTol)),
        PairEdges g.numDst s.i0.toNat s.i1.toNat d.i0.toNat d.i1.toNat k l) (upperBound g.distancesSrc g.distMin) (by
    intro s hs E nodes hE
    obtain ⟨a, c, h1, h2, rfl, -⟩ := (hmemS s).1 hs
    refine foldlM_edges _ ?_ hE
    intro d hd E nodes hE
    obtain ⟨b, e, h3, h4, rfl, -⟩ := (hmemD _ _ d).1 hd
    obtain ⟨n1, e1, o1⟩ := addEdge_ok hE hN (a := a) (b := b) (c := c) (e := e) (by omega) (by omega) (by omega) (by omega)
    obtain ⟨n2, e2, o2⟩ := addEdge_ok o1 hN (a := a) (b := e) (c := c) (e := b) (by omega) (by omega) (by omega) (by omega)
    refine ⟨n2, ?_, o2.congr fun k l => ?_⟩
    · unfold addPair
      dsimp only
      rw [e1, bind_ok, e2]
    · simp only [PairEdges, Int.toNat_natCast]
      tauto) h
  refine ⟨{ g with nodes := nodes }, ?_, rfl, rfl, o1.congr fun k l => ?_⟩
  · unfold Graph.addEdges
    rw [e1]
    rfl
  · rw [false_or]
    constructor
    · rintro ⟨s, hs, d, hd, hp⟩
      obtain ⟨a, c, h1, h2, rfl, h3⟩ := (hmemS s).1 hs
      obtain ⟨b, e, h4, h5, rfl, h6, h7⟩ := (hmemD _ _ d).1 hd
      dsimp only at h6 h7
      simp only [PairEdges, Int.toNat_natCast] at hp
      have e1 : min a c = a := by omega
      have e2 : max a c = c := by omega
      have e3 : min b e = b := by omega
      have e4 : max b e = e := by omega
      have e1' : min c a = a := by omega
      have e2' : max c a = c := by omega
      have e3' : min e b = b := by omega
      have e4' : max e b = e := by omega
      rcases hp with ⟨rfl, rfl⟩ | ⟨rfl, rfl⟩ | ⟨rfl, rfl⟩ | ⟨rfl, rfl⟩
      · exact ⟨a, by omega, b, by omega, c, by omega, e, by omega, rfl, rfl, by omega, by omega, by simp only [dist2, e1, e2, e3, e4]; exact ⟨h3, h6, h7⟩⟩
      · exact ⟨c, by omega, e, by omega, a, by omega, b, by omega, rfl, rfl, by omega, by omega, by simp only [dist2, e1', e2', e3', e4']; exact ⟨h3, h6, h7⟩⟩
      · exact ⟨a, by omega, e, by omega, c, by omega, b, by omega, rfl, rfl, by omega, by omega, by simp only [dist2, e1, e2, e3', e4']; exact ⟨h3, h6, h7⟩⟩
      · exact ⟨c, by omega, b, by omega, a, by omega, e, by omega, rfl, rfl, by omega, by omega, by simp only [dist2, e1', e2', e3, e4]; exact ⟨h3, h6, h7⟩⟩
    · rintro ⟨a, ha, b, hb, c, hc, e, he, rfl, rfl, hac, hbe, h1, h2, h3⟩
      refine ⟨_, (hmemS _).2 ⟨min a c, max a c, by omega, by omega, rfl, h1⟩, _, (hmemD _ _ _).2 ⟨min b e, max b e, by omega, by omega, rfl, h2, h3⟩, ?_⟩
      simp only [PairEdges, Int.toNat_natCast]
      rcases Nat.lt_or_ge a c with p | p <;> rcases Nat.lt_or_ge b e with q | q
      · rw [show min a c = a by omega, show max a c = c by omega, show min b e = b by omega, show max b e = e by omega]; simp
      · rw [show min a c = a by omega, show max a c = c by omega, show min b e = e by omega, show max b e = b by omega]; simp
      · rw [show min a c = c by omega, show max a c = a by omega, show min b e = b by omega, show max b e = e by omega]; simp
      · rw [show min a c = c by omega, show max a c = a by omega, show min b e = e by omega, show max b e = b by omega]; simp

end Verif.CorrGraph
