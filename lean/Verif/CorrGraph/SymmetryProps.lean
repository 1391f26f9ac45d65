import Verif.CorrGraph.Props

/-! Property theorems C158 (see properties.jsonl): symmetries and monotonicity of the correspondence graph. -/
namespace Verif.CorrGraph
open Verif LabelSet SortedList Spec

variable {K : Type}

/-- After inserting the items, the graph links the correspondences `a → b` and `c → e` (positions `a * nD + b` and `c * nD + e`). -/
def Links [LT K] [DecidableLT K] [Add K] [Sub K] (srt : List (PairDistance K) → List (PairDistance K)) (tol dmin : K) (nS nD : ℕ) (distS distD : ℕ → ℕ → K) (a b c e : ℕ) : Prop :=
  ∃ g' node, (setup srt tol dmin nS nD distS distD).pushNodes.addEdges = .ok g' ∧ g'.nodes.get ((a * nD + b : ℕ) : ℤ) = .ok node ∧
    inside node.adjacents ((c * nD + e : ℕ) : ℤ) = true

variable [Field K] [LinearOrder K] [IsStrictOrderedRing K] {srt srt' : List (PairDistance K) → List (PairDistance K)} {tol tol' dmin dmin' : K} {nS nD : ℕ} {distS distD : ℕ → ℕ → K}

theorem links_iff (hs : SortSpec srt) (hN : nS * nD ≤ 2147483647) {a b c e : ℕ} (ha : a < nS) (hb : b < nD) (hc : c < nS) (he : e < nD) :
    Links srt tol dmin nS nD distS distD a b c e ↔ a ≠ c ∧ b ≠ e ∧ dmin < dist2 distS a c ∧ |dist2 distS a c - dist2 distD b e| < tol := by
  rw [← C63_tolerance]
  obtain ⟨g, eg, -, h⟩ := C63_edges_partial hs tol dmin nS nD distS distD hN
  obtain ⟨n, en, -, -, -, -, h⟩ := h a ha b hb
  rw [← h c hc e he]
  constructor
  · rintro ⟨g', n', eg', en', h'⟩
    obtain rfl : g = g' := by rw [eg] at eg'; exact Except.ok.inj eg'
    obtain rfl : n = n' := by rw [en] at en'; exact Except.ok.inj en'
    exact h'
  · exact fun h' => ⟨g, n, eg, en, h'⟩

/-- C158: a larger tolerance and a smaller minimum distance remove no link, whatever the sorting functions do with equal distances. -/
theorem C158_monotone (hs : SortSpec srt) (hs' : SortSpec srt') (hN : nS * nD ≤ 2147483647) (ht : tol ≤ tol') (hd : dmin' ≤ dmin) {a b c e : ℕ} (ha : a < nS) (hb : b < nD) (hc : c < nS) (he : e < nD)
    (h : Links srt tol dmin nS nD distS distD a b c e) : Links srt' tol' dmin' nS nD distS distD a b c e := by
  rw [links_iff hs hN ha hb hc he] at h
  rw [links_iff hs' hN ha hb hc he]
  exact ⟨h.1, h.2.1, hd.trans_lt h.2.2.1, h.2.2.2.trans_le ht⟩

theorem dist2_relabel {dist : ℕ → ℕ → K} (hd : ∀ i j, dist i j = dist j i) (f : ℕ → ℕ) (i j : ℕ) : dist2 (fun i j => dist (f i) (f j)) i j = dist2 dist (f i) (f j) := by
  have key : ∀ i j, dist2 dist i j = dist i j := fun i j => by
    unfold dist2
    rcases le_total i j with h | h
    · rw [min_eq_left h, max_eq_right h]
    · rw [min_eq_right h, max_eq_left h, hd]
  rw [key]
  show dist (f (min i j)) (f (max i j)) = _
  rcases le_total i j with h | h
  · rw [min_eq_left h, max_eq_right h]
  · rw [min_eq_right h, max_eq_left h, hd]

/-- C158: with symmetric distances, the items of a selection in any order (`f`, `g` injective) have the links of the items they are: the order of insertion and the other items do not matter. -/
theorem C158_relabel (hs : SortSpec srt) (hs' : SortSpec srt') {mS mD : ℕ} (hN : nS * nD ≤ 2147483647) (hM : mS * mD ≤ 2147483647) (hS : ∀ i j, distS i j = distS j i) (hD : ∀ i j, distD i j = distD j i)
    (f g : ℕ → ℕ) (hf : ∀ i < mS, f i < nS) (hg : ∀ i < mD, g i < nD) (fi : ∀ i < mS, ∀ j < mS, f i = f j → i = j) (gi : ∀ i < mD, ∀ j < mD, g i = g j → i = j)
    {a b c e : ℕ} (ha : a < mS) (hb : b < mD) (hc : c < mS) (he : e < mD) :
    Links srt' tol dmin mS mD (fun i j => distS (f i) (f j)) (fun i j => distD (g i) (g j)) a b c e ↔ Links srt tol dmin nS nD distS distD (f a) (g b) (f c) (g e) := by
  rw [links_iff hs' hM ha hb hc he, links_iff hs hN (hf a ha) (hg b hb) (hf c hc) (hg e he), dist2_relabel hS, dist2_relabel hD]
  have h1 : a ≠ c ↔ f a ≠ f c := not_congr ⟨fun h => h ▸ rfl, fi a ha c hc⟩
  have h2 : b ≠ e ↔ g b ≠ g e := not_congr ⟨fun h => h ▸ rfl, gi b hb e he⟩
  rw [h1, h2]

/-- C158: the unit of length does not matter. -/
theorem C158_scale (hs : SortSpec srt) (hs' : SortSpec srt') (hN : nS * nD ≤ 2147483647) {k : K} (hk : 0 < k) {a b c e : ℕ} (ha : a < nS) (hb : b < nD) (hc : c < nS) (he : e < nD) :
    Links srt' (k * tol) (k * dmin) nS nD (fun i j => k * distS i j) (fun i j => k * distD i j) a b c e ↔ Links srt tol dmin nS nD distS distD a b c e := by
  rw [links_iff hs' hN ha hb hc he, links_iff hs hN ha hb hc he]
  have h1 : dist2 (fun i j => k * distS i j) a c = k * dist2 distS a c := rfl
  have h2 : dist2 (fun i j => k * distD i j) b e = k * dist2 distD b e := rfl
  rw [h1, h2, mul_lt_mul_iff_right₀ hk, ← mul_sub, abs_mul, abs_of_pos hk, mul_lt_mul_iff_right₀ hk]

/-- C158: every correspondence graph with the roles of source and destination exchanged has the same links. -/
def C158_statement (K : Type) [Field K] [LinearOrder K] [IsStrictOrderedRing K] : Prop :=
  ∀ (srt : List (PairDistance K) → List (PairDistance K)) (tol dmin : K) (nS nD : ℕ) (distS distD : ℕ → ℕ → K), SortSpec srt → 0 ≤ dmin → nS * nD ≤ 2147483647 →
    ∀ a < nS, ∀ b < nD, ∀ c < nS, ∀ e < nD, Links srt tol dmin nS nD distS distD a b c e ↔ Links srt tol dmin nD nS distD distS b a e c

/-- C158 (partial), exactly: the exchange keeps the link of two different correspondences of the same length up to the tolerance if and only if both distances exceed the minimum or neither does: the
code compares only the distance of the sources with the minimum. Missing: the pairs of distances on different sides of the minimum, `C158_violated`. -/
theorem C158_exchange_partial (hs : SortSpec srt) (hs' : SortSpec srt') (hN : nS * nD ≤ 2147483647) {a b c e : ℕ} (ha : a < nS) (hb : b < nD) (hc : c < nS) (he : e < nD) :
    (Links srt tol dmin nS nD distS distD a b c e ↔ Links srt' tol dmin nD nS distD distS b a e c) ↔
      (a ≠ c → b ≠ e → |dist2 distS a c - dist2 distD b e| < tol → (dmin < dist2 distS a c ↔ dmin < dist2 distD b e)) := by
  rw [links_iff hs hN ha hb hc he, links_iff hs' (by rw [Nat.mul_comm]; exact hN) hb ha he hc, abs_sub_comm (dist2 distD b e)]
  tauto

/-- C158 (partial): the links over distances greater than the sum of the minimum and the tolerance do not depend on which set is the source. -/
theorem C158_far_partial (hs : SortSpec srt) (hs' : SortSpec srt') (hN : nS * nD ≤ 2147483647) {a b c e : ℕ} (ha : a < nS) (hb : b < nD) (hc : c < nS) (he : e < nD)
    (hf : dmin + tol ≤ dist2 distS a c) :
    Links srt tol dmin nS nD distS distD a b c e → Links srt' tol dmin nD nS distD distS b a e c := by
  rw [links_iff hs hN ha hb hc he, links_iff hs' (by rw [Nat.mul_comm]; exact hN) hb ha he hc, abs_sub_comm (dist2 distD b e)]
  rintro ⟨h1, h2, h3, h4⟩
  exact ⟨h2, h1, by rw [abs_lt] at h4; linarith [h4.2], h4⟩

/-- C158 is violated: with sources at distance 2, destinations at distance 1, a minimum of 1 and a tolerance of 2, the two correspondences are linked, and not linked after the exchange. -/
theorem C158_violated : ¬ C158_statement ℚ := by
  intro h
  have h1 := h isort 2 1 2 2 (fun _ _ => 2) (fun _ _ => 1) isort_spec (by norm_num) (by norm_num) 0 (by norm_num) 0 (by norm_num) 1 (by norm_num) 1 (by norm_num)
  rw [links_iff isort_spec (by norm_num) (by norm_num) (by norm_num) (by norm_num) (by norm_num), links_iff isort_spec (by norm_num) (by norm_num) (by norm_num) (by norm_num) (by norm_num)] at h1
  norm_num [dist2] at h1

/-- Three sources on a line and two of the destinations: the link of `0 → 1` and `2 → 0`. -/
example : Links isort (1 / 2 : ℚ) 0 3 2 (fun i j => |(i : ℚ) - j|) (fun i j => |9 / 4 * (i : ℚ) - 9 / 4 * j|) 0 1 2 0 := by
  rw [links_iff isort_spec (by norm_num) (by norm_num) (by norm_num) (by norm_num) (by norm_num)]
  norm_num [dist2, abs_lt]

/-- The same link with the sources in the order 2, 0. -/
example : Links isort (1 / 2 : ℚ) 0 2 2 (fun i j => |((2 - 2 * i : ℕ) : ℚ) - (2 - 2 * j : ℕ)|) (fun i j => |9 / 4 * (i : ℚ) - 9 / 4 * j|) 1 1 0 0 :=
  (C158_relabel (srt := isort) (srt' := isort) (tol := 1 / 2) (dmin := 0) (nS := 3) (nD := 2) (mS := 2) (mD := 2) (distS := fun i j => |(i : ℚ) - j|) (distD := fun i j => |9 / 4 * (i : ℚ) - 9 / 4 * j|)
    isort_spec isort_spec (by norm_num) (by norm_num) (fun i j => abs_sub_comm _ _) (fun i j => abs_sub_comm _ _)
    (fun i => 2 - 2 * i) (fun i => i) (fun i _ => by omega) (fun i h => h) (fun i hi j hj h => by omega) (fun i _ j _ h => h) (a := 1) (b := 1) (c := 0) (e := 0) (by norm_num) (by norm_num) (by norm_num) (by norm_num)).2
    ((links_iff isort_spec (by norm_num) (by norm_num) (by norm_num) (by norm_num) (by norm_num)).2 (by norm_num [dist2, abs_lt]))

end Verif.CorrGraph
