import Verif.CorrGraph.Props
import Verif.Ieee.FpSpec
import Verif.Ieee.Cast
import Verif.Ieee.Rel

/-! Property theorem C122 (see properties.jsonl): the edges of the correspondence graph in `float` arithmetic, `using Scalar = float`, geometry/include/rofl/geometry/types.h:39. -/
namespace Verif.CorrGraph
open Verif LabelSet Spec Ieee Ieee.Fp Float.Model

/-- What `std::sort` guarantees for finite distances: a permutation in the order of the distances. -/
def SortFp (srt : List (PairDistance Flt) → List (PairDistance Flt)) : Prop :=
  ∀ l, (∀ p ∈ l, p.distance.Fin) → (srt l).Perm l ∧ (srt l).Pairwise fun a b => ¬ b.distance < a.distance

/-- Finite numbers are alike for infinities and NaN. -/
theorem lt_inf {x a b : Flt} (hx : ¬ x.Fin) (ha : a.Fin) (hb : b.Fin) : (x < a → x < b) ∧ (b < x → a < x) := by
  show (x.x.lt a.x = true → x.x.lt b.x = true) ∧ (b.x.lt x.x = true → a.x.lt x.x = true)
  unfold Fp.Fin at hx ha hb
  cases h1 : x.x with
  | zero s => rw [h1] at hx; exact absurd trivial hx
  | finite s m e hm => rw [h1] at hx; exact absurd trivial hx
  | notANumber => constructor <;> cases a.x <;> cases b.x <;> simp_all [UnpackedFloat.lt, UnpackedFloat.compare, Ieee.Fin]
  | infinity s =>
    cases s <;> constructor <;> cases h2 : a.x <;> cases h3 : b.x <;> simp_all [UnpackedFloat.lt, UnpackedFloat.compare, Ieee.Fin]

theorem before_fp {a b : Flt} (ha : a.Fin) (hb : b.Fin) (h : ¬ b < a) : Before a b := by
  rw [lt_iff hb ha, not_lt] at h
  constructor
  · intro x hx
    by_cases hf : x.Fin
    · rw [lt_iff hf ha] at hx
      rw [lt_iff hf hb]
      linarith
    · exact (lt_inf hf ha hb).1 hx
  · intro x hx
    by_cases hf : x.Fin
    · rw [lt_iff hb hf] at hx
      rw [lt_iff ha hf]
      linarith
    · exact (lt_inf hf ha hb).2 hx

/-- The items: the distances, the tolerance and the minimum are finite, and the distances of the source items with the tolerance are at most 2^k. -/
structure Dom (k : ℤ) (tol dmin : Flt) (nS nD : ℕ) (distS distD : ℕ → ℕ → Flt) : Prop where
  k0 : -125 ≤ k
  k1 : k ≤ 127
  size : nS * nD ≤ 2147483647
  tolFin : tol.Fin
  minFin : dmin.Fin
  src : ∀ i j, i < j → j < nS → (distS i j).Fin ∧ |(distS i j).val| + |tol.val| ≤ 2 ^ k
  dst : ∀ i j, i < j → j < nD → (distD i j).Fin

/-- The correspondences `a → b` and `c → e` are consistent, in exact arithmetic, with a margin `ε`: different items, whose distances differ by less than the tolerance minus `ε`. -/
def Close (ε : ℝ) (tol dmin : Flt) (distS distD : ℕ → ℕ → Flt) (a b c e : ℕ) : Prop :=
  a ≠ c ∧ b ≠ e ∧ dmin.val < (dist2 distS a c).val ∧ |(dist2 distS a c).val - (dist2 distD b e).val| < tol.val - ε

/-- The state after the graph is built on `nS` and `nD` items: node `a * nD + b` stands for the correspondence `a → b`; it is linked to all the correspondences that
satisfy `lower`, and only to correspondences that satisfy `upper`. -/
def EdgesBetween (g' : Graph Flt) (nS nD : ℕ) (lower upper : ℕ → ℕ → ℕ → ℕ → Prop) : Prop :=
  g'.nodes.len = nS * nD ∧ ∀ a < nS, ∀ b < nD, ∃ node, g'.nodes.get ((a * nD + b : ℕ) : ℤ) = .ok node ∧ node.index = a * nD + b ∧ node.isrc = a ∧ node.idst = b ∧
    (∀ j, inside node.adjacents j = true → ∃ c < nS, ∃ e < nD, j = ((c * nD + e : ℕ) : ℤ) ∧ upper a b c e) ∧
    ∀ c < nS, ∀ e < nD, lower a b c e → inside node.adjacents ((c * nD + e : ℕ) : ℤ) = true

section
variable {k : ℤ} {tol dmin : Flt} {nS nD : ℕ} {distS distD : ℕ → ℕ → Flt}

/-- The graph: the links are those consistent for the rounded comparisons. -/
theorem build_fp (h : Dom k tol dmin nS nD distS distD) {srt : List (PairDistance Flt) → List (PairDistance Flt)} (hs : SortFp srt) {lower upper : ℕ → ℕ → ℕ → ℕ → Prop}
    (hl : ∀ a < nS, ∀ b < nD, ∀ c < nS, ∀ e < nD, (lower a b c e → Consistent dmin tol distS distD a b c e) ∧ (Consistent dmin tol distS distD a b c e → upper a b c e)) :
    ∃ g', (setup srt tol dmin nS nD distS distD).pushNodes.addEdges = .ok g' ∧ EdgesBetween g' nS nD lower upper := by
  have key : ∀ n (dist : ℕ → ℕ → Flt), (∀ i j, i < j → j < n → (dist i j).Fin) →
      (srt (pairDistances n dist)).Perm (pairDistances n dist) ∧ Ordered (srt (pairDistances n dist)) := by
    intro n dist hd
    have hf : ∀ p ∈ pairDistances n dist, p.distance.Fin := by
      intro p hp
      obtain ⟨i, j, h1, h2, rfl⟩ := mem_pairDistances.1 hp
      exact hd i j h1 h2
    obtain ⟨s1, s2⟩ := hs _ hf
    refine ⟨s1, s2.imp_of_mem ?_⟩
    intro p q hp hq hpq
    exact before_fp (hf p (s1.mem_iff.1 hp)) (hf q (s1.mem_iff.1 hq)) hpq
  obtain ⟨g', e, o⟩ := build_ordered tol dmin nS nD distS distD (key nS distS fun i j h1 h2 => (h.src i j h1 h2).1) (key nD distD h.dst) h.size
  obtain ⟨o1, o2⟩ := edgesRight_of_nodesOk h.size o
  refine ⟨g', e, o1, fun a ha b hb => ?_⟩
  obtain ⟨node, p1, p2, p3, p4, p5, p6⟩ := o2 a ha b hb
  refine ⟨node, p1, p2, p3, p4, fun j hj => ?_, fun c hc e he hle => (p6 c hc e he).2 ((hl a ha b hb c hc e he).1 hle)⟩
  obtain ⟨c, hc, e, he, rfl⟩ := p5 j hj
  exact ⟨c, hc, e, he, rfl, (hl a ha b hb c hc e he).2 ((p6 c hc e he).1 hj)⟩

theorem limits_is (h : Dom k tol dmin nS nD distS distD) {a c : ℕ} (ha : a < nS) (hc : c < nS) (hac : a ≠ c) : (dist2 distS a c).Fin ∧
    (dist2 distS a c - tol).Is ((dist2 distS a c).val - tol.val) ∧ (dist2 distS a c + tol).Is ((dist2 distS a c).val + tol.val) ∧
    |(dist2 distS a c).val - tol.val| ≤ 2 ^ k ∧ |(dist2 distS a c).val + tol.val| ≤ 2 ^ k := by
  obtain ⟨f1, f2⟩ := h.src (min a c) (max a c) (by omega) (by omega)
  unfold dist2
  have h1 := (abs_sub _ _ : |(distS (min a c) (max a c)).val - tol.val| ≤ _).trans f2
  have h2 := (abs_add_le (distS (min a c) (max a c)).val tol.val).trans f2
  have hk : (2 : ℝ) ^ k ≤ 2 ^ (127 : ℤ) := two_pow_le h.k1
  exact ⟨f1, sub_is f1 h.tolFin (h1.trans hk), add_is f1 h.tolFin (h2.trans hk), h1, h2⟩

/-- The rounded comparisons: never true for distances that differ by the tolerance or more, and true for those that differ by less, up to the rounding error. -/
theorem consistent_fp (h : Dom k tol dmin nS nD distS distD) {a b c e : ℕ} (ha : a < nS) (hb : b < nD) (hc : c < nS) (he : e < nD) :
    (Close (2 ^ (k - 25)) tol dmin distS distD a b c e → Consistent dmin tol distS distD a b c e) ∧
    (Consistent dmin tol distS distD a b c e → Close 0 tol dmin distS distD a b c e) := by
  have hk0 := h.k0
  constructor
  · rintro ⟨h1, h2, h3, h4⟩
    obtain ⟨f, i1, i2, b1, b2⟩ := limits_is h ha hc h1
    have fd : (dist2 distD b e).Fin := h.dst _ _ (by omega) (by omega)
    have e1 := abs_le.1 (i1.2.err (show (-149 : ℤ) + 24 ≤ k by omega) b1)
    have e2 := abs_le.1 (i2.2.err (show (-149 : ℤ) + 24 ≤ k by omega) b2)
    have h4' := abs_lt.1 h4
    have ek : (2 : ℝ) ^ (k - 25) = 2 ^ (k - (24 : ℕ) - 1) := by congr 1; push_cast; ring
    have e1' : -(2 : ℝ) ^ (k - 25) ≤ (dist2 distS a c - tol).val - ((dist2 distS a c).val - tol.val) ∧
      (dist2 distS a c - tol).val - ((dist2 distS a c).val - tol.val) ≤ 2 ^ (k - 25) := by rw [ek]; exact e1
    have e2' : -(2 : ℝ) ^ (k - 25) ≤ (dist2 distS a c + tol).val - ((dist2 distS a c).val + tol.val) ∧
      (dist2 distS a c + tol).val - ((dist2 distS a c).val + tol.val) ≤ 2 ^ (k - 25) := by rw [ek]; exact e2
    refine ⟨h1, h2, (lt_iff h.minFin f).2 h3, (lt_iff i1.1 fd).2 ?_, (lt_iff fd i2.1).2 ?_⟩
    · linarith [e1'.2, h4'.2]
    · linarith [e2'.1, h4'.1]
  · rintro ⟨h1, h2, h3, h4, h5⟩
    obtain ⟨f, i1, i2, b1, b2⟩ := limits_is h ha hc h1
    have fd : (dist2 distD b e).Fin := h.dst _ _ (by omega) (by omega)
    rw [lt_iff h.minFin f] at h3
    rw [lt_iff i1.1 fd] at h4
    rw [lt_iff fd i2.1] at h5
    refine ⟨h1, h2, h3, ?_⟩
    rw [sub_zero, abs_lt]
    constructor
    · by_contra hn
      exact absurd (i2.2.mono_le (dist2 distD b e).grid (by linarith)) (not_le.2 h5)
    · by_contra hn
      exact absurd (i1.2.mono_ge (dist2 distD b e).grid (by linarith)) (not_le.2 h4)

/-- C122: `associate` links exactly the correspondences whose distances differ by less than the tolerance. -/
def C122_statement : Prop :=
  ∀ (srt : List (PairDistance Flt) → List (PairDistance Flt)) (tol dmin : Flt) (nS nD : ℕ) (distS distD : ℕ → ℕ → Flt), SortFp srt → Dom 127 tol dmin nS nD distS distD →
    ∃ g', (setup srt tol dmin nS nD distS distD).pushNodes.addEdges = .ok g' ∧
      EdgesBetween g' nS nD (Close 0 tol dmin distS distD) (Close 0 tol dmin distS distD)

/-- C122, the part that holds: no wrong link, and all the links of the correspondences whose distances differ by less than the tolerance minus 2^(k - 25), where the distances and the
tolerance are at most 2^k. Missing: the correspondences whose distances differ by a little less than the tolerance, for which it is false, see `C122_violated`. -/
theorem C122_edges_partial (h : Dom k tol dmin nS nD distS distD) {srt : List (PairDistance Flt) → List (PairDistance Flt)} (hs : SortFp srt) :
    ∃ g', (setup srt tol dmin nS nD distS distD).pushNodes.addEdges = .ok g' ∧
      EdgesBetween g' nS nD (Close (2 ^ (k - 25)) tol dmin distS distD) (Close 0 tol dmin distS distD) :=
  build_fp h hs fun _ ha _ hb _ hc _ he => consistent_fp h ha hb hc he

/-- C122 is exact when the distances of the source items and the tolerance are multiples of 2^j of size up to 2^(j + 24), as with integers up to 2^24. -/
theorem C122_multiples (h : Dom k tol dmin nS nD distS distD) {srt : List (PairDistance Flt) → List (PairDistance Flt)} (hs : SortFp srt) {j : ℤ} (hj : -149 ≤ j) (hk : k ≤ j + 24)
    (ht : ∃ n : ℤ, tol.val = n * 2 ^ j) (hd : ∀ i i', i < i' → i' < nS → ∃ n : ℤ, (distS i i').val = n * 2 ^ j) :
    ∃ g', (setup srt tol dmin nS nD distS distD).pushNodes.addEdges = .ok g' ∧
      EdgesBetween g' nS nD (Close 0 tol dmin distS distD) (Close 0 tol dmin distS distD) := by
  refine build_fp h hs fun a ha b hb c hc e he => ⟨?_, (consistent_fp h ha hb hc he).2⟩
  rintro ⟨h1, h2, h3, h4⟩
  obtain ⟨f, i1, i2, b1, b2⟩ := limits_is h ha hc h1
  have fd : (dist2 distD b e).Fin := h.dst _ _ (by omega) (by omega)
  obtain ⟨n, hn⟩ := ht
  obtain ⟨m, hm⟩ := hd (min a c) (max a c) (by omega) (by omega)
  change (dist2 distS a c).val = _ at hm
  have hp := two_pow_pos j
  have hb : ∀ z : ℤ, |(z : ℝ) * 2 ^ j| ≤ 2 ^ k → Grid .binary32 ((z : ℝ) * 2 ^ j) := by
    intro z hz
    refine ⟨z, j, ?_, hj, rfl⟩
    show _ ≤ (2 : ℝ) ^ (24 : ℤ)
    rw [abs_mul, abs_of_pos hp] at hz
    have := hz.trans (two_pow_le hk)
    rw [two_pow_add, mul_comm] at this
    exact le_of_mul_le_mul_left this hp
  have e1 : (dist2 distS a c).val - tol.val = ((m - n : ℤ) : ℝ) * 2 ^ j := by rw [hm, hn]; push_cast; ring
  have e2 : (dist2 distS a c).val + tol.val = ((m + n : ℤ) : ℝ) * 2 ^ j := by rw [hm, hn]; push_cast; ring
  have x1 : (dist2 distS a c - tol).val = (dist2 distS a c).val - tol.val := i1.2.exact (by rw [e1] at b1 ⊢; exact hb _ b1)
  have x2 : (dist2 distS a c + tol).val = (dist2 distS a c).val + tol.val := i2.2.exact (by rw [e2] at b2 ⊢; exact hb _ b2)
  rw [sub_zero, abs_lt] at h4
  refine ⟨h1, h2, (lt_iff h.minFin f).2 h3, (lt_iff i1.1 fd).2 ?_, (lt_iff fd i2.1).2 ?_⟩
  · rw [x1]; linarith [h4.2]
  · rw [x2]; linarith [h4.1]

end

/-- A float of size 2^m or more is a multiple of 2^(m - 23). -/
theorem multiple_of_le {y : Flt} {m : ℤ} (h : 2 ^ m ≤ y.val) : ∃ n : ℤ, y.val = n * 2 ^ (m - 23) := by
  obtain ⟨q, u, hq, hu, he⟩ := y.grid
  have hP := two_pow_pos u
  have hq : |(q : ℝ)| ≤ 2 ^ (24 : ℤ) := hq
  have hq' := (le_abs_self (q : ℝ)).trans hq
  by_cases hum : m - 23 ≤ u
  · refine ⟨q * 2 ^ (u - (m - 23)).toNat, ?_⟩
    rw [he]
    push_cast
    rw [← zpow_natCast, Int.toNat_of_nonneg (by omega), mul_assoc, ← two_pow_add]
    congr 2
    ring
  · rw [he] at h
    have h1 : (q : ℝ) * 2 ^ u ≤ 2 ^ (24 + u) := by
      rw [two_pow_add]
      exact mul_le_mul_of_nonneg_right hq' hP.le
    have h2 : (2 : ℝ) ^ (24 + u) ≤ 2 ^ m := two_pow_le (by omega)
    refine ⟨2 ^ 23, ?_⟩
    rw [he, le_antisymm (h1.trans h2) h, Int.cast_pow, Int.cast_ofNat, ← zpow_natCast, ← two_pow_add]
    congr 1
    push_cast
    ring

/-- With distances of size 2^m or more, tolerances up to 2^(m - 24) have no effect: no comparison is true. -/
theorem far_inconsistent {m : ℤ} {tol x y : Flt} (hm : m ≤ 126) (hm' : -125 ≤ m) (ht : tol.Fin) (hx : x.Fin) (hy : y.Fin) (t1 : |tol.val| < 2 ^ (m - 24)) (x0 : 2 ^ m ≤ x.val) (x1 : x.val ≤ 2 ^ (126 : ℤ))
    (y0 : 2 ^ m ≤ y.val) : ¬ (x - tol < y ∧ y < x + tol) := by
  rintro ⟨h1, h2⟩
  have ht' := abs_lt.1 t1
  have h0 := two_pow_pos m
  have hb : ∀ z, |z| < (2 : ℝ) ^ (m - 24) → |x.val + z| ≤ 2 ^ (127 : ℤ) := by
    intro z hz
    have : (2 : ℝ) ^ (m - 24) ≤ 2 ^ (126 : ℤ) := two_pow_le (by omega)
    have e : (2 : ℝ) ^ (127 : ℤ) = 2 ^ (126 : ℤ) + 2 ^ (126 : ℤ) := by rw [show (127 : ℤ) = 126 + 1 by norm_num, two_pow_add]; ring
    have := abs_lt.1 hz
    rw [abs_le, e]
    constructor <;> linarith
  have i1 := sub_is hx ht (by rw [sub_eq_add_neg]; exact hb _ (by rwa [abs_neg]))
  have i2 := add_is hx ht (hb _ t1)
  rw [lt_iff i1.1 hy] at h1
  rw [lt_iff hy i2.1] at h2
  have hu : (2 : ℝ) ^ (m - 23) = 2 * 2 ^ (m - 24) := by rw [show m - 23 = 1 + (m - 24) by ring, two_pow_add]; norm_num
  have hu0 := two_pow_pos (m - 24)
  have hn : |(x + tol).val - (x.val + tol.val)| ≤ |x.val - (x.val + tol.val)| := i2.2.nearest Fmt.good x.grid
  rw [show x.val - (x.val + tol.val) = -tol.val by ring, abs_neg] at hn
  have hn' := abs_le.1 hn
  have hn2 : (x + tol).val < x.val + 2 ^ (m - 23) := by
    have := abs_nonneg tol.val
    have := le_abs_self tol.val
    linarith
  obtain ⟨p, hp⟩ := multiple_of_le x0
  obtain ⟨q, hq⟩ := multiple_of_le y0
  have hs0 : (2 : ℝ) ^ m ≤ (x + tol).val := (y0.trans h2.le)
  obtain ⟨r, hr⟩ := multiple_of_le hs0
  have hU := two_pow_pos (m - 23)
  rw [hr, hp] at hn2
  rw [hq, hr] at h2
  have r1 : r < p + 1 := by
    have : ((r : ℤ) : ℝ) < ((p + 1 : ℤ) : ℝ) := by
      push_cast
      refine lt_of_mul_lt_mul_right ?_ hU.le
      linarith
    exact_mod_cast this
  have r2 : q < r := by
    have : (q : ℝ) < (r : ℝ) := lt_of_mul_lt_mul_right h2 hU.le
    exact_mod_cast this
  have r3 : (q : ℝ) ≤ p - 1 := by
    have : q ≤ p - 1 := by omega
    exact_mod_cast this
  have r4 : y.val ≤ x.val - tol.val := by
    rw [hq, hp]
    have : (q : ℝ) * 2 ^ (m - 23) ≤ (p - 1) * 2 ^ (m - 23) := mul_le_mul_of_nonneg_right r3 hU.le
    linarith
  exact absurd (i1.2.mono_ge y.grid r4) (not_le.2 h1)

theorem tenth_is : (lit .binary32 1 (-1)).Fin ∧ (lit .binary32 1 (-1)).val = 13421773 / 2 ^ 27 := by
  have h : (lit .binary32 1 (-1)).x = .finite .positive 13421773 (-27) (by decide) := by decide +kernel
  refine ⟨by unfold Fp.Fin; rw [h]; trivial, ?_⟩
  unfold Fp.val
  rw [h, Ieee.val]
  norm_num [sgn]

/-- With the default tolerance 0.1 and distances of 2^21 or more, no correspondences are linked at all, not even those of equal sets of items. -/
theorem C122_far_violated {srt : List (PairDistance Flt) → List (PairDistance Flt)} (hs : SortFp srt) {nS nD : ℕ} {dmin : Flt} {distS distD : ℕ → ℕ → Flt} (hN : nS * nD ≤ 2147483647) (hm : dmin.Fin)
    (hS : ∀ i j, i < j → j < nS → (distS i j).Fin ∧ 2 ^ 21 ≤ (distS i j).val ∧ (distS i j).val ≤ 2 ^ 126) (hD : ∀ i j, i < j → j < nD → (distD i j).Fin ∧ 2 ^ 21 ≤ (distD i j).val) :
    ∃ g', (setup srt (lit .binary32 1 (-1)) dmin nS nD distS distD).pushNodes.addEdges = .ok g' ∧
      EdgesBetween g' nS nD (fun _ _ _ _ => False) (fun _ _ _ _ => False) := by
  have h : Dom 127 (lit .binary32 1 (-1)) dmin nS nD distS distD := by
    refine ⟨by norm_num, le_rfl, hN, tenth_is.1, hm, fun i j h1 h2 => ⟨(hS i j h1 h2).1, ?_⟩, fun i j h1 h2 => (hD i j h1 h2).1⟩
    obtain ⟨-, h3, h4⟩ := hS i j h1 h2
    rw [tenth_is.2, abs_of_nonneg (by linarith [show (0 : ℝ) ≤ 2 ^ 21 by norm_num])]
    norm_num at h4 ⊢
    linarith
  refine build_fp h hs fun a ha b hb c hc e he => ⟨fun hf => hf.elim, ?_⟩
  rintro ⟨h1, h2, -, h4, h5⟩
  obtain ⟨s1, s2, s3⟩ := hS (min a c) (max a c) (by omega) (by omega)
  obtain ⟨d1, d2⟩ := hD (min b e) (max b e) (by omega) (by omega)
  exact far_inconsistent (m := 21) (by norm_num) (by norm_num) tenth_is.1 s1 d1 (by rw [tenth_is.2]; norm_num [abs_lt]) (by exact_mod_cast s2) (by exact_mod_cast s3) (by exact_mod_cast d2) ⟨h4, h5⟩

open Classical in
/-- A sort by the real values. -/
noncomputable def vsort (l : List (PairDistance Flt)) : List (PairDistance Flt) := l.insertionSort fun a b => a.distance.val ≤ b.distance.val

theorem vsort_spec : SortFp vsort := by
  intro l hl
  haveI : Std.Total fun a b : PairDistance Flt => a.distance.val ≤ b.distance.val := ⟨fun a b => le_total _ _⟩
  haveI : IsTrans (PairDistance Flt) fun a b => a.distance.val ≤ b.distance.val := ⟨fun a b c => le_trans⟩
  have hp : (vsort l).Perm l := List.perm_insertionSort _ _
  refine ⟨hp, (List.pairwise_insertionSort (fun a b : PairDistance Flt => a.distance.val ≤ b.distance.val) l).imp_of_mem ?_⟩
  intro a b ha hb hab
  rw [lt_iff (hl b (hp.mem_iff.1 hb)) (hl a (hp.mem_iff.1 ha)), not_lt]
  exact hab

/-- C122 is false: two sets of two items at the same distance 2^21, with the default tolerance. -/
theorem C122_violated : ¬ C122_statement := by
  intro h
  have hc : ((2097152 : ℕ) : Flt).Fin ∧ ((2097152 : ℕ) : Flt).val = 2097152 := by
    have := natCast_exact (spec := .binary32) (n := 2097152) (by norm_num [show (Format.binary32.mantissaBits : ℤ) = 24 from rfl]) (by rw [show top .binary32 = (127 : ℤ) from rfl]; norm_num)
    exact ⟨this.1, by rw [this.2]; norm_num⟩
  have hz : (0 : Flt).Fin ∧ (0 : Flt).val = 0 := ⟨trivial, rfl⟩
  have hd : ∀ i j : ℕ, i < j → j < 2 → ((2097152 : ℕ) : Flt).Fin ∧ (2 : ℝ) ^ 21 ≤ ((2097152 : ℕ) : Flt).val ∧ ((2097152 : ℕ) : Flt).val ≤ 2 ^ 126 := fun _ _ _ _ =>
    ⟨hc.1, by rw [hc.2]; norm_num, by rw [hc.2]; norm_num⟩
  obtain ⟨g1, e1, -, f1⟩ := C122_far_violated vsort_spec (nS := 2) (nD := 2) (dmin := 0) (distS := fun _ _ => (2097152 : ℕ)) (distD := fun _ _ => (2097152 : ℕ)) (by norm_num) hz.1 hd
    fun i j h1 h2 => ⟨hc.1, (hd i j h1 h2).2.1⟩
  obtain ⟨g2, e2, -, f2⟩ := h vsort (lit .binary32 1 (-1)) 0 2 2 (fun _ _ => (2097152 : ℕ)) (fun _ _ => (2097152 : ℕ)) vsort_spec
    ⟨by norm_num, le_rfl, by norm_num, tenth_is.1, hz.1, fun i j h1 h2 => ⟨hc.1, by rw [hc.2, tenth_is.2]; norm_num [abs_of_pos]⟩, fun i j h1 h2 => hc.1⟩
  obtain rfl : g1 = g2 := by rw [e1] at e2; exact Except.ok.inj e2
  obtain ⟨n1, p1, -, -, -, q1, -⟩ := f1 0 (by norm_num) 0 (by norm_num)
  obtain ⟨n2, p2, -, -, -, -, q2⟩ := f2 0 (by norm_num) 0 (by norm_num)
  obtain rfl : n1 = n2 := by rw [p1] at p2; exact Except.ok.inj p2
  obtain ⟨_, _, _, _, -, hf⟩ := q1 _ (q2 1 (by norm_num) 1 (by norm_num) ⟨by norm_num, by norm_num, by simp only [dist2]; rw [hz.2, hc.2]; norm_num, by
    simp only [dist2]; rw [sub_self, abs_zero, tenth_is.2]; norm_num⟩)
  exact hf

/-- NaN is not in the order that `std::sort` requires (1 and 2 are both equivalent to it, but not to each other): sorting a distance that is NaN is undefined. -/
theorem C122_nan_violated {a : Flt} (h : a.NaN) : (¬ (1 : ℕ) < a ∧ ¬ a < (1 : ℕ)) ∧ (¬ a < (2 : ℕ) ∧ ¬ (2 : ℕ) < a) ∧ ((1 : ℕ) : Flt) < (2 : ℕ) :=
  ⟨⟨NaN.not_lt (Or.inr h), NaN.not_lt (Or.inl h)⟩, ⟨NaN.not_lt (Or.inl h), NaN.not_lt (Or.inr h)⟩, by decide +kernel⟩

/-- A sort for the examples. -/
def fsort (l : List (PairDistance Flt)) : List (PairDistance Flt) := l.insertionSort fun a b => a.distance ≤ b.distance

-- two equal triangles of sides 3, 4, 5: the node of `0 → 0` is linked to those of `1 → 1` and `2 → 2` only
example : (((setup fsort (lit .binary32 1 (-1)) 0 3 3 (fun i j => ((i + j + 2 : ℕ) : Flt)) (fun i j => ((i + j + 2 : ℕ) : Flt))).pushNodes.addEdges).bind
    fun g => (g.nodes.get 0).map fun n => n.adjacents.labels) = .ok [4, 8] := by decide +kernel
-- the triangles enlarged a million times
example : (((setup fsort (lit .binary32 1 (-1)) 0 3 3 (fun i j => (((i + j + 2) * 1000000 : ℕ) : Flt)) (fun i j => (((i + j + 2) * 1000000 : ℕ) : Flt))).pushNodes.addEdges).bind
    fun g => (g.nodes.get 0).map fun n => n.adjacents.labels) = .ok [] := by decide +kernel
-- distances 3 and 3.1 with the tolerance 0.1: in `float` 3.1 is less than 3 plus 0.1, but is their rounded sum, so they are not linked; 3 and 3.09 are
example : (((setup fsort (lit .binary32 1 (-1)) 0 2 2 (fun _ _ => ((3 : ℕ) : Flt)) (fun _ _ => lit .binary32 31 (-1))).pushNodes.addEdges).bind
    fun g => (g.nodes.get 0).map fun n => n.adjacents.labels) = .ok [] ∧
  (((setup fsort (lit .binary32 1 (-1)) 0 2 2 (fun _ _ => ((3 : ℕ) : Flt)) (fun _ _ => lit .binary32 309 (-2))).pushNodes.addEdges).bind
    fun g => (g.nodes.get 0).map fun n => n.adjacents.labels) = .ok [3] := by decide +kernel

end Verif.CorrGraph
