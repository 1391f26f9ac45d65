import Verif.Tls.OrderProps

/-! Property theorem C162 (see properties.jsonl): the direction of the axis on which the measures are taken. -/
namespace Verif.Tls
open Verif Spec Finset

variable {K : Type} [Field K] [LinearOrder K] [IsStrictOrderedRing K]

/-- The measures on the axis in the opposite direction. -/
def mirrored (v : Vec K) : Vec K := ⟨v.len, fun i => -v.val i⟩

/-- The estimates are opposite and the inliers are the same. -/
def Opposite : Outcome (Option K × Vec Bool) → Outcome (Option K × Vec Bool) → Prop
  | .ok (h, s), .ok (h', s') => h' = h.map (- ·) ∧ s'.len = s.len ∧ ∀ i < s.len, s'.val i = s.val i
  | .error e, .error e' => e' = e
  | _, _ => False

/-- C162, full statement. -/
def C162_statement (K : Type) [Field K] [LinearOrder K] : Prop :=
  ∀ (srt srt' : List (K × ℤ) → List (K × ℤ)), IsSort srt → IsSort srt' → ∀ values ranges : Vec K, values.len = ranges.len → values.len < 2 ^ 31 →
    (∀ i < values.len, 0 < ranges.val i) → Separate values.len values.val ranges.val → Opposite (estimate srt values ranges) (estimate srt' (mirrored values) ranges)

/-- The weighted mean of the consensus set of `y` has the least cost of all consensus sets. -/
def Best (n : ℕ) (v r : ℕ → K) (y : K) : Prop :=
  (overlap n v r y).Nonempty ∧ ∀ z, (overlap n v r z).Nonempty →
    cost n v r (overlap n v r y) (wmean v r (overlap n v r y)) ≤ cost n v r (overlap n v r z) (wmean v r (overlap n v r z))

/-- Below a point there is another one with no endpoint between them. -/
theorem below (n : ℕ) (v r : ℕ → K) (x : K) : ∃ y < x, ∀ i < n, (v i - r i < x → v i - r i ≤ y) ∧ (v i + r i < x → v i + r i ≤ y) := by
  induction n with
  | zero => exact ⟨x - 1, by linarith, fun i hi => absurd hi (Nat.not_lt_zero i)⟩
  | succ n ih =>
    obtain ⟨y, hy, h⟩ := ih
    let a := if v n - r n < x then max y (v n - r n) else y
    let b := if v n + r n < x then max a (v n + r n) else a
    have ha : y ≤ a ∧ a < x ∧ (v n - r n < x → v n - r n ≤ a) := by
      dsimp only [a]
      split_ifs with c
      · exact ⟨le_max_left _ _, max_lt hy c, fun _ => le_max_right _ _⟩
      · exact ⟨le_refl _, hy, fun h => absurd h c⟩
    have hb : a ≤ b ∧ b < x ∧ (v n + r n < x → v n + r n ≤ b) := by
      dsimp only [b]
      split_ifs with c
      · exact ⟨le_max_left _ _, max_lt ha.2.1 c, fun _ => le_max_right _ _⟩
      · exact ⟨le_refl _, ha.2.1, fun h => absurd h c⟩
    refine ⟨b, hb.2.1, fun i hi => ?_⟩
    rcases Nat.lt_succ_iff_lt_or_eq.1 hi with hi | rfl
    · exact ⟨fun c => ((h i hi).1 c).trans (ha.1.trans hb.1), fun c => ((h i hi).2 c).trans (ha.1.trans hb.1)⟩
    · exact ⟨fun c => (ha.2.2 c).trans hb.1, hb.2.2⟩

/-- When the endpoints are different, a set between those of the open and of the closed intervals around a point is the consensus set of some point. -/
theorem between_overlap {n : ℕ} {v r : ℕ → K} (hr : ∀ i < n, 0 < r i) (hs : Separate n v r) {S : Finset ℕ} (hS : S ⊆ range n) {x : K} (h1 : ∀ i ∈ S, |v i - x| ≤ r i)
    (h2 : ∀ i < n, |v i - x| < r i → i ∈ S) : ∃ y, S = overlap n v r y := by
  by_cases he : S = overlap n v r x
  · exact ⟨x, he⟩
  obtain ⟨y, hy, hb⟩ := below n v r x
  refine ⟨y, ?_⟩
  -- the measure in which the two sets differ has its endpoint at `x`, and no other one has
  obtain ⟨k, hk, hkx⟩ : ∃ k < n, (v k - r k = x ∧ k ∉ S) ∨ (v k + r k = x ∧ k ∈ S) := by
    by_contra hc
    push Not at hc
    refine he (Finset.ext fun i => ?_)
    rw [overlap, mem_filter, mem_range]
    constructor
    · intro hi
      have hin := mem_range.1 (hS hi)
      have ha := abs_le.1 (h1 i hi)
      exact ⟨hin, by linarith, lt_of_le_of_ne (by linarith) fun e => (hc i hin).2 e.symm hi⟩
    · rintro ⟨hin, ha, hb⟩
      rcases eq_or_lt_of_le ha with e | e
      · by_contra hiS
        exact hiS ((hc i hin).1 e)
      · exact h2 i hin (abs_lt.2 ⟨by linarith, by linarith⟩)
  ext i
  rw [overlap, mem_filter, mem_range]
  constructor
  · intro hi
    have hin := mem_range.1 (hS hi)
    have ha := abs_le.1 (h1 i hi)
    refine ⟨hin, (hb i hin).1 (lt_of_le_of_ne (by linarith) fun e => ?_), by linarith⟩
    rcases hkx with ⟨e', hkS⟩ | ⟨e', -⟩
    · exact hkS ((hs i hin k hk).2.1 (e.trans e'.symm) ▸ hi)
    · exact (hs i hin k hk).1 (e.trans e'.symm)
  · rintro ⟨hin, ha, hb'⟩
    have hle : x ≤ v i + r i := by
      by_contra hc
      exact absurd ((hb i hin).2 (not_le.1 hc)) (not_le.2 hb')
    rcases eq_or_lt_of_le hle with e | e
    · rcases hkx with ⟨e', -⟩ | ⟨e', hkS⟩
      · exact absurd (e'.trans e) (hs k hk i hin).1
      · exact (hs k hk i hin).2.2 (e'.trans e) ▸ hkS
    · exact h2 i hin (abs_lt.2 ⟨by linarith, by linarith⟩)

theorem wmean_neg (v r : ℕ → K) (S : Finset ℕ) : wmean (fun i => -v i) r S = -wmean v r S := by
  unfold wmean
  rw [← neg_div, ← sum_neg_distrib]
  congr 1
  exact sum_congr rfl fun i _ => by ring

theorem cost_neg (n : ℕ) (v r : ℕ → K) (S : Finset ℕ) (h : K) : cost n (fun i => -v i) r S (-h) = cost n v r S h := by
  unfold cost
  congr 1
  exact sum_congr rfl fun i _ => by ring

theorem separate_neg {n : ℕ} {v r : ℕ → K} (h : Separate n v r) : Separate n (fun i => -v i) r := fun i hi j hj => by
  obtain ⟨-, b, c⟩ := h i hi j hj
  have a := (h j hj i hi).1
  exact ⟨fun e => a (by linarith), fun e => c (by linarith), fun e => b (by linarith)⟩

/-- The estimate comes from a best consensus set. -/
theorem estimate_best (srt : List (K × ℤ) → List (K × ℤ)) (hsrt : IsSort srt) (values ranges : Vec K) (hl : values.len = ranges.len) (h0 : 0 < values.len)
    (hn : values.len < 2 ^ 31) (hr : ∀ i < values.len, 0 < ranges.val i) (hs : Separate values.len values.val ranges.val) :
    ∃ y flags, Best values.len values.val ranges.val y ∧
      estimate srt values ranges = .ok (some (wmean values.val ranges.val (overlap values.len values.val ranges.val y)), flags) ∧ flags.len = values.len ∧
      ∀ i < values.len, flags.val i = decide (|values.val i - wmean values.val ranges.val (overlap values.len values.val ranges.val y)| < ranges.val i) := by
  obtain ⟨S, x, flags, hS, hne, h1, h2, h3, h4, h5, h6⟩ := C56_tls srt hsrt values ranges hl h0 hn hr
  obtain ⟨y, rfl⟩ := between_overlap hr hs hS h1 h2
  exact ⟨y, flags, ⟨hne, h4⟩, h3, h5, h6⟩

/-- A consensus set of the mirrored measures is one of the measures. -/
theorem overlap_mirror {n : ℕ} {v r : ℕ → K} (hr : ∀ i < n, 0 < r i) (hs : Separate n v r) (y : K) : ∃ z, overlap n (fun i => -v i) r y = overlap n v r z := by
  refine between_overlap hr hs (filter_subset _ _) (x := -y) (fun i hi => ?_) fun i hi h => ?_
  · obtain ⟨-, a, b⟩ := mem_filter.1 hi
    exact abs_le.2 ⟨by linarith, by linarith⟩
  · have := abs_lt.1 h
    exact mem_filter.2 ⟨mem_range.2 hi, by linarith, by linarith⟩

/-- The best consensus sets are the same in both directions. -/
theorem best_mirror {n : ℕ} {v r : ℕ → K} (hr : ∀ i < n, 0 < r i) (hs : Separate n v r) {y : K} (h : Best n (fun i => -v i) r y) :
    ∃ z, overlap n (fun i => -v i) r y = overlap n v r z ∧ Best n v r z := by
  obtain ⟨z, hz⟩ := overlap_mirror hr hs y
  refine ⟨z, hz, hz ▸ h.1, fun w hw => ?_⟩
  obtain ⟨u, hu⟩ := overlap_mirror hr (separate_neg hs) w
  simp only [neg_neg] at hu
  have := h.2 u (hu ▸ hw)
  rw [← hu, hz, wmean_neg, wmean_neg, cost_neg, cost_neg] at this
  exact this

/-- **C162** When the intervals have different endpoints, both directions of the axis give weighted means of consensus sets of the least cost, and the inliers
are those of each estimate. -/
theorem C162_best_partial (srt srt' : List (K × ℤ) → List (K × ℤ)) (hsrt : IsSort srt) (hsrt' : IsSort srt') (values ranges : Vec K) (hl : values.len = ranges.len)
    (h0 : 0 < values.len) (hn : values.len < 2 ^ 31) (hr : ∀ i < values.len, 0 < ranges.val i) (hs : Separate values.len values.val ranges.val) :
    ∃ y z flags flags', Best values.len values.val ranges.val y ∧ Best values.len values.val ranges.val z ∧
      estimate srt values ranges = .ok (some (wmean values.val ranges.val (overlap values.len values.val ranges.val y)), flags) ∧
      estimate srt' (mirrored values) ranges = .ok (some (-wmean values.val ranges.val (overlap values.len values.val ranges.val z)), flags') ∧
      flags.len = values.len ∧ flags'.len = values.len ∧ ∀ i < values.len,
        flags.val i = decide (|values.val i - wmean values.val ranges.val (overlap values.len values.val ranges.val y)| < ranges.val i) ∧
        flags'.val i = decide (|values.val i - wmean values.val ranges.val (overlap values.len values.val ranges.val z)| < ranges.val i) := by
  obtain ⟨y, flags, hy, e, hlen, hf⟩ := estimate_best srt hsrt values ranges hl h0 hn hr hs
  obtain ⟨y', flags', hy', e', hlen', hf'⟩ := estimate_best srt' hsrt' (mirrored values) ranges hl h0 hn hr (separate_neg hs)
  obtain ⟨z, hz, hb⟩ := best_mirror hr hs hy'
  have hw : wmean (mirrored values).val ranges.val (overlap (mirrored values).len (mirrored values).val ranges.val y') =
      -wmean values.val ranges.val (overlap values.len values.val ranges.val z) := by
    rw [← hz]
    exact wmean_neg _ _ _
  refine ⟨y, z, flags, flags', hy, hb, e, by rw [e', hw], hlen, hlen', fun i hi => ⟨hf i hi, ?_⟩⟩
  rw [hf' i hi, hw]
  refine decide_eq_decide.2 ?_
  change |-values.val i - -_| < _ ↔ _
  rw [neg_sub_neg, abs_sub_comm]

/-- **C162** The estimates are opposite and the inliers the same when moreover all the consensus sets of the least cost have the same weighted mean. -/
theorem C162_mirror_partial (srt srt' : List (K × ℤ) → List (K × ℤ)) (hsrt : IsSort srt) (hsrt' : IsSort srt') (values ranges : Vec K) (hl : values.len = ranges.len)
    (hn : values.len < 2 ^ 31) (hr : ∀ i < values.len, 0 < ranges.val i) (hs : Separate values.len values.val ranges.val)
    (hu : ∀ y z, Best values.len values.val ranges.val y → Best values.len values.val ranges.val z →
      wmean values.val ranges.val (overlap values.len values.val ranges.val y) = wmean values.val ranges.val (overlap values.len values.val ranges.val z)) :
    Opposite (estimate srt values ranges) (estimate srt' (mirrored values) ranges) := by
  rcases Nat.eq_zero_or_pos values.len with h0 | h0
  · rw [C56_empty srt hsrt values ranges hl h0, C56_empty srt' hsrt' (mirrored values) ranges hl h0]
    exact rfl
  obtain ⟨y, z, flags, flags', hy, hz, e, e', h1, h2, h3⟩ := C162_best_partial srt srt' hsrt hsrt' values ranges hl h0 hn hr hs
  rw [e, e']
  refine ⟨by rw [hu y z hy hz]; rfl, h2.trans h1.symm, fun i hi => ?_⟩
  obtain ⟨f, f'⟩ := h3 i (h1 ▸ hi)
  rw [f, f', hu y z hy hz]

/-- Two measures that disagree: the one with the smaller value is chosen, in both directions. -/
theorem C162_tie_violated :
    ((estimate isort (qv [0, 5]) (qv [1, 1])).map fun r => (r.1, r.2.toList)) = .ok (some 0, [true, false]) ∧
    ((estimate isort (mirrored (qv [0, 5])) (qv [1, 1])).map fun r => (r.1, r.2.toList)) = .ok (some (-5), [false, true]) := by
  constructor <;> decide +kernel

theorem C162_violated : ¬ C162_statement ℚ := fun h => by
  have two : ∀ i : ℕ, i < 2 → i = 0 ∨ i = 1 := fun i hi => by omega
  have hr : ∀ i < (qv [0, 5]).len, 0 < (qv [1, 1]).val i := fun i hi => by
    rcases two i hi with rfl | rfl <;> norm_num [qv]
  have hs : Separate (qv [0, 5]).len (qv [0, 5]).val (qv [1, 1]).val := fun i hi j hj => by
    rcases two i hi with rfl | rfl <;> rcases two j hj with rfl | rfl <;> norm_num [qv]
  have key := h isort isort isort_isSort isort_isSort (qv [0, 5]) (qv [1, 1]) rfl (show 2 < 2 ^ 31 by norm_num) hr hs
  obtain ⟨h1, h2⟩ := C162_tie_violated
  revert key h1 h2
  generalize estimate isort (qv [0, 5]) (qv [1, 1]) = a
  generalize estimate isort (mirrored (qv [0, 5])) (qv [1, 1]) = b
  intro key h1 h2
  cases a with
  | error e => cases h1
  | ok a =>
    cases b with
    | error e => cases h2
    | ok b =>
      obtain ⟨k, -⟩ := key
      have e1 : a.1 = some 0 := congrArg Prod.fst (Except.ok.inj h1)
      have e2 : b.1 = some (-5) := congrArg Prod.fst (Except.ok.inj h2)
      rw [e1, e2] at k
      norm_num at k

/-- Three measures, two of which agree: opposite estimates and the same inliers. -/
example : ((estimate isort (qv [0, 1, 9]) (qv [2, 3, 2])).map fun r => (r.1, r.2.toList)) = .ok (some (4 / 13), [true, true, false]) ∧
    ((estimate isort (mirrored (qv [0, 1, 9])) (qv [2, 3, 2])).map fun r => (r.1, r.2.toList)) = .ok (some (-4 / 13), [true, true, false]) := by
  constructor <;> decide +kernel

end Verif.Tls
