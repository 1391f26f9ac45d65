import Verif.Tls.Props
import Mathlib.Tactic.IntervalCases

/-! Property theorem C155 (see properties.jsonl): the scalar consensus recovers the true value among outliers. -/
namespace Verif.Tls
open Verif Verif.Tls.Spec Finset

variable {K : Type} [Field K] [LinearOrder K] [IsStrictOrderedRing K]

/-- The measures with the indices `I` are those of the value `T` up to an error `d` below their ranges; the other measures, the outliers, reject `T`, and at every point of the
line the outliers that accept it weigh less, in terms of their ranges, than the true measures: by more than the bound 4 d^2 of the squared residual of each of these. -/
structure Majority (n : ℕ) (v r : ℕ → K) (I : Finset ℕ) (T d : K) : Prop where
  sub : I ⊆ range n
  near : ∀ i ∈ I, |v i - T| ≤ d ∧ d < r i
  out : ∀ j < n, j ∉ I → r j < |v j - T|
  less : ∀ x, ∑ j ∈ (range n \ I).filter (fun j => |v j - x| ≤ r j), r j + I.card * (4 * d ^ 2) < ∑ i ∈ I, r i

/-- A weighted mean lies where the values lie. -/
theorem wmean_near {v r : ℕ → K} {S : Finset ℕ} {c e : K} (hne : S.Nonempty) (hr : ∀ i ∈ S, 0 < r i) (h : ∀ i ∈ S, |v i - c| ≤ e) : |wmean v r S - c| ≤ e := by
  have hw : ∀ i ∈ S, 0 < weight r i := fun i hi => weight_pos (hr i hi)
  have hW : 0 < ∑ i ∈ S, weight r i := sum_pos hw hne
  have e1 : wmean v r S - c = (∑ i ∈ S, weight r i * (v i - c)) / ∑ i ∈ S, weight r i := by
    unfold wmean
    rw [eq_div_iff hW.ne', sub_mul, div_mul_cancel₀ _ hW.ne', mul_sum, ← sum_sub_distrib]
    exact sum_congr rfl fun i _ => by ring
  rw [e1, abs_div, abs_of_pos hW, div_le_iff₀ hW, mul_sum]
  refine le_trans (abs_sum_le_sum_abs _ _) (sum_le_sum fun i hi => ?_)
  rw [abs_mul, abs_of_pos (hw i hi), mul_comm]
  exact mul_le_mul_of_nonneg_right (h i hi) (hw i hi).le

/-- The candidate of the point `T`: the true measures. -/
theorem overlap_true {n : ℕ} {v r : ℕ → K} {I : Finset ℕ} {T d : K} (hm : Majority n v r I T d) : overlap n v r T = I := by
  ext i
  unfold overlap
  rw [mem_filter, mem_range]
  constructor
  · rintro ⟨hi, h2, h3⟩
    by_contra hn
    have h4 := hm.out i hi hn
    rcases abs_cases (v i - T) with ⟨h5, h6⟩ | ⟨h5, h6⟩ <;> rw [h5] at h4 <;> linarith
  · intro hi
    obtain ⟨h2, h3⟩ := hm.near i hi
    have h4 := abs_le.1 h2
    exact ⟨mem_range.1 (hm.sub hi), by linarith [h4.2], by linarith [h4.1]⟩

/-- A consensus set of minimal cost contains a true measure. -/
theorem chosen {n : ℕ} {v r : ℕ → K} {I : Finset ℕ} {T d : K} (hr : ∀ i < n, 0 < r i) (hI : I.Nonempty) (hm : Majority n v r I T d) {S : Finset ℕ} {x : K}
    (hS : S ⊆ range n) (h1 : ∀ i ∈ S, |v i - x| ≤ r i)
    (hc : ∀ y, (overlap n v r y).Nonempty → cost n v r S (wmean v r S) ≤ cost n v r (overlap n v r y) (wmean v r (overlap n v r y))) : ∃ i ∈ S, i ∈ I := by
  by_contra hno
  push Not at hno
  have hcT := hc T (by rw [overlap_true hm]; exact hI)
  rw [overlap_true hm] at hcT
  have hrI : ∀ i ∈ I, 0 < r i := fun i hi => hr i (mem_range.1 (hm.sub hi))
  have hmean := wmean_near hI hrI fun i hi => (hm.near i hi).1
  have hres : ∑ i ∈ I, (v i - wmean v r I) ^ 2 ≤ I.card * (4 * d ^ 2) := by
    rw [← nsmul_eq_mul]
    refine sum_le_card_nsmul _ _ _ fun i hi => ?_
    have h2 := abs_le.1 (hm.near i hi).1
    have h3 := abs_le.1 hmean
    have h4 : |v i - wmean v r I| ≤ 2 * d := abs_le.2 ⟨by linarith [h2.1, h3.2], by linarith [h2.2, h3.1]⟩
    calc (v i - wmean v r I) ^ 2 = |v i - wmean v r I| ^ 2 := (sq_abs _).symm
      _ ≤ (2 * d) ^ 2 := pow_le_pow_left₀ (abs_nonneg _) h4 2
      _ = 4 * d ^ 2 := by ring
  have hsq : 0 ≤ ∑ i ∈ S, (v i - wmean v r S) ^ 2 := sum_nonneg fun i _ => sq_nonneg _
  unfold cost at hcT
  have hsub : S ⊆ range n \ I := fun i hi => mem_sdiff.2 ⟨hS hi, hno i hi⟩
  have e1 : ∑ i ∈ range n \ S, r i = ∑ i ∈ range n, r i - ∑ i ∈ S, r i := by rw [← sum_sdiff hS]; ring
  have e2 : ∑ i ∈ range n \ I, r i = ∑ i ∈ range n, r i - ∑ i ∈ I, r i := by rw [← sum_sdiff hm.sub]; ring
  have e3 : ∑ i ∈ S, r i ≤ ∑ j ∈ (range n \ I).filter (fun j => |v j - x| ≤ r j), r j :=
    sum_le_sum_of_subset_of_nonneg (fun i hi => mem_filter.2 ⟨hsub hi, h1 i hi⟩)
      fun i hi _ => (hr i (mem_range.1 (mem_sdiff.1 (mem_filter.1 hi).1).1)).le
  have := hm.less x
  linarith

/-- C155, robustness: the estimate exists and is wrong by at most twice the greatest range plus the error of the true measures, wherever the outliers are. -/
theorem C155_robust (srt : List (K × ℤ) → List (K × ℤ)) (hsrt : IsSort srt) (values ranges : Vec K) (hl : values.len = ranges.len) (hn : values.len < 2 ^ 31)
    (hr : ∀ i < values.len, 0 < ranges.val i) (I : Finset ℕ) (hI : I.Nonempty) (T d R : K) (hm : Majority values.len values.val ranges.val I T d)
    (hR : ∀ i < values.len, ranges.val i ≤ R) :
    ∃ (h : K) (flags : Vec Bool), estimate srt values ranges = .ok (some h, flags) ∧ |h - T| ≤ 2 * R + d := by
  obtain ⟨i0, hi0⟩ := hI
  have h0 : 0 < values.len := lt_of_le_of_lt (Nat.zero_le _) (mem_range.1 (hm.sub hi0))
  obtain ⟨S, x, flags, hS, hne, h1, -, h3, h4, -, -⟩ := C56_tls srt hsrt values ranges hl h0 hn hr
  refine ⟨_, flags, h3, ?_⟩
  obtain ⟨i, hiS, hiI⟩ := chosen hr ⟨i0, hi0⟩ hm hS h1 h4
  have h5 : |wmean values.val ranges.val S - x| ≤ R :=
    wmean_near hne (fun k hk => hr k (mem_range.1 (hS hk))) fun k hk => le_trans (h1 k hk) (hR k (mem_range.1 (hS hk)))
  have h6 := abs_le.1 (h1 i hiS)
  have h7 := abs_le.1 (hm.near i hiI).1
  have h8 := abs_le.1 h5
  have h9 := hR i (mem_range.1 (hS hiS))
  exact abs_le.2 ⟨by linarith [h6.1, h6.2, h7.1, h7.2, h8.1, h8.2], by linarith [h6.1, h6.2, h7.1, h7.2, h8.1, h8.2]⟩

/-- C155, recovery: if moreover no interval of an outlier touches the interval of a true measure, the outliers have no influence. The estimate is as near to the true value as
the true measures are (equal to it when they are exact), no outlier is taken as an inlier, and all the true measures are when the error is below half of their ranges. -/
theorem C155_recovery (srt : List (K × ℤ) → List (K × ℤ)) (hsrt : IsSort srt) (values ranges : Vec K) (hl : values.len = ranges.len) (hn : values.len < 2 ^ 31)
    (hr : ∀ i < values.len, 0 < ranges.val i) (I : Finset ℕ) (hI : I.Nonempty) (T d : K) (hm : Majority values.len values.val ranges.val I T d)
    (hsep : ∀ i ∈ I, ∀ j < values.len, j ∉ I → ranges.val i + ranges.val j < |values.val i - values.val j| ∧ ranges.val j + d < |values.val j - T|) :
    ∃ (h : K) (flags : Vec Bool), estimate srt values ranges = .ok (some h, flags) ∧ |h - T| ≤ d ∧ flags.len = values.len ∧
      (∀ j < values.len, j ∉ I → flags.val j = false) ∧ ∀ i ∈ I, 2 * d < ranges.val i → flags.val i = true := by
  obtain ⟨i0, hi0⟩ := hI
  have h0 : 0 < values.len := lt_of_le_of_lt (Nat.zero_le _) (mem_range.1 (hm.sub hi0))
  obtain ⟨S, x, flags, hS, hne, h1, -, h3, h4, h5, h6⟩ := C56_tls srt hsrt values ranges hl h0 hn hr
  obtain ⟨i, hiS, hiI⟩ := chosen hr ⟨i0, hi0⟩ hm hS h1 h4
  have hSI : S ⊆ I := fun j hj => by
    by_contra hjI
    have h7 := (hsep i hiI j (mem_range.1 (hS hj)) hjI).1
    have h8 := abs_sub_le (values.val i) x (values.val j)
    have h9 := h1 i hiS
    have h10 := h1 j hj
    rw [abs_sub_comm] at h10
    linarith
  have hT : |wmean values.val ranges.val S - T| ≤ d :=
    wmean_near hne (fun k hk => hr k (mem_range.1 (hS hk))) fun k hk => (hm.near k (hSI hk)).1
  refine ⟨_, flags, h3, hT, h5, fun j hj hjI => ?_, fun k hk hd => ?_⟩
  · rw [h6 j hj, decide_eq_false_iff_not, not_lt]
    have h7 := (hsep i0 hi0 j hj hjI).2
    have h8 := abs_sub_le (values.val j) (wmean values.val ranges.val S) T
    linarith
  · rw [h6 k (mem_range.1 (hm.sub hk)), decide_eq_true_eq]
    have h7 := (hm.near k hk).1
    have h8 := abs_sub_le (values.val k) T (wmean values.val ranges.val S)
    rw [abs_sub_comm T] at h8
    linarith

/-- C155 for exact measures with a common range, as in test_tls_scalar_consensus.cpp:82-88: if more measures equal the true value than there are other measures within the range
of any point, and these are at more than twice the range from it, the true value is returned and its measures are the inliers. -/
theorem C155_exact (srt : List (K × ℤ) → List (K × ℤ)) (hsrt : IsSort srt) (values ranges : Vec K) (hl : values.len = ranges.len) (hn : values.len < 2 ^ 31)
    (r T : K) (h0 : 0 < r) (hr : ∀ i < values.len, ranges.val i = r) (hfar : ∀ j < values.len, values.val j = T ∨ 2 * r < |values.val j - T|)
    (hmaj : ∀ x, ((range values.len).filter fun j => values.val j ≠ T ∧ |values.val j - x| ≤ r).card < ((range values.len).filter fun i => values.val i = T).card) :
    ∃ flags : Vec Bool, estimate srt values ranges = .ok (some T, flags) ∧ flags.len = values.len ∧ ∀ i < values.len, flags.val i = decide (values.val i = T) := by
  set I := (range values.len).filter fun i => values.val i = T with hI
  have hsum : ∀ S ⊆ range values.len, ∑ i ∈ S, ranges.val i = S.card * r := fun S hS => by
    rw [sum_congr rfl fun i hi => hr i (mem_range.1 (hS hi)), sum_const, nsmul_eq_mul]
  have hm : Majority values.len values.val ranges.val I T 0 := by
    refine ⟨filter_subset _ _, fun i hi => ?_, fun j hj hjI => ?_, fun x => ?_⟩
    · rw [(mem_filter.1 hi).2, hr i (mem_range.1 (mem_filter.1 hi).1)]
      exact ⟨by simp, h0⟩
    · rw [hr j hj]
      rcases hfar j hj with h | h
      · exact absurd (mem_filter.2 ⟨mem_range.2 hj, h⟩) hjI
      · linarith
    · rw [hsum _ ((filter_subset _ _).trans sdiff_subset), hsum _ (filter_subset _ _)]
      have e : (range values.len \ I).filter (fun j => |values.val j - x| ≤ ranges.val j) =
          (range values.len).filter fun j => values.val j ≠ T ∧ |values.val j - x| ≤ r := by
        ext j
        simp only [hI, mem_filter, mem_sdiff, mem_range, not_and]
        constructor
        · rintro ⟨⟨h1, h2⟩, h3⟩
          exact ⟨h1, h2 h1, by rwa [hr j h1] at h3⟩
        · rintro ⟨h1, h2, h3⟩
          exact ⟨⟨h1, fun _ => h2⟩, by rwa [hr j h1]⟩
      rw [e]
      have h1 : (((range values.len).filter fun j => values.val j ≠ T ∧ |values.val j - x| ≤ r).card : K) < I.card := by exact_mod_cast hmaj x
      have := mul_lt_mul_of_pos_right h1 h0
      simpa using this
  have hne : I.Nonempty := card_pos.1 (lt_of_le_of_lt (Nat.zero_le _) (hmaj T))
  obtain ⟨h, flags, h1, h2, h3, h4, h5⟩ := C155_recovery srt hsrt values ranges hl hn (fun i hi => by rw [hr i hi]; exact h0) I hne T 0 hm
    fun i hi j hj hjI => by
      rw [hr i (mem_range.1 (mem_filter.1 hi).1), hr j hj, (mem_filter.1 hi).2, abs_sub_comm]
      rcases hfar j hj with h | h
      · exact absurd (mem_filter.2 ⟨mem_range.2 hj, h⟩) hjI
      · exact ⟨by linarith, by linarith⟩
  have hT : h = T := by
    have := abs_nonpos_iff.1 h2
    linarith
  refine ⟨flags, by rw [h1, hT], h3, fun i hi => ?_⟩
  by_cases hv : values.val i = T
  · rw [h5 i (mem_filter.2 ⟨mem_range.2 hi, hv⟩) (by rw [hr i hi]; linarith), decide_eq_true hv]
  · rw [h4 i hi fun h => hv (mem_filter.1 h).2, decide_eq_false hv]

/-- The hypotheses hold for 3, 3, 3 among the outliers 0, 1/2, 9, with the range 1. -/
example : ∃ flags : Vec Bool, estimate isort (qv [0, 3, 9, 3, 1 / 2, 3]) (qv [1, 1, 1, 1, 1, 1]) = .ok (some 3, flags) ∧ flags.toList = [false, true, false, true, false, true] := by
  obtain ⟨flags, h1, h2, h3⟩ := C155_exact isort isort_isSort (qv [0, 3, 9, 3, 1 / 2, 3]) (qv [1, 1, 1, 1, 1, 1]) rfl (by decide) 1 3 (by norm_num)
    (by decide +kernel) (by decide +kernel) (fun x => by
      have e : ((range 6).filter fun j => (qv [0, 3, 9, 3, 1 / 2, 3]).val j ≠ 3 ∧ |(qv [0, 3, 9, 3, 1 / 2, 3]).val j - x| ≤ 1) ⊂ {0, 2, 4} := by
        rw [ssubset_iff_subset_ne]
        constructor
        · intro j hj
          have := (mem_filter.1 hj).2.1
          have h6 := mem_range.1 (mem_filter.1 hj).1
          interval_cases j <;> first | decide | exact absurd (by decide +kernel) this
        · intro h
          have h0 := (mem_filter.1 (h ▸ (by decide : (0 : ℕ) ∈ ({0, 2, 4} : Finset ℕ)))).2.2
          have h2 := (mem_filter.1 (h ▸ (by decide : (2 : ℕ) ∈ ({0, 2, 4} : Finset ℕ)))).2.2
          have e0 : (qv [0, 3, 9, 3, 1 / 2, 3]).val 0 = 0 := by decide +kernel
          have e2 : (qv [0, 3, 9, 3, 1 / 2, 3]).val 2 = 9 := by decide +kernel
          rw [e0] at h0
          rw [e2] at h2
          have := abs_le.1 h0
          have := abs_le.1 h2
          linarith
      exact lt_of_lt_of_eq (card_lt_card e) (by decide +kernel))
  refine ⟨flags, h1, ?_⟩
  obtain ⟨len, val⟩ := flags
  cases h2
  have : ∀ i < 6, val i = decide ((qv [0, 3, 9, 3, 1 / 2, 3]).val i = 3) := h3
  unfold Vec.toList
  simp only [show (qv [0, 3, 9, 3, 1 / 2, 3]).len = 6 from rfl, List.range_succ, List.range_zero, List.nil_append, List.map_append, List.map_cons, List.map_nil,
    this 0 (by norm_num), this 1 (by norm_num), this 2 (by norm_num), this 3 (by norm_num), this 4 (by norm_num), this 5 (by norm_num)]
  decide +kernel

/-- As many outliers that agree as true measures may win: here the outliers 0, 0 against the true value 5. -/
theorem C155_tie : (estimate isort (qv [0, 0, 5, 5]) (qv [1, 1, 1, 1])).map (fun r => (r.1, r.2.toList)) = .ok (some 0, [true, true, false, false]) := by decide +kernel

/-- The term of the error is needed: a single outlier, -100, wins against the two measures -5 and 5 of the value 0 with ranges 10, because the cost adds the squared residuals
25 + 25 to the range 10 of the outlier. -/
theorem C155_noise : (estimate isort (qv [-100, -5, 5]) (qv [10, 10, 10])).map (fun r => (r.1, r.2.toList)) = .ok (some (-100), [true, false, false]) := by decide +kernel

end Verif.Tls
