import Verif.Tls.Props
import Mathlib.Data.List.Perm.Basic
import Mathlib.Data.List.Sort
import Mathlib.Data.Set.Function

/-! Property theorem C149 (see properties.jsonl): the order of the measures. -/
namespace Verif.Tls
open Verif Spec

variable {K : Type} [Field K] [LinearOrder K] [IsStrictOrderedRing K]

/-- The measures `values'`, `ranges'` are the others in the order given by `σ`. -/
structure Reordered (σ : ℕ → ℕ) (values ranges values' ranges' : Vec K) : Prop where
  bij : Set.BijOn σ (Set.Iio values.len) (Set.Iio values.len)
  len : values'.len = values.len
  lenR : ranges'.len = ranges.len
  val : ∀ i < values.len, values'.val i = values.val (σ i)
  range : ∀ i < values.len, ranges'.val i = ranges.val (σ i)

/-- The outcomes are the same up to the order of the inliers. -/
def SameEstimate (σ : ℕ → ℕ) : Outcome (Option K × Vec Bool) → Outcome (Option K × Vec Bool) → Prop
  | .ok (h, s), .ok (h', s') => h' = h ∧ s'.len = s.len ∧ ∀ i < s.len, s'.val i = s.val (σ i)
  | .error e, .error e' => e' = e
  | _, _ => False

/-- C149, full statement: the estimate does not depend on the order of the measures nor on the order in which std::sort leaves equal elements. -/
def C149_statement (K : Type) [Field K] [LinearOrder K] : Prop :=
  ∀ (srt srt' : List (K × ℤ) → List (K × ℤ)), IsSort srt → IsSort srt' → ∀ (σ : ℕ → ℕ) (values ranges values' ranges' : Vec K), values.len = ranges.len → values.len < 2 ^ 31 →
    (∀ i < values.len, 0 < ranges.val i) → Reordered σ values ranges values' ranges' → SameEstimate σ (estimate srt values ranges) (estimate srt' values' ranges')

/-- No two of the intervals begin or end at the same place. -/
def Separate (n : ℕ) (v r : ℕ → K) : Prop :=
  ∀ i < n, ∀ j < n, v i - r i ≠ v j + r j ∧ (v i - r i = v j - r j → i = j) ∧ (v i + r i = v j + r j → i = j)

/-- The endpoints of the same measure. -/
def Twin (n : ℕ) (values ranges values' ranges' : Vec K) (e e' : K × ℤ) : Prop :=
  ∃ i j, i < n ∧ j < n ∧ values'.val j = values.val i ∧ ranges'.val j = ranges.val i ∧
    ((e.2 = (i : ℤ) + 1 ∧ e'.2 = (j : ℤ) + 1) ∨ (e.2 = -(i : ℤ) - 1 ∧ e'.2 = -(j : ℤ) - 1))

theorem step_twin {n : ℕ} {values ranges values' ranges' : Vec K} (h1 : values.len = n) (h2 : ranges.len = n) (h1' : values'.len = n) (h2' : ranges'.len = n)
    (hn : n < 2 ^ 31) {e e' : K × ℤ} (h : Twin n values ranges values' ranges' e e') (a : Acc K) :
    step values' ranges' (weights ranges') a e' = step values ranges (weights ranges) a e := by
  obtain ⟨i, j, hi, hj, hv, hr, hl⟩ := h
  have ga : ∀ k : ℤ, ∀ m : ℕ, m < n → (k = (m : ℤ) + 1 ∨ k = -(m : ℤ) - 1) → Cxx.int |k| = .ok ((m : ℤ) + 1) := by
    intro k m hm hk
    have : |k| = (m : ℤ) + 1 := by
      rcases hk with rfl | rfl
      · exact abs_of_nonneg (by omega)
      · rw [show -(m : ℤ) - 1 = -((m : ℤ) + 1) by ring, abs_neg]; exact abs_of_nonneg (by omega)
    rw [this]
    exact int_ok (by omega) (by omega)
  have gb : ∀ m : ℕ, m < n → Cxx.int ((m : ℤ) + 1 - 1) = .ok (m : ℤ) := fun m hm => by
    rw [add_sub_cancel_right]
    exact int_ok (by omega) (by omega)
  have hs : (if e'.2 > 0 then (1 : ℤ) else -1) = if e.2 > 0 then 1 else -1 := by
    rcases hl with ⟨a1, a2⟩ | ⟨a1, a2⟩
    · rw [if_pos (by omega), if_pos (by omega)]
    · rw [if_neg (by omega), if_neg (by omega)]
  have hw : (weights ranges').val j = (weights ranges).val i := by
    unfold weights
    simp only [hr]
  unfold step
  rw [ga e.2 i hi (by omega), ga e'.2 j hj (by omega), bind_ok, bind_ok, gb i hi, gb j hj, bind_ok, bind_ok, hs]
  have lw : (weights ranges).len = n := h2
  have lw' : (weights ranges').len = n := h2'
  rw [Vec.get_nat _ (by omega), Vec.get_nat _ (by omega), Vec.get_nat _ (by omega), Vec.get_nat _ (by omega), Vec.get_nat _ (by omega), Vec.get_nat _ (by omega), hw, hv, hr]

theorem sweep_twin {n : ℕ} {values ranges values' ranges' : Vec K} (h1 : values.len = n) (h2 : ranges.len = n) (h1' : values'.len = n) (h2' : ranges'.len = n)
    (hn : n < 2 ^ 31) {es es' : List (K × ℤ)} (h : List.Forall₂ (Twin n values ranges values' ranges') es es') (a : Acc K) :
    sweep values' ranges' (weights ranges') es' a = sweep values ranges (weights ranges) es a := by
  induction h generalizing a with
  | nil => rfl
  | cons hx _ ih =>
    unfold sweep
    rw [step_twin h1 h2 h1' h2' hn hx]
    cases step values ranges (weights ranges) a _ with
    | error e => rfl
    | ok p =>
      obtain ⟨a', h, c⟩ := p
      rw [bind_ok, bind_ok]
      simp only [ih]

theorem keys_base (v r : ℕ → K) (n : ℕ) : (base v r n).map Prod.fst = (List.range n).flatMap fun i => [v i - r i, v i + r i] := by
  unfold base
  rw [List.map_flatMap]
  rfl

theorem range_perm {n : ℕ} {σ : ℕ → ℕ} (h : Set.BijOn σ (Set.Iio n) (Set.Iio n)) : ((List.range n).map σ).Perm (List.range n) := by
  refine (List.perm_ext_iff_of_nodup ?_ List.nodup_range).2 fun k => ?_
  · exact (List.nodup_map_iff_inj_on List.nodup_range).2 fun i hi j hj e => h.injOn (List.mem_range.1 hi) (List.mem_range.1 hj) e
  · simp only [List.mem_map, List.mem_range]
    constructor
    · rintro ⟨i, hi, rfl⟩; exact h.mapsTo hi
    · intro hk
      obtain ⟨i, hi, e⟩ := h.surjOn hk
      exact ⟨i, hi, e⟩

theorem mem_ends {v r : ℕ → K} {n : ℕ} {e : K × ℤ} (h : e ∈ base v r n) : ∃ i < n, (e.1 = v i - r i ∧ e.2 = (i : ℤ) + 1) ∨ (e.1 = v i + r i ∧ e.2 = -(i : ℤ) - 1) := by
  obtain ⟨i, hi, rfl | rfl⟩ := mem_base.1 h
  · exact ⟨i, hi, Or.inl ⟨rfl, rfl⟩⟩
  · exact ⟨i, hi, Or.inr ⟨rfl, rfl⟩⟩

/-- The sorted endpoints belong to the same measures. -/
theorem sorted_twin {σ : ℕ → ℕ} {values ranges values' ranges' : Vec K} (h : Reordered σ values ranges values' ranges') (hs : Separate values.len values.val ranges.val)
    {es es' : List (K × ℤ)} (p : es.Perm (base values.val ranges.val values.len)) (p' : es'.Perm (base values'.val ranges'.val values.len))
    (s : es.Pairwise fun a b => a.1 ≤ b.1) (s' : es'.Pairwise fun a b => a.1 ≤ b.1) :
    List.Forall₂ (Twin values.len values ranges values' ranges') es es' := by
  have hk : es.map Prod.fst = es'.map Prod.fst := by
    have q : (es.map Prod.fst).Perm (es'.map Prod.fst) := by
      refine (p.map Prod.fst).trans (List.Perm.trans ?_ (p'.map Prod.fst).symm)
      rw [keys_base, keys_base]
      have e : ((List.range values.len).flatMap fun i => [values'.val i - ranges'.val i, values'.val i + ranges'.val i]) =
          ((List.range values.len).map σ).flatMap fun i => [values.val i - ranges.val i, values.val i + ranges.val i] := by
        rw [List.flatMap_map]
        rw [List.flatMap_def, List.flatMap_def]
        refine congrArg List.flatten (List.map_congr_left fun i hi => ?_)
        have hi := List.mem_range.1 hi
        rw [h.val i hi, h.range i hi]
      rw [e]
      exact ((range_perm h.bij).flatMap_right _).symm
    exact q.eq_of_pairwise (le := (· ≤ ·)) (fun a b _ _ h1 h2 => le_antisymm h1 h2) (List.pairwise_map.2 s) (List.pairwise_map.2 s')
  have m : ∀ e ∈ es, e ∈ base values.val ranges.val values.len := fun e he => p.subset he
  have m' : ∀ e ∈ es', e ∈ base values'.val ranges'.val values.len := fun e he => p'.subset he
  clear p p' s s'
  induction es generalizing es' with
  | nil => cases es' with
    | nil => exact .nil
    | cons x l => simp at hk
  | cons e es ih => cases es' with
    | nil => simp at hk
    | cons e' es' =>
      simp only [List.map_cons, List.cons.injEq] at hk
      refine .cons ?_ (ih hk.2 (fun x hx => m x (by simp [hx])) fun x hx => m' x (by simp [hx]))
      obtain ⟨i, hi, he⟩ := mem_ends (m e (by simp))
      obtain ⟨j, hj, he'⟩ := mem_ends (m' e' (by simp))
      have hσ := h.bij.mapsTo hj
      have hv := h.val j hj
      have hr := h.range j hj
      rw [hv, hr] at he'
      obtain ⟨s1, s2, s3⟩ := hs i hi (σ j) hσ
      obtain ⟨t1, -, -⟩ := hs (σ j) hσ i hi
      rcases he with ⟨a1, a2⟩ | ⟨a1, a2⟩ <;> rcases he' with ⟨b1, b2⟩ | ⟨b1, b2⟩
      · have hij := s2 (a1.symm.trans (hk.1.trans b1))
        exact ⟨i, j, hi, hj, hij ▸ hv, hij ▸ hr, Or.inl ⟨a2, b2⟩⟩
      · exact absurd (a1.symm.trans (hk.1.trans b1)) s1
      · exact absurd (b1.symm.trans (hk.1.symm.trans a1)) t1
      · have hij := s3 (a1.symm.trans (hk.1.trans b1))
        exact ⟨i, j, hi, hj, hij ▸ hv, hij ▸ hr, Or.inr ⟨a2, b2⟩⟩

theorem init_reordered {σ : ℕ → ℕ} {values ranges values' ranges' : Vec K} (h : Reordered σ values ranges values' ranges') (hl : values.len = ranges.len) :
    Acc.init ranges' = Acc.init ranges := by
  have f : ∀ (l : List ℕ) (g : ℕ → K) (a : K), l.foldl (fun s i => s + g i) a = a + (l.map g).sum := by
    intro l g
    induction l with
    | nil => intro a; simp
    | cons x l ih => intro a; rw [List.foldl_cons, ih, List.map_cons, List.sum_cons]; ring
  have e : (List.range ranges.len).map ranges'.val = ((List.range ranges.len).map σ).map ranges.val := by
    rw [List.map_map]
    exact List.map_congr_left fun i hi => h.range i (by rw [hl]; exact List.mem_range.1 hi)
  unfold Acc.init
  rw [f, f, h.lenR, e, ((range_perm (hl ▸ h.bij)).map ranges.val).sum_eq]

/-- C149 when no two of the intervals begin or end at the same place; the ranges need not be positive. Missing: intervals that touch, see `C149_violated`. -/
theorem C149_order_partial (srt srt' : List (K × ℤ) → List (K × ℤ)) (hsrt : IsSort srt) (hsrt' : IsSort srt') (σ : ℕ → ℕ) (values ranges values' ranges' : Vec K)
    (hl : values.len = ranges.len) (hn : values.len < 2 ^ 31) (h : Reordered σ values ranges values' ranges') (hs : Separate values.len values.val ranges.val) :
    SameEstimate σ (estimate srt values ranges) (estimate srt' values' ranges') := by
  have hl' : values'.len = ranges'.len := h.len.trans (hl.trans h.lenR.symm)
  obtain ⟨p, s⟩ := hsrt (endpoints values ranges)
  obtain ⟨p', s'⟩ := hsrt' (endpoints values' ranges')
  have t := sorted_twin (es := srt (endpoints values ranges)) (es' := srt' (endpoints values' ranges')) h hs (p.trans (.of_eq (endpoints_eq hn)))
    (p'.trans (.of_eq ((endpoints_eq (by rw [h.len]; exact hn)).trans (by rw [h.len]; rfl)))) s s'
  have hsw := sweep_twin rfl hl.symm h.len (hl'.symm.trans h.len) hn t (Acc.init ranges)
  unfold estimate
  rw [show Cxx.assert (values.len = ranges.len) = .ok () from if_pos hl, show Cxx.assert (values'.len = ranges'.len) = .ok () from if_pos hl', bind_ok, bind_ok,
    init_reordered h hl, hsw]
  cases sweep values ranges (weights ranges) (srt (endpoints values ranges)) (Acc.init ranges) with
  | error e => exact rfl
  | ok o =>
    rw [bind_ok, bind_ok]
    cases o with
    | nil => exact rfl
    | cons x l =>
      refine ⟨rfl, h.len, fun i hi => ?_⟩
      have hi : i < values.len := hi
      show (match (minLoop x l).1 with
        | none => false
        | some y => decide (absK (values'.val i - y) < ranges'.val i)) = _
      rw [h.val i hi, h.range i hi]
      rfl

/-- Two intervals that touch, in both orders: the estimates are 0, with one inlier, and 1/4, with none. -/
theorem C149_touch_violated :
    ((estimate isort (qv [0, 1 / 2]) (qv [1 / 4, 1 / 4])).map fun r => (r.1, r.2.toList)) = .ok (some 0, [true, false]) ∧
    ((estimate isort (qv [1 / 2, 0]) (qv [1 / 4, 1 / 4])).map fun r => (r.1, r.2.toList)) = .ok (some (1 / 4), [false, false]) := by
  constructor <;> decide +kernel

theorem C149_violated : ¬ C149_statement ℚ := fun h => by
  have r : Reordered (fun i => 1 - i) (qv [0, 1 / 2]) (qv [1 / 4, 1 / 4]) (qv [1 / 2, 0]) (qv [1 / 4, 1 / 4]) := by
    refine ⟨⟨?_, ?_, ?_⟩, rfl, rfl, ?_, ?_⟩
    · intro i hi; simp [qv] at hi ⊢; omega
    · intro i hi j hj e; simp [qv] at hi hj e; omega
    · intro i hi; simp [qv] at hi; exact ⟨1 - i, by simp [qv]; omega, by simp; omega⟩
    · intro i hi
      have hi : i < 2 := hi
      rcases (by omega : i = 0 ∨ i = 1) with rfl | rfl <;> rfl
    · intro i hi
      have hi : i < 2 := hi
      rcases (by omega : i = 0 ∨ i = 1) with rfl | rfl <;> rfl
  have hr : ∀ i < (qv [0, 1 / 2]).len, 0 < (qv [1 / 4, 1 / 4]).val i := by
    intro i hi
    have hi : i < 2 := hi
    rcases (by omega : i = 0 ∨ i = 1) with rfl | rfl <;> norm_num [qv]
  have key := h isort isort isort_isSort isort_isSort _ (qv [0, 1 / 2]) (qv [1 / 4, 1 / 4]) _ _ rfl (show 2 < 2 ^ 31 by norm_num) hr r
  obtain ⟨h1, h2⟩ := C149_touch_violated
  revert key h1 h2
  cases estimate isort (qv [0, 1 / 2]) (qv [1 / 4, 1 / 4]) with
  | error e => intro _ h1; cases h1
  | ok x => cases estimate isort (qv [1 / 2, 0]) (qv [1 / 4, 1 / 4]) with
    | error e => intro _ _ h2; cases h2
    | ok y =>
      intro key h1 h2
      have e1 := congrArg Prod.fst (Except.ok.inj h1)
      have e2 := congrArg Prod.fst (Except.ok.inj h2)
      have e := key.1
      simp only at e1 e2
      rw [e1, e2] at e
      norm_num at e

-- three measures in two orders, the intervals apart from each other
example : ((estimate isort (qv [1, 5 / 2, 10]) (qv [3 / 2, 3 / 2, 1])).map fun r => (r.1, r.2.toList)) =
    .ok (some (7 / 4), [true, true, false]) ∧
    ((estimate isort (qv [10, 1, 5 / 2]) (qv [1, 3 / 2, 3 / 2])).map fun r => (r.1, r.2.toList)) = .ok (some (7 / 4), [false, true, true]) := by
  constructor <;> decide +kernel

end Verif.Tls
