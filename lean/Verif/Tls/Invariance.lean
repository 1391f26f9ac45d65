import Verif.Tls.Props
import Mathlib.Tactic.Ring
import Mathlib.Tactic.FieldSimp
import Mathlib.Tactic.Linarith
import Mathlib.Tactic.IntervalCases
import Mathlib.Algebra.Order.BigOperators.Group.Finset

/-! Property theorems C134 (see properties.jsonl): the origin and the unit in which the measures are expressed. -/
namespace Verif.Tls
open Verif Spec Finset

variable {K : Type} [Field K] [LinearOrder K] [IsStrictOrderedRing K]

/-- The measures with `t` added. -/
def moved (t : K) (v : Vec K) : Vec K := ⟨v.len, fun i => v.val i + t⟩

/-- The measures (or the ranges) in a unit `c` times smaller. -/
def scaled (c : K) (v : Vec K) : Vec K := ⟨v.len, fun i => c * v.val i⟩

/-- Two outcomes of the estimate for measures that differ by `t`: the same error, or estimates that differ by `t` (or both NaN) and the same
inliers. -/
def MovedBy (t : K) : Outcome (Option K × Vec Bool) → Outcome (Option K × Vec Bool) → Prop
  | .ok a, .ok b => b.1 = a.1.map (· + t) ∧ b.2.toList = a.2.toList
  | .error e, .error e' => e = e'
  | _, _ => False

def moveEnd (t : K) (e : K × ℤ) : K × ℤ := (e.1 + t, e.2)

/-- The sort of moved endpoints that leaves the ties in the order in which `srt` leaves them. -/
def moveSort (t : K) (srt : List (K × ℤ) → List (K × ℤ)) (l : List (K × ℤ)) : List (K × ℤ) :=
  (srt (l.map (moveEnd (-t)))).map (moveEnd t)

omit [LinearOrder K] [IsStrictOrderedRing K] in
theorem moveEnd_neg (t : K) (l : List (K × ℤ)) : (l.map (moveEnd t)).map (moveEnd (-t)) = l := by
  rw [List.map_map]
  conv_rhs => rw [← List.map_id l]
  refine List.map_congr_left fun e _ => ?_
  simp [moveEnd]

/-- **C134** It is one of the sorts the library may use. -/
theorem C134_sort (t : K) {srt : List (K × ℤ) → List (K × ℤ)} (h : IsSort srt) : IsSort (moveSort t srt) := by
  intro l
  obtain ⟨h1, h2⟩ := h (l.map (moveEnd (-t)))
  refine ⟨?_, ?_⟩
  · have := h1.map (moveEnd t)
    have e := moveEnd_neg (-t) l
    rw [neg_neg] at e
    rw [e] at this
    exact this
  · unfold moveSort
    rw [List.pairwise_map]
    exact h2.imp fun {a b} hab => by simpa [moveEnd] using hab

omit [LinearOrder K] [IsStrictOrderedRing K] in
theorem endpoints_moved (t : K) (values ranges : Vec K) : endpoints (moved t values) ranges = (endpoints values ranges).map (moveEnd t) := by
  unfold endpoints moved
  rw [List.map_flatMap]
  refine congrArg (List.flatMap · _) ?_
  funext i
  simp only [List.map_cons, List.map_nil, moveEnd]
  rw [show values.val i + t - ranges.val i = values.val i - ranges.val i + t by ring,
    show values.val i + t + ranges.val i = values.val i + ranges.val i + t by ring]

/-- The accumulators of the moved measures. -/
def moveAcc (t : K) (a : Acc K) : Acc K :=
  ⟨a.consensusWeighted, a.consensusSetCardinal, a.sumXi + a.consensusSetCardinal * t,
    a.sumXiSquare + 2 * t * a.sumXi + a.consensusSetCardinal * t * t, a.valueWeighted + a.consensusWeighted * t, a.rangesInverseSum⟩

theorem step_moved (t : K) (values ranges w : Vec K) (a : Acc K) (e : K × ℤ) :
    step (moved t values) ranges w (moveAcc t a) (moveEnd t e) =
      (step values ranges w a e).map fun r => (moveAcc t r.1, r.2.1.map (· + t), r.2.2) := by
  unfold step
  rw [show (moveEnd t e).2 = e.2 from rfl, show (moveAcc t a).consensusSetCardinal = a.consensusSetCardinal from rfl]
  cases Cxx.int |e.2| with
  | error _ => rfl
  | ok m =>
  rw [bind_ok, bind_ok]
  cases Cxx.int (m - 1) with
  | error _ => rfl
  | ok i =>
  rw [bind_ok, bind_ok]
  generalize hinc : (if e.2 > 0 then (1 : ℤ) else -1) = incr
  cases hc : Cxx.int (a.consensusSetCardinal + incr) with
  | error _ => simp only [hc]; rfl
  | ok card =>
  have hcard : card = a.consensusSetCardinal + incr := by
    unfold Cxx.int at hc
    split at hc
    · exact (Except.ok.inj hc).symm
    · cases hc
  simp only [hc]
  rw [bind_ok, bind_ok]
  cases w.get i with
  | error _ => rfl
  | ok w =>
  rw [bind_ok, bind_ok]
  have hv : (moved t values).get i = (values.get i).map (· + t) := by
    unfold Vec.get moved
    split <;> rfl
  rw [hv]
  cases values.get i with
  | error _ => rfl
  | ok v =>
  rw [show (Except.ok v : Outcome K).map (· + t) = .ok (v + t) from rfl, bind_ok, bind_ok]
  cases ranges.get i with
  | error _ => rfl
  | ok r =>
  rw [bind_ok, bind_ok]
  have hacc : (⟨(moveAcc t a).consensusWeighted + incr * w, card, (moveAcc t a).sumXi + incr * (v + t),
      (moveAcc t a).sumXiSquare + incr * (v + t) * (v + t), (moveAcc t a).valueWeighted + incr * w * (v + t),
      (moveAcc t a).rangesInverseSum - incr * r⟩ : Acc K) =
      moveAcc t ⟨a.consensusWeighted + incr * w, card, a.sumXi + incr * v, a.sumXiSquare + incr * v * v,
        a.valueWeighted + incr * w * v, a.rangesInverseSum - incr * r⟩ := by
    unfold moveAcc
    simp only [Acc.mk.injEq, true_and]
    rw [hcard]
    push_cast
    refine ⟨by ring, by ring, by ring, trivial⟩
  simp only [hacc]
  rw [show (moveAcc t a).consensusWeighted = a.consensusWeighted from rfl]
  by_cases h0 : a.consensusWeighted + incr * w = 0
  · rw [if_pos h0, if_pos h0]; rfl
  · rw [if_neg h0, if_neg h0]
    have hh : ((moveAcc t a).valueWeighted + incr * w * (v + t)) / (a.consensusWeighted + incr * w) =
        (a.valueWeighted + incr * w * v) / (a.consensusWeighted + incr * w) + t := by
      rw [eq_comm, div_add' _ _ _ h0]
      congr 1
      unfold moveAcc
      ring
    rw [hh]
    generalize (a.valueWeighted + incr * w * v) / (a.consensusWeighted + incr * w) = h
    change Except.ok (_, _, _) = Except.ok (_, _, _)
    congr 3
    unfold moveAcc
    simp only
    rw [hcard]
    push_cast
    ring_nf

theorem sweep_moved (t : K) (values ranges w : Vec K) (l : List (K × ℤ)) (a : Acc K) :
    sweep (moved t values) ranges w (l.map (moveEnd t)) (moveAcc t a) =
      (sweep values ranges w l a).map fun r => r.map fun p => (p.1.map (· + t), p.2) := by
  induction l generalizing a with
  | nil => rfl
  | cons e l ih =>
    rw [List.map_cons]
    unfold sweep
    rw [step_moved]
    cases step values ranges w a e with
    | error _ => rfl
    | ok r =>
      obtain ⟨a', h, c⟩ := r
      change (sweep (moved t values) ranges w (l.map (moveEnd t)) (moveAcc t a') >>= fun r => Except.ok ((h.map (· + t), c) :: r)) =
        Except.map _ (sweep values ranges w l a' >>= fun r => Except.ok ((h, c) :: r))
      rw [ih]
      cases sweep values ranges w l a' <;> rfl

theorem minLoop_moved (t : K) (l : List (Option K × Option K)) (p : Option K × Option K) :
    minLoop (p.1.map (· + t), p.2) (l.map fun p => (p.1.map (· + t), p.2)) =
      ((minLoop p l).1.map (· + t), (minLoop p l).2) := by
  induction l generalizing p with
  | nil => rfl
  | cons q l ih =>
    rw [List.map_cons]
    unfold minLoop
    rw [← ih]
    congr 1
    split <;> rfl

/-- **C134** Adding a number to all measures adds it to the estimate and keeps the inliers and the errors, for every input. -/
theorem C134_origin (srt : List (K × ℤ) → List (K × ℤ)) (t : K) (values ranges : Vec K) :
    MovedBy t (estimate srt values ranges) (estimate (moveSort t srt) (moved t values) ranges) := by
  unfold estimate
  by_cases hl : values.len = ranges.len
  swap
  · rw [show Cxx.assert (values.len = ranges.len) = .error .abort from if_neg hl,
      show Cxx.assert ((moved t values).len = ranges.len) = .error .abort from if_neg hl]
    exact rfl
  rw [show Cxx.assert (values.len = ranges.len) = .ok () from if_pos hl,
    show Cxx.assert ((moved t values).len = ranges.len) = .ok () from if_pos hl, bind_ok, bind_ok, endpoints_moved]
  have hs : moveSort t srt ((endpoints values ranges).map (moveEnd t)) = (srt (endpoints values ranges)).map (moveEnd t) := by
    unfold moveSort
    rw [moveEnd_neg]
  have hi : (Acc.init ranges : Acc K) = moveAcc t (Acc.init ranges) := by
    unfold moveAcc Acc.init
    simp
  rw [hs]
  conv => arg 3; rw [hi, sweep_moved]
  cases sweep values ranges (weights ranges) (srt (endpoints values ranges)) (Acc.init ranges) with
  | error e => exact rfl
  | ok o =>
    cases o with
    | nil => exact rfl
    | cons p l =>
      refine ⟨?_, ?_⟩
      · change (minLoop _ _).1 = _
        rw [minLoop_moved]
      · unfold Vec.toList
        refine List.map_congr_left fun i _ => ?_
        change (match (minLoop (p.1.map (· + t), p.2) (l.map fun p => (p.1.map (· + t), p.2))).1 with
          | none => false
          | some h => decide (absK ((values.val i + t) - h) < ranges.val i)) = _
        rw [minLoop_moved]
        change _ = (match (minLoop p l).1 with
          | none => false
          | some h => decide (absK (values.val i - h) < ranges.val i))
        cases (minLoop p l).1 with
        | none => rfl
        | some h =>
          change decide (absK ((values.val i + t) - (h + t)) < ranges.val i) = _
          rw [add_sub_add_right_eq_sub]

-- 1, 2 and 10 with ranges 3/2, moved by 5
example : ((estimate isort (qv [6, 7, 15]) (qv [3 / 2, 3 / 2, 3 / 2])).map fun r => (r.1, r.2.toList)) = .ok (some (13 / 2), [true, true, false]) := by
  decide +kernel

/-- The unit does not matter: dividing the unit of measures and ranges by `c` multiplies the estimate by `c` (the ranges being at least 10^-6
in both units, where the weights are their inverse squares). -/
def C134_unit_statement : Prop :=
  ∀ (srt : List (ℚ × ℤ) → List (ℚ × ℤ)), IsSort srt → ∀ (c : ℚ) (values ranges : Vec ℚ), 1 ≤ c → values.len = ranges.len → 0 < values.len →
    values.len < 2 ^ 31 → (∀ i < values.len, 1 / 1000000 ≤ ranges.val i) → ∀ x flags, estimate srt values ranges = .ok (some x, flags) →
      ∃ flags', estimate srt (scaled c values) (scaled c ranges) = .ok (some (c * x), flags')

/-- It does: 0 m and 1 m with ranges 1 m have the estimate 1/2 m, and expressed in a unit of 1/3 m the estimate 0. -/
theorem C134_unit_violated : ¬ C134_unit_statement := by
  intro h
  have e : (estimate isort (qv [0, 1]) (qv [1, 1])).map (fun r => (r.1, r.2.toList)) = .ok (some (1 / 2), [true, true]) := by decide +kernel
  cases he : estimate isort (qv [0, 1]) (qv [1, 1]) with
  | error _ => rw [he] at e; cases e
  | ok r =>
    obtain ⟨x, flags⟩ := r
    rw [he] at e
    have hx : x = some (1 / 2) := congrArg Prod.fst (Except.ok.inj e)
    subst hx
    obtain ⟨flags', h'⟩ := h isort isort_isSort 3 (qv [0, 1]) (qv [1, 1]) (by norm_num) rfl (by decide) (by decide)
      (by intro i hi; change i < 2 at hi; interval_cases i <;> norm_num [qv]) _ _ he
    have e' : (estimate isort (scaled 3 (qv [0, 1])) (scaled 3 (qv [1, 1]))).map (fun r => r.1) = .ok (some 0) := by decide +kernel
    rw [h'] at e'
    have := Option.some.inj (Except.ok.inj e')
    norm_num at this

theorem weight_scaled {c : K} (hc : 1 ≤ c) {r : ℕ → K} {i : ℕ} (hr : 1 / 1000000 ≤ r i) : weight (fun i => c * r i) i = weight r i / c ^ 2 := by
  have h0 : (0 : K) < 1 / 1000000 := by norm_num
  have hc0 : 0 < c := lt_of_lt_of_le one_pos hc
  have hr0 : 0 < r i := lt_of_lt_of_le h0 hr
  have h2 : r i ≤ c * r i := le_mul_of_one_le_left hr0.le hc
  unfold weight
  rw [if_neg, if_neg]
  · field_simp
  · rw [abs_of_pos hr0]; exact not_lt.2 hr
  · rw [abs_of_pos (mul_pos hc0 hr0)]; exact not_lt.2 (hr.trans h2)

theorem wmean_scaled {c : K} (hc : 1 ≤ c) {v r : ℕ → K} {S : Finset ℕ} (hr : ∀ i ∈ S, 1 / 1000000 ≤ r i) :
    wmean (fun i => c * v i) (fun i => c * r i) S = c * wmean v r S := by
  have hc0 : c ≠ 0 := (lt_of_lt_of_le one_pos hc).ne'
  unfold wmean
  rw [sum_congr rfl fun i hi => show weight (fun i => c * r i) i * (c * v i) = (c / c ^ 2) * (weight r i * v i) by
      rw [weight_scaled hc (hr i hi)]; ring,
    sum_congr rfl fun i hi => show weight (fun i => c * r i) i = (1 / c ^ 2) * weight r i by rw [weight_scaled hc (hr i hi)]; ring,
    ← mul_sum, ← mul_sum, mul_div_mul_comm]
  congr 1
  field_simp

theorem overlap_scaled {c : K} (hc : 0 < c) (n : ℕ) (v r : ℕ → K) (y : K) :
    overlap n (fun i => c * v i) (fun i => c * r i) (c * y) = overlap n v r y := by
  unfold overlap
  refine filter_congr fun i _ => ?_
  rw [← mul_sub, ← mul_add, mul_le_mul_iff_right₀ hc, mul_lt_mul_iff_right₀ hc]

theorem cost_scaled (c : K) (n : ℕ) (v r : ℕ → K) (S : Finset ℕ) (h : K) :
    cost n (fun i => c * v i) (fun i => c * r i) S (c * h) = c * (c * ∑ i ∈ S, (v i - h) ^ 2 + ∑ i ∈ range n \ S, r i) := by
  unfold cost
  rw [mul_add, mul_sum, mul_sum, mul_sum]
  congr 1
  exact sum_congr rfl fun i _ => by ring

/-- **C134** What the function does in a unit `c` times smaller: it still chooses among the weighted means of the same consensus sets, but it
minimises `c` times the squared residuals of the inliers plus the ranges of the outliers, so the balance depends on the unit. -/
theorem C134_unit_partial (srt : List (K × ℤ) → List (K × ℤ)) (hsrt : IsSort srt) (c : K) (hc : 1 ≤ c) (values ranges : Vec K)
    (hl : values.len = ranges.len) (h0 : 0 < values.len) (hn : values.len < 2 ^ 31) (hr : ∀ i < values.len, 1 / 1000000 ≤ ranges.val i) :
    ∃ (S : Finset ℕ) (x : K) (flags : Vec Bool), S ⊆ range values.len ∧ S.Nonempty ∧
      (∀ i ∈ S, |values.val i - x| ≤ ranges.val i) ∧ (∀ i < values.len, |values.val i - x| < ranges.val i → i ∈ S) ∧
      estimate srt (scaled c values) (scaled c ranges) = .ok (some (c * wmean values.val ranges.val S), flags) ∧
      (∀ y, (overlap values.len values.val ranges.val y).Nonempty →
        c * ∑ i ∈ S, (values.val i - wmean values.val ranges.val S) ^ 2 + ∑ i ∈ range values.len \ S, ranges.val i ≤
          c * ∑ i ∈ overlap values.len values.val ranges.val y,
              (values.val i - wmean values.val ranges.val (overlap values.len values.val ranges.val y)) ^ 2 +
            ∑ i ∈ range values.len \ overlap values.len values.val ranges.val y, ranges.val i) ∧
      flags.len = values.len ∧ ∀ i < values.len, flags.val i = decide (|values.val i - wmean values.val ranges.val S| < ranges.val i) := by
  have hc0 : 0 < c := lt_of_lt_of_le one_pos hc
  have hp : (0 : K) < 1 / 1000000 := by norm_num
  obtain ⟨S, x, flags, hS, hne, h1, h2, h3, h4, h5, h6⟩ := C56_tls srt hsrt (scaled c values) (scaled c ranges) hl h0 hn
    fun i hi => mul_pos hc0 (lt_of_lt_of_le hp (hr i hi))
  have habs : ∀ i z, |c * values.val i - c * z| = c * |values.val i - z| := fun i z => by rw [← mul_sub, abs_mul, abs_of_pos hc0]
  have hx : c * (x / c) = x := mul_div_cancel₀ x hc0.ne'
  have hm : ∀ T ⊆ range values.len, wmean (scaled c values).val (scaled c ranges).val T = c * wmean values.val ranges.val T :=
    fun T hT => wmean_scaled hc fun i hi => hr i (mem_range.1 (hT hi))
  refine ⟨S, x / c, flags, hS, hne, fun i hi => ?_, fun i hi hlt => ?_, ?_, fun y hy => ?_, h5, fun i hi => ?_⟩
  · have := h1 i hi
    rw [← hx] at this
    change |c * values.val i - c * (x / c)| ≤ c * ranges.val i at this
    rw [habs] at this
    exact le_of_mul_le_mul_left this hc0
  · refine h2 i hi ?_
    rw [← hx]
    change |c * values.val i - c * (x / c)| < c * ranges.val i
    rw [habs]
    exact mul_lt_mul_of_pos_left hlt hc0
  · rw [h3, hm S hS]
  · have e : overlap (scaled c values).len (scaled c values).val (scaled c ranges).val (c * y) = overlap values.len values.val ranges.val y :=
      overlap_scaled hc0 _ _ _ y
    have := h4 (c * y) (by rw [e]; exact hy)
    rw [e, hm S hS, hm (overlap values.len values.val ranges.val y) (filter_subset _ _)] at this
    have a := cost_scaled c values.len values.val ranges.val S (wmean values.val ranges.val S)
    have b := cost_scaled c values.len values.val ranges.val (overlap values.len values.val ranges.val y)
      (wmean values.val ranges.val (overlap values.len values.val ranges.val y))
    change cost values.len (fun i => c * values.val i) (fun i => c * ranges.val i) _ _ ≤
      cost values.len (fun i => c * values.val i) (fun i => c * ranges.val i) _ _ at this
    rw [a, b] at this
    exact le_of_mul_le_mul_left this hc0
  · rw [h6 i hi, hm S hS]
    change decide (|c * values.val i - c * _| < c * ranges.val i) = _
    rw [habs, decide_eq_decide]
    exact mul_lt_mul_iff_right₀ hc0

/-- **C134** In a small enough unit no two measures ever agree: if the measures are at least `d` apart, one of the intervals begins before the
others and `c d²` is more than twice the sum of the ranges, the estimate is a single one of the measures, however many there are. -/
theorem C134_small_unit (srt : List (K × ℤ) → List (K × ℤ)) (hsrt : IsSort srt) (c d : K) (hc : 1 ≤ c) (hd : 0 < d) (values ranges : Vec K)
    (hl : values.len = ranges.len) (hn : values.len < 2 ^ 31) (hr : ∀ i < values.len, 1 / 1000000 ≤ ranges.val i)
    (hdist : ∀ i < values.len, ∀ j < values.len, i ≠ j → d ≤ |values.val i - values.val j|)
    {f : ℕ} (hf : f < values.len) (hfirst : ∀ j < values.len, j ≠ f → values.val f - ranges.val f < values.val j - ranges.val j)
    (hsmall : 2 * ∑ i ∈ range values.len, ranges.val i < c * d ^ 2) :
    ∃ i < values.len, ∃ flags, estimate srt (scaled c values) (scaled c ranges) = .ok (some (c * values.val i), flags) := by
  obtain ⟨S, x, flags, hS, ⟨i, hi⟩, -, -, h3, h4, -⟩ := C134_unit_partial srt hsrt c hc values ranges hl (by omega) hn hr
  have hc0 : 0 < c := lt_of_lt_of_le one_pos hc
  have hp : (0 : K) < 1 / 1000000 := by norm_num
  have hpos : ∀ i < values.len, 0 < ranges.val i := fun i hi => lt_of_lt_of_le hp (hr i hi)
  have hw : ∀ j, j < values.len → weight ranges.val j ≠ 0 := by
    intro j hj
    unfold weight
    split
    · norm_num
    · exact div_ne_zero one_ne_zero (pow_ne_zero 2 (hpos j hj).ne')
  have hsing : ∀ j < values.len, wmean values.val ranges.val {j} = values.val j := by
    intro j hj
    unfold wmean
    rw [sum_singleton, sum_singleton, mul_div_cancel_left₀ _ (hw j hj)]
  have ho : overlap values.len values.val ranges.val (values.val f - ranges.val f) = {f} := by
    unfold overlap
    ext j
    rw [mem_filter, mem_range, mem_singleton]
    constructor
    · rintro ⟨hj, hle, -⟩
      by_contra hne
      exact absurd (hfirst j hj hne) (not_lt.2 hle)
    · rintro rfl
      exact ⟨hf, le_refl _, by linarith [hpos j hf]⟩
  have hmin := h4 (values.val f - ranges.val f) (by rw [ho]; exact singleton_nonempty f)
  rw [ho, sum_singleton, hsing f hf, sub_self] at hmin
  have hout : ∑ i ∈ range values.len \ {f}, ranges.val i ≤ ∑ i ∈ range values.len, ranges.val i :=
    sum_le_sum_of_subset_of_nonneg sdiff_subset fun j hj _ => (hpos j (mem_range.1 hj)).le
  have hout' : 0 ≤ ∑ i ∈ range values.len \ S, ranges.val i := sum_nonneg fun j hj => (hpos j (mem_range.1 (mem_sdiff.1 hj).1)).le
  have hone : S = {i} := by
    refine eq_singleton_iff_unique_mem.2 ⟨hi, fun j hj => ?_⟩
    by_contra hne
    have hij := hdist i (mem_range.1 (hS hi)) j (mem_range.1 (hS hj)) fun h => hne h.symm
    set m := wmean values.val ranges.val S with hm
    have hpair : (values.val i - m) ^ 2 + (values.val j - m) ^ 2 ≤ ∑ k ∈ S, (values.val k - m) ^ 2 := by
      have hsub : ({i, j} : Finset ℕ) ⊆ S := by
        intro k hk
        rw [mem_insert, mem_singleton] at hk
        rcases hk with rfl | rfl
        · exact hi
        · exact hj
      have := sum_le_sum_of_subset_of_nonneg (f := fun k => (values.val k - m) ^ 2) hsub fun k _ _ => sq_nonneg _
      rwa [sum_pair fun h => hne h.symm] at this
    have hsq : d ^ 2 ≤ (values.val i - values.val j) ^ 2 := by
      rw [← sq_abs (values.val i - values.val j)]
      exact pow_le_pow_left₀ hd.le hij 2
    have hd2 : d ^ 2 ≤ 2 * ∑ k ∈ S, (values.val k - m) ^ 2 := by
      nlinarith [sq_nonneg (values.val i - m + (values.val j - m))]
    have := mul_le_mul_of_nonneg_left hd2 hc0.le
    linarith
  refine ⟨i, mem_range.1 (hS hi), flags, ?_⟩
  rw [h3, hone, hsing i (mem_range.1 (hS hi))]

-- 0 m, 0.1 m and 0.2 m with ranges 1 m have the mean 0.1 m ...
example : (estimate isort (qv [0, 1 / 10, 2 / 10]) (qv [1, 1, 1])).map (fun r => (r.1, r.2.toList)) = .ok (some (1 / 10), [true, true, true]) := by
  decide +kernel

-- ... and the same measures in millimetres: the first one alone
example : (estimate isort (scaled 1000 (qv [0, 1 / 10, 2 / 10])) (scaled 1000 (qv [1, 1, 1]))).map (fun r => r.1) = .ok (some 0) := by
  decide +kernel

end Verif.Tls
