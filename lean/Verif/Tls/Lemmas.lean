import Verif.Tls.Model
import Verif.Tls.Spec
import Mathlib.Tactic.Linarith
import Mathlib.Tactic.Ring
import Mathlib.Tactic.FieldSimp
import Mathlib.Algebra.Order.BigOperators.Ring.Finset
import Mathlib.Data.List.Perm.Basic
import Mathlib.Data.List.TakeWhile

/-! Lemmas for C56. -/
namespace Verif.Tls
open Verif Spec Finset

variable {K : Type} [Field K] [LinearOrder K] [IsStrictOrderedRing K]

theorem bind_ok {α β : Type} (x : α) (f : α → Outcome β) : (Except.ok x >>= f) = f x := rfl

theorem int_ok {z : ℤ} (h : -2147483648 ≤ z) (h' : z ≤ 2147483647) : Cxx.int z = .ok z := if_pos ⟨h, h'⟩

theorem absK_abs (x : K) : absK x = |x| := by
  unfold absK
  split
  · rename_i h; rw [abs_of_neg h]
  · rename_i h; rw [abs_of_nonneg (not_lt.1 h)]

/-- The first endpoint of a measure. -/
def bp (v r : ℕ → K) (i : ℕ) : K × ℤ := (v i - r i, (i : ℤ) + 1)
/-- The last endpoint of a measure. -/
def ep (v r : ℕ → K) (i : ℕ) : K × ℤ := (v i + r i, -(i : ℤ) - 1)

theorem endpoints_eq {values ranges : Vec K} (h : values.len < 2 ^ 31) :
    endpoints values ranges = (List.range values.len).flatMap fun i => [bp values.val ranges.val i, ep values.val ranges.val i] := by
  unfold endpoints
  rw [List.flatMap_def, List.flatMap_def]
  refine congrArg List.flatten (List.map_congr_left fun i hi => ?_)
  have hi := List.mem_range.1 hi
  have h1 : Cxx.ofSize (Cxx.toSize ((i : ℤ) + 1)) = (i : ℤ) + 1 := by
    unfold Cxx.ofSize Cxx.toSize
    rw [Int.bmod_def]
    have hb : i + 1 < 2147483648 := by omega
    clear h hi
    omega
  have h2 : Cxx.ofSize (Cxx.toSize (-(i : ℤ) - 1)) = -(i : ℤ) - 1 := by
    unfold Cxx.ofSize Cxx.toSize
    rw [Int.bmod_def]
    have hb : i + 1 < 2147483648 := by omega
    clear h hi h1
    omega
  show [(_, Cxx.ofSize (Cxx.toSize ((i : ℤ) + 1))), (_, Cxx.ofSize (Cxx.toSize (-(i : ℤ) - 1)))] = _
  rw [h1, h2]
  rfl

theorem bp_ne_ep (v r : ℕ → K) (i j : ℕ) : bp v r i ≠ ep v r j := fun h => by
  have := congrArg Prod.snd h
  dsimp only [bp, ep] at this
  omega

theorem bp_inj {v r : ℕ → K} {i j : ℕ} (h : bp v r i = bp v r j) : i = j := by
  have := congrArg Prod.snd h
  dsimp only [bp] at this
  omega

theorem ep_inj {v r : ℕ → K} {i j : ℕ} (h : ep v r i = ep v r j) : i = j := by
  have := congrArg Prod.snd h
  dsimp only [ep] at this
  omega

/-- The unsorted endpoints. -/
def base (v r : ℕ → K) (n : ℕ) : List (K × ℤ) := (List.range n).flatMap fun i => [bp v r i, ep v r i]

theorem mem_base {v r : ℕ → K} {n : ℕ} {e : K × ℤ} : e ∈ base v r n ↔ ∃ i < n, e = bp v r i ∨ e = ep v r i := by
  simp [base]

theorem base_nodup (v r : ℕ → K) (n : ℕ) : (base v r n).Nodup := by
  induction n with
  | zero => exact List.nodup_nil
  | succ n ih =>
    have e : base v r (n + 1) = base v r n ++ [bp v r n, ep v r n] := by simp [base, List.range_succ]
    rw [e, List.nodup_append]
    refine ⟨ih, by simp [bp_ne_ep], fun a ha b hb => ?_⟩
    obtain ⟨i, hi, h⟩ := mem_base.1 ha
    simp only [List.mem_cons, List.not_mem_nil, or_false] at hb
    rcases h with rfl | rfl <;> rcases hb with rfl | rfl <;> intro h
    · exact hi.ne (bp_inj h)
    · exact bp_ne_ep _ _ _ _ h
    · exact bp_ne_ep _ _ _ _ h.symm
    · exact hi.ne (ep_inj h)

/-- The measures begun and not ended in a prefix. -/
def active (v r : ℕ → K) (n : ℕ) (pre : List (K × ℤ)) : Finset ℕ := (range n).filter fun i => bp v r i ∈ pre ∧ ep v r i ∉ pre

/-- Index of an endpoint. -/
def ix (e : K × ℤ) : ℕ := e.2.natAbs - 1
/-- Sign of an endpoint. -/
def sg (e : K × ℤ) : ℤ := if e.2 > 0 then 1 else -1

/-- The signed sum of a quantity over a prefix. -/
def ssum (f : ℕ → K) (pre : List (K × ℤ)) : K := (pre.map fun e => (sg e : K) * f (ix e)).sum

theorem ix_bp (v r : ℕ → K) (i : ℕ) : ix (bp v r i) = i ∧ sg (bp v r i) = 1 := by
  unfold ix sg bp; constructor
  · show ((i : ℤ) + 1).natAbs - 1 = i; omega
  · exact if_pos (by show (0 : ℤ) < i + 1; omega)

theorem ix_ep (v r : ℕ → K) (i : ℕ) : ix (ep v r i) = i ∧ sg (ep v r i) = -1 := by
  unfold ix sg ep; constructor
  · show (-(i : ℤ) - 1).natAbs - 1 = i; omega
  · exact if_neg (by show ¬ (0 : ℤ) < -i - 1; omega)

theorem ssum_filter (f : ℕ → K) (v r : ℕ → K) (pre : List (K × ℤ)) (n : ℕ) :
    ssum f ((base v r n).filter (· ∈ pre)) = ∑ i ∈ range n, ((if bp v r i ∈ pre then f i else 0) - if ep v r i ∈ pre then f i else 0) := by
  induction n with
  | zero => rfl
  | succ n ih =>
    have e : base v r (n + 1) = base v r n ++ [bp v r n, ep v r n] := by simp [base, List.range_succ]
    rw [e, List.filter_append, sum_range_succ, ← ih]
    unfold ssum
    rw [List.map_append, List.sum_append]
    congr 1
    obtain ⟨b1, b2⟩ := ix_bp v r n
    obtain ⟨e1, e2⟩ := ix_ep v r n
    by_cases hb : bp v r n ∈ pre <;> by_cases he : ep v r n ∈ pre <;> simp [List.filter_cons, hb, he, b1, b2, e1, e2] <;> ring

/-- The signed sums are sums over the active measures. -/
theorem ssum_active {v r : ℕ → K} {n : ℕ} (hr : ∀ i < n, 0 < r i) {es pre suf : List (K × ℤ)} (hp : es.Perm (base v r n))
    (hs : es.Pairwise fun a b => a.1 ≤ b.1) (he : es = pre ++ suf) (f : ℕ → K) : ssum f pre = ∑ i ∈ active v r n pre, f i := by
  have hnd : es.Nodup := hp.nodup_iff.2 (base_nodup v r n)
  have hnp : pre.Nodup := by rw [he] at hnd; exact (List.nodup_append.1 hnd).1
  have hperm : pre.Perm ((base v r n).filter (· ∈ pre)) := by
    rw [List.perm_ext_iff_of_nodup hnp ((base_nodup v r n).filter _)]
    intro a
    rw [List.mem_filter, decide_eq_true_eq]
    exact ⟨fun h => ⟨hp.mem_iff.1 (by rw [he]; exact List.mem_append_left _ h), h⟩, fun h => h.2⟩
  have e1 : ssum f pre = ssum f ((base v r n).filter (· ∈ pre)) := (hperm.map _).sum_eq
  rw [e1, ssum_filter]
  unfold active
  rw [sum_filter]
  refine sum_congr rfl fun i hi => ?_
  have hi := mem_range.1 hi
  by_cases hb : bp v r i ∈ pre
  · by_cases h : ep v r i ∈ pre <;> simp [hb, h]
  · have h : ep v r i ∉ pre := by
      intro h
      have hbs : bp v r i ∈ suf := by
        have := hp.mem_iff.2 (mem_base.2 ⟨i, hi, Or.inl rfl⟩)
        rw [he] at this
        exact (List.mem_append.1 this).resolve_left hb
      rw [he] at hs
      have := (List.pairwise_append.1 hs).2.2 _ h _ hbs
      have := hr i hi
      simp only [bp, ep] at *
      linarith
    simp [hb, h]

/-- The candidate of a prefix: mean and cost of the active measures. -/
def out (v r : ℕ → K) (n : ℕ) (pre : List (K × ℤ)) : Option K × Option K :=
  if active v r n pre = ∅ then (none, none)
  else (some (wmean v r (active v r n pre)), some (cost n v r (active v r n pre) (wmean v r (active v r n pre))))

/-- The candidates of the prefixes that extend `pre`. -/
def outs (v r : ℕ → K) (n : ℕ) (pre : List (K × ℤ)) : List (K × ℤ) → List (Option K × Option K)
  | [] => []
  | e :: l => out v r n (pre ++ [e]) :: outs v r n (pre ++ [e]) l

theorem mem_outs {v r : ℕ → K} {n : ℕ} {l pre : List (K × ℤ)} {p : Option K × Option K} :
    p ∈ outs v r n pre l ↔ ∃ a e b, l = a ++ e :: b ∧ p = out v r n (pre ++ (a ++ [e])) := by
  induction l generalizing pre with
  | nil => simp [outs]
  | cons x l ih =>
    unfold outs
    rw [List.mem_cons, ih]
    constructor
    · rintro (h | ⟨a, e, b, h1, h2⟩)
      · exact ⟨[], x, l, rfl, h⟩
      · exact ⟨x :: a, e, b, by rw [h1]; rfl, by rw [h2]; simp⟩
    · rintro ⟨a, e, b, h1, h2⟩
      cases a with
      | nil => obtain ⟨rfl, rfl⟩ : x = e ∧ l = b := by simpa using h1
               exact Or.inl h2
      | cons y a =>
        obtain ⟨rfl, h3⟩ : x = y ∧ l = a ++ e :: b := by simpa using h1
        exact Or.inr ⟨a, e, b, h3, by rw [h2]; simp⟩

theorem weight_pos {r : ℕ → K} {i : ℕ} (h : 0 < r i) : 0 < weight r i := by
  unfold weight
  split
  · norm_num
  · positivity

/-- The accumulators after a prefix. -/
def accOf (values ranges : Vec K) (pre : List (K × ℤ)) : Acc K :=
  ⟨ssum (weight ranges.val) pre, (pre.map sg).sum, ssum values.val pre, ssum (fun i => values.val i * values.val i) pre,
    ssum (fun i => weight ranges.val i * values.val i) pre, (∑ i ∈ range values.len, ranges.val i) - ssum ranges.val pre⟩

theorem ssum_snoc (f : ℕ → K) (pre : List (K × ℤ)) (e : K × ℤ) : ssum f (pre ++ [e]) = ssum f pre + sg e * f (ix e) := by
  simp [ssum]

theorem weights_eq (ranges : Vec K) (i : ℕ) : (weights ranges).val i = weight ranges.val i := by
  unfold weights weight
  simp only [absK_abs, pow_two]

theorem cost_eq {v r : ℕ → K} {n : ℕ} {S : Finset ℕ} (hS : S ⊆ range n) (h : K) :
    (S.card : K) * h * h + ∑ i ∈ S, v i * v i - 2 * (∑ i ∈ S, v i) * h + (∑ i ∈ range n, r i - ∑ i ∈ S, r i) = cost n v r S h := by
  unfold cost
  rw [← sum_sdiff hS, add_sub_cancel_right]
  congr 1
  have : ∀ i ∈ S, (v i - h) ^ 2 = v i * v i - (2 * h) * v i + h * h := fun i _ => by ring
  rw [sum_congr rfl this, sum_add_distrib, sum_sub_distrib, ← mul_sum, sum_const, nsmul_eq_mul]
  ring

theorem card_active {v r : ℕ → K} {n : ℕ} (hr : ∀ i < n, 0 < r i) {es pre suf : List (K × ℤ)} (hp : es.Perm (base v r n))
    (hs : es.Pairwise fun a b => a.1 ≤ b.1) (he : es = pre ++ suf) : ((pre.map sg).sum : ℤ) = (active v r n pre).card := by
  have h := ssum_active hr hp hs he (fun _ => 1)
  have e : ssum (fun _ => (1 : K)) pre = (((pre.map sg).sum : ℤ) : K) := by
    unfold ssum
    simp only [mul_one]
    rw [Int.cast_list_sum, List.map_map]
    rfl
  rw [e, sum_const, nsmul_eq_mul, mul_one] at h
  exact_mod_cast h

theorem sweep_eq {values ranges : Vec K} (hl : values.len = ranges.len) (hn : values.len < 2 ^ 31) (hr : ∀ i < values.len, 0 < ranges.val i)
    {es : List (K × ℤ)} (hp : es.Perm (base values.val ranges.val values.len)) (hs : es.Pairwise fun a b => a.1 ≤ b.1)
    (suf pre : List (K × ℤ)) (he : es = pre ++ suf) :
    sweep values ranges (weights ranges) suf (accOf values ranges pre) = .ok (outs values.val ranges.val values.len pre suf) := by
  induction suf generalizing pre with
  | nil => rfl
  | cons e l ih =>
    have he' : es = (pre ++ [e]) ++ l := by rw [he]; simp
    have ih := ih (pre ++ [e]) he'
    -- the endpoint
    obtain ⟨hix, habs, hsg⟩ : ix e < values.len ∧ |e.2| = (ix e : ℤ) + 1 ∧ sg e = if e.2 > 0 then 1 else -1 := by
      obtain ⟨i, hi, h⟩ := mem_base.1 (hp.mem_iff.1 (by rw [he]; simp : e ∈ es))
      rcases h with rfl | rfl
      · refine ⟨by rw [(ix_bp _ _ i).1]; exact hi, ?_, rfl⟩
        rw [(ix_bp _ _ i).1]
        show |(i : ℤ) + 1| = _
        rw [abs_of_nonneg (by omega)]
      · refine ⟨by rw [(ix_ep _ _ i).1]; exact hi, ?_, rfl⟩
        rw [(ix_ep _ _ i).1]
        show |-(i : ℤ) - 1| = _
        rw [abs_of_nonpos (by omega)]
        omega
    have hcard : ((pre ++ [e]).map sg).sum = (active values.val ranges.val values.len (pre ++ [e])).card := card_active hr hp hs he'
    have hcard' : (active values.val ranges.val values.len (pre ++ [e])).card ≤ values.len :=
      le_trans (card_filter_le _ _) (le_of_eq (card_range _))
    have hsum : ((pre ++ [e]).map sg).sum = (pre.map sg).sum + sg e := by simp
    have hstep : step values ranges (weights ranges) (accOf values ranges pre) e =
        .ok (accOf values ranges (pre ++ [e]), out values.val ranges.val values.len (pre ++ [e])) := by
      unfold step
      rw [habs, int_ok (by omega) (by omega), bind_ok, add_sub_cancel_right, int_ok (by omega) (by omega), bind_ok]
      dsimp only
      rw [← hsg, show (accOf values ranges pre).consensusSetCardinal + sg e = ((pre ++ [e]).map sg).sum from hsum.symm, hcard,
        int_ok (by omega) (by omega), bind_ok, Vec.get_nat _ (show ix e < (weights ranges).len by show _ < ranges.len; omega), bind_ok,
        Vec.get_nat _ hix, bind_ok, Vec.get_nat _ (show ix e < ranges.len by omega), bind_ok, weights_eq]
      have a1 : (accOf values ranges pre).consensusWeighted + (sg e : K) * weight ranges.val (ix e) =
          ∑ i ∈ active values.val ranges.val values.len (pre ++ [e]), weight ranges.val i := by
        rw [← ssum_active hr hp hs he', ssum_snoc]; rfl
      have a2 : (accOf values ranges pre).valueWeighted + (sg e : K) * weight ranges.val (ix e) * values.val (ix e) =
          ∑ i ∈ active values.val ranges.val values.len (pre ++ [e]), weight ranges.val i * values.val i := by
        rw [← ssum_active hr hp hs he' (fun i => weight ranges.val i * values.val i), ssum_snoc, mul_assoc]; rfl
      have a3 : (accOf values ranges pre).rangesInverseSum - (sg e : K) * ranges.val (ix e) =
          ∑ i ∈ range values.len, ranges.val i - ∑ i ∈ active values.val ranges.val values.len (pre ++ [e]), ranges.val i := by
        rw [← ssum_active hr hp hs he', ssum_snoc]
        show _ - _ - _ = _
        ring
      have a4 : (accOf values ranges pre).sumXi + (sg e : K) * values.val (ix e) = ∑ i ∈ active values.val ranges.val values.len (pre ++ [e]), values.val i := by
        rw [← ssum_active hr hp hs he', ssum_snoc]; rfl
      have a5 : (accOf values ranges pre).sumXiSquare + (sg e : K) * values.val (ix e) * values.val (ix e) =
          ∑ i ∈ active values.val ranges.val values.len (pre ++ [e]), values.val i * values.val i := by
        rw [← ssum_active hr hp hs he' (fun i => values.val i * values.val i), ssum_snoc, mul_assoc]; rfl
      rw [a1, a2, a3, a4, a5]
      have hacc : accOf values ranges (pre ++ [e]) = ⟨∑ i ∈ active values.val ranges.val values.len (pre ++ [e]), weight ranges.val i,
          (active values.val ranges.val values.len (pre ++ [e])).card, ∑ i ∈ active values.val ranges.val values.len (pre ++ [e]), values.val i,
          ∑ i ∈ active values.val ranges.val values.len (pre ++ [e]), values.val i * values.val i,
          ∑ i ∈ active values.val ranges.val values.len (pre ++ [e]), weight ranges.val i * values.val i,
          ∑ i ∈ range values.len, ranges.val i - ∑ i ∈ active values.val ranges.val values.len (pre ++ [e]), ranges.val i⟩ := by
        unfold accOf
        rw [hcard, ssum_active hr hp hs he', ssum_active hr hp hs he', ssum_active hr hp hs he', ssum_active hr hp hs he', ssum_active hr hp hs he']
      rw [hacc]
      unfold out
      by_cases hz : active values.val ranges.val values.len (pre ++ [e]) = ∅
      · rw [if_pos hz, hz, sum_empty, if_pos rfl]
        rfl
      · have hpos : 0 < ∑ i ∈ active values.val ranges.val values.len (pre ++ [e]), weight ranges.val i :=
          sum_pos (fun i hi => weight_pos (hr i (mem_range.1 (mem_filter.1 hi).1))) (nonempty_iff_ne_empty.2 hz)
        rw [if_neg hz, if_neg hpos.ne']
        have hc := cost_eq (v := values.val) (r := ranges.val) (n := values.len) (S := active values.val ranges.val values.len (pre ++ [e]))
          (filter_subset _ _) (wmean values.val ranges.val (active values.val ranges.val values.len (pre ++ [e])))
        rw [← hc]
        have e2 : (((active values.val ranges.val values.len (pre ++ [e])).card : ℤ) : K) = ((active values.val ranges.val values.len (pre ++ [e])).card : K) :=
          Int.cast_natCast _
        rw [e2]
        rfl
    unfold sweep outs
    rw [hstep, bind_ok]
    dsimp only
    rw [ih]
    rfl

theorem minLoop_spec (l : List (Option K × Option K)) (p : Option K × Option K) {c : K} (hp : p.2 = some c) :
    ∃ q c', minLoop p l = q ∧ (q = p ∨ q ∈ l) ∧ q.2 = some c' ∧ c' ≤ c ∧ ∀ s ∈ l, ∀ d, s.2 = some d → c' ≤ d := by
  induction l generalizing p c with
  | nil => exact ⟨p, c, rfl, Or.inl rfl, hp, le_refl _, fun s hs => absurd hs List.not_mem_nil⟩
  | cons x l ih =>
    unfold minLoop
    by_cases h : ltN x.2 p.2 = true
    · rw [if_pos h]
      obtain ⟨d, hd⟩ : ∃ d, x.2 = some d := by
        cases hx : x.2 with
        | none => rw [hx] at h; simp [ltN] at h
        | some d => exact ⟨d, rfl⟩
      have hlt : d < c := by rw [hd, hp] at h; simpa [ltN] using h
      obtain ⟨q, c', h1, h2, h3, h4, h5⟩ := ih x hd
      refine ⟨q, c', h1, Or.inr ?_, h3, le_trans h4 hlt.le, fun s hs e he => ?_⟩
      · rcases h2 with h2 | h2
        · rw [h2]; exact List.mem_cons_self
        · exact List.mem_cons_of_mem _ h2
      · rcases List.mem_cons.1 hs with hs | hs
        · rw [hs, hd] at he
          cases he
          exact h4
        · exact h5 s hs e he
    · rw [if_neg h]
      obtain ⟨q, c', h1, h2, h3, h4, h5⟩ := ih p hp
      refine ⟨q, c', h1, ?_, h3, h4, fun s hs e he => ?_⟩
      · rcases h2 with h2 | h2
        · exact Or.inl h2
        · exact Or.inr (List.mem_cons_of_mem _ h2)
      · rcases List.mem_cons.1 hs with hs | hs
        · rw [hs] at he
          rw [he, hp] at h
          have : ¬ e < c := by simpa [ltN] using h
          exact le_trans h4 (not_lt.1 this)
        · exact h5 s hs e he

end Verif.Tls
