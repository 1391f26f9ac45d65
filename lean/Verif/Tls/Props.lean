import Verif.Tls.Lemmas
import Mathlib.Data.List.Sort

/-! Property theorem C56 (see properties.jsonl). -/
namespace Verif.Tls
open Verif Spec Finset

variable {K : Type} [Field K] [LinearOrder K] [IsStrictOrderedRing K]

theorem init_eq {values ranges : Vec K} (hl : values.len = ranges.len) : Acc.init ranges = accOf values ranges [] := by
  have h : ∀ (m : ℕ) (f : ℕ → K), (List.range m).foldl (fun s i => s + f i) 0 = ∑ i ∈ range m, f i := by
    intro m f
    induction m with
    | zero => rfl
    | succ m ih => rw [List.range_succ, List.foldl_append, ih, sum_range_succ]; rfl
  unfold Acc.init accOf ssum
  rw [h, hl]
  simp

/-- C56: the estimate is the weighted mean of the measures of a set S; a point x is in the closed interval of every measure of S, and
every measure with x in its open interval is in S; the cost of the estimate is minimal among the candidates given by any point; the flags tell
the measures closer than their range. -/
theorem C56_tls (srt : List (K × ℤ) → List (K × ℤ)) (hsrt : IsSort srt) (values ranges : Vec K) (hl : values.len = ranges.len) (h0 : 0 < values.len)
    (hn : values.len < 2 ^ 31) (hr : ∀ i < values.len, 0 < ranges.val i) :
    ∃ (S : Finset ℕ) (x : K) (flags : Vec Bool), S ⊆ range values.len ∧ S.Nonempty ∧
      (∀ i ∈ S, |values.val i - x| ≤ ranges.val i) ∧ (∀ i < values.len, |values.val i - x| < ranges.val i → i ∈ S) ∧
      estimate srt values ranges = .ok (some (wmean values.val ranges.val S), flags) ∧
      (∀ y, (overlap values.len values.val ranges.val y).Nonempty →
        cost values.len values.val ranges.val S (wmean values.val ranges.val S) ≤
          cost values.len values.val ranges.val (overlap values.len values.val ranges.val y)
            (wmean values.val ranges.val (overlap values.len values.val ranges.val y))) ∧
      flags.len = values.len ∧ ∀ i < values.len, flags.val i = decide (|values.val i - wmean values.val ranges.val S| < ranges.val i) := by
  obtain ⟨hp, hs⟩ := hsrt (endpoints values ranges)
  have hsw : sweep values ranges (weights ranges) (srt (endpoints values ranges)) (Acc.init ranges) =
      .ok (outs values.val ranges.val values.len [] (srt (endpoints values ranges))) := by
    rw [init_eq hl]
    exact sweep_eq hl hn hr (by rw [endpoints_eq hn] at hp ⊢; exact hp) hs _ _ rfl
  have hp : (srt (endpoints values ranges)).Perm (base values.val ranges.val values.len) := by rw [endpoints_eq hn] at hp ⊢; exact hp
  -- the first endpoint begins a measure
  obtain ⟨e, l, hel⟩ : ∃ e l, srt (endpoints values ranges) = e :: l := by
    cases h : srt (endpoints values ranges) with
    | nil =>
      have := hp.mem_iff.2 (mem_base.2 ⟨0, h0, Or.inl rfl⟩)
      rw [h] at this
      cases this
    | cons e l => exact ⟨e, l, rfl⟩
  have hact : active values.val ranges.val values.len [e] ≠ ∅ := by
    obtain ⟨i, hi, h⟩ := mem_base.1 (hp.mem_iff.1 (by rw [hel]; exact List.mem_cons_self : e ∈ srt (endpoints values ranges)))
    rcases h with rfl | rfl
    · rw [← nonempty_iff_ne_empty]
      exact ⟨i, mem_filter.2 ⟨mem_range.2 hi, by simp, by simpa using (bp_ne_ep _ _ _ _).symm⟩⟩
    · exfalso
      have hb := hp.mem_iff.2 (mem_base.2 ⟨i, hi, Or.inl rfl⟩)
      rw [hel] at hb hs
      rcases List.mem_cons.1 hb with hb | hb
      · exact bp_ne_ep _ _ _ _ hb
      · have h1 := (List.pairwise_cons.1 hs).1 _ hb
        have h2 := hr i hi
        simp only [bp, ep] at h1
        linarith
  have hfirst : (out values.val ranges.val values.len ([] ++ [e])).2 = some (cost values.len values.val ranges.val
      (active values.val ranges.val values.len [e]) (wmean values.val ranges.val (active values.val ranges.val values.len [e]))) := by
    unfold out
    rw [List.nil_append, if_neg hact]
  obtain ⟨q, c, hq, hmem, hqc, hle, hmin⟩ := minLoop_spec (outs values.val ranges.val values.len ([] ++ [e]) l) _ hfirst
  have hmem' : q ∈ outs values.val ranges.val values.len [] (e :: l) := by
    unfold outs
    rcases hmem with h | h
    · rw [h]; exact List.mem_cons_self
    · exact List.mem_cons_of_mem _ h
  have hmin' : ∀ s ∈ outs values.val ranges.val values.len [] (e :: l), ∀ d, s.2 = some d → c ≤ d := by
    intro s hs d hd
    unfold outs at hs
    rcases List.mem_cons.1 hs with h | h
    · rw [h, hfirst] at hd
      cases hd
      exact hle
    · exact hmin s h d hd
  rw [← hel] at hmem' hmin'
  obtain ⟨a, z, b, hab, hqo⟩ := mem_outs.1 hmem'
  rw [List.nil_append] at hqo
  have hne : active values.val ranges.val values.len (a ++ [z]) ≠ ∅ := by
    intro h
    rw [hqo] at hqc
    unfold out at hqc
    rw [if_pos h] at hqc
    cases hqc
  have hq1 : q = (some (wmean values.val ranges.val (active values.val ranges.val values.len (a ++ [z]))),
      some (cost values.len values.val ranges.val (active values.val ranges.val values.len (a ++ [z]))
        (wmean values.val ranges.val (active values.val ranges.val values.len (a ++ [z]))))) := by
    rw [hqo]
    unfold out
    rw [if_neg hne]
  have hc : c = cost values.len values.val ranges.val (active values.val ranges.val values.len (a ++ [z]))
        (wmean values.val ranges.val (active values.val ranges.val values.len (a ++ [z]))) := by
    rw [hq1] at hqc
    exact (Option.some.inj hqc).symm
  have hz1 : ∀ w ∈ a ++ [z], w.1 ≤ z.1 := by
    intro w hw
    rcases List.mem_append.1 hw with hw | hw
    · rw [hab] at hs
      exact (List.pairwise_append.1 hs).2.2 w hw z List.mem_cons_self
    · rw [List.mem_singleton.1 hw]
  have hz2 : ∀ w ∈ srt (endpoints values ranges), w ∉ a ++ [z] → z.1 ≤ w.1 := by
    intro w hw hw'
    rw [hab] at hw hs
    have : w ∈ b := by
      rcases List.mem_append.1 hw with h | h
      · exact absurd (List.mem_append_left _ h) hw'
      · rcases List.mem_cons.1 h with h | h
        · exact absurd (by rw [h]; simp) hw'
        · exact h
    exact (List.pairwise_cons.1 (List.pairwise_append.1 hs).2.1).1 w this
  refine ⟨active values.val ranges.val values.len (a ++ [z]), z.1, ⟨values.len, fun i => decide (absK (values.val i -
    wmean values.val ranges.val (active values.val ranges.val values.len (a ++ [z]))) < ranges.val i)⟩, filter_subset _ _, nonempty_iff_ne_empty.2 hne, ?_, ?_, ?_, ?_, rfl, ?_⟩
  · intro i hi
    obtain ⟨h1, h2, h3⟩ := mem_filter.1 hi
    have h4 := hz1 _ h2
    have h5 := hz2 _ (hp.mem_iff.2 (mem_base.2 ⟨i, mem_range.1 h1, Or.inr rfl⟩)) h3
    simp only [bp, ep] at h4 h5
    rw [abs_le]
    constructor <;> linarith
  · intro i hi hx
    obtain ⟨h1, h2⟩ := abs_lt.1 hx
    refine mem_filter.2 ⟨mem_range.2 hi, ?_, ?_⟩
    · by_contra h
      have := hz2 _ (hp.mem_iff.2 (mem_base.2 ⟨i, hi, Or.inl rfl⟩)) h
      simp only [bp] at this
      linarith
    · intro h
      have := hz1 _ h
      simp only [ep] at this
      linarith
  · unfold estimate
    rw [show Cxx.assert (values.len = ranges.len) = .ok () from if_pos hl, bind_ok, hsw, bind_ok, hel]
    unfold outs
    dsimp only
    rw [hq, hq1]
    rfl
  · intro y hy
    rw [← hc]
    -- the prefix of the endpoints up to y
    have hsplit := List.takeWhile_append_dropWhile (p := fun w : K × ℤ => decide (w.1 ≤ y)) (l := srt (endpoints values ranges))
    have hpre : ∀ w ∈ srt (endpoints values ranges), w ∈ (srt (endpoints values ranges)).takeWhile (fun w => decide (w.1 ≤ y)) ↔ w.1 ≤ y := by
      intro w hw
      refine ⟨fun h => by simpa using List.mem_takeWhile_imp h, fun h => ?_⟩
      by_contra hnot
      have hd : w ∈ (srt (endpoints values ranges)).dropWhile (fun w => decide (w.1 ≤ y)) := by
        rw [← hsplit] at hw
        exact (List.mem_append.1 hw).resolve_left hnot
      cases hdw : (srt (endpoints values ranges)).dropWhile (fun w => decide (w.1 ≤ y)) with
      | nil => rw [hdw] at hd; cases hd
      | cons u t =>
        have hu : ¬ u.1 ≤ y := by
          have := List.head_dropWhile_not (fun w : K × ℤ => decide (w.1 ≤ y)) (l := srt (endpoints values ranges)) (by rw [hdw]; simp)
          simp only [hdw, List.head_cons, decide_eq_false_iff_not] at this
          exact this
        have huw : u.1 ≤ w.1 := by
          rw [hdw] at hd
          rcases List.mem_cons.1 hd with hd | hd
          · rw [hd]
          · have hs' := hs
            rw [← hsplit, hdw] at hs'
            exact (List.pairwise_cons.1 (List.pairwise_append.1 hs').2.1).1 w hd
        exact hu (le_trans huw h)
    generalize hP : (srt (endpoints values ranges)).takeWhile (fun w => decide (w.1 ≤ y)) = P at hsplit hpre
    have hov : active values.val ranges.val values.len P = overlap values.len values.val ranges.val y := by
      unfold active overlap
      refine filter_congr fun i hi => ?_
      have hi := mem_range.1 hi
      rw [hpre _ (hp.mem_iff.2 (mem_base.2 ⟨i, hi, Or.inl rfl⟩)), hpre _ (hp.mem_iff.2 (mem_base.2 ⟨i, hi, Or.inr rfl⟩)), not_le]
      rfl
    have hPne : P ≠ [] := by
      rintro rfl
      rw [← hov] at hy
      obtain ⟨i, hi⟩ := hy
      have := (mem_filter.1 hi).2.1
      cases this
    obtain ⟨a', z', rfl⟩ : ∃ a' z', P = a' ++ [z'] := ⟨P.dropLast, P.getLast hPne, (List.dropLast_append_getLast hPne).symm⟩
    refine hmin' (out values.val ranges.val values.len (a' ++ [z'])) (mem_outs.2 ⟨a', z', _, by rw [← hsplit]; simp; rfl, by simp⟩) _ ?_
    unfold out
    rw [hov, if_neg (nonempty_iff_ne_empty.1 hy)]
  · intro i hi
    dsimp only
    rw [absK_abs]

/-- The empty input: the minimum of an empty vector is dereferenced. -/
theorem C56_empty (srt : List (K × ℤ) → List (K × ℤ)) (hsrt : IsSort srt) (values ranges : Vec K) (hl : values.len = ranges.len) (h0 : values.len = 0) :
    estimate srt values ranges = .error (.ub .outOfBounds) := by
  have h : srt (endpoints values ranges) = [] := by
    have := (hsrt (endpoints values ranges)).1
    have e : endpoints values ranges = [] := by unfold endpoints; rw [h0]; rfl
    rw [e] at this ⊢
    exact this.eq_nil
  unfold estimate
  rw [show Cxx.assert (values.len = ranges.len) = .ok () from if_pos hl, bind_ok, h]
  rfl

/-- Different lengths abort. -/
theorem C56_lengths (srt : List (K × ℤ) → List (K × ℤ)) (values ranges : Vec K) (hl : values.len ≠ ranges.len) :
    estimate srt values ranges = .error .abort := by
  unfold estimate
  rw [show Cxx.assert (values.len = ranges.len) = .error .abort from if_neg hl]
  rfl

/-- A sort for the examples. -/
def isort (l : List (ℚ × ℤ)) : List (ℚ × ℤ) := l.insertionSort fun a b => a.1 ≤ b.1

theorem isort_isSort : IsSort isort := fun l => by
  refine ⟨List.perm_insertionSort _ l, ?_⟩
  haveI : Std.Total (fun a b : ℚ × ℤ => a.1 ≤ b.1) := ⟨fun a b => le_total a.1 b.1⟩
  haveI : IsTrans (ℚ × ℤ) (fun a b => a.1 ≤ b.1) := ⟨fun a b c h h' => le_trans h h'⟩
  exact List.pairwise_insertionSort _ l

/-- Test vectors. -/
def qv (l : List ℚ) : Vec ℚ := ⟨l.length, fun i => l.getD i 0⟩

-- 1, 2 and 10 with ranges 3/2: the mean of the first two
example : ((estimate isort (qv [1, 2, 10]) (qv [3 / 2, 3 / 2, 3 / 2])).map fun r => (r.1, r.2.toList)) = .ok (some (3 / 2), [true, true, false]) := by
  decide +kernel

/-- The documentation promises the value with maximum consensus. It is false: for 0 and 15 with ranges 10 the function returns 0, with one
inlier, although 15/2 has two. -/
theorem C56_consensus_violated : (estimate isort (qv [0, 15]) (qv [10, 10])).map (fun r => (r.1, r.2.toList)) = .ok (some 0, [true, false]) ∧
    consensus 2 (qv [0, 15]).val (qv [10, 10]).val 0 = 1 ∧ consensus 2 (qv [0, 15]).val (qv [10, 10]).val (15 / 2) = 2 := by
  refine ⟨by decide +kernel, by decide +kernel, by decide +kernel⟩

end Verif.Tls
