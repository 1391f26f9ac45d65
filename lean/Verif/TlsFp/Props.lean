import Verif.TlsFp.Main
import Mathlib.Data.List.Sort

/-! Property theorems C107 (see properties.jsonl). -/
namespace Verif.TlsFp
open Verif Ieee Fp Float.Model Finset Tls

variable {spec : Format} [Fmt spec]

/-- C107: the estimate of finite measures with positive ranges is between the first and the last point of their intervals, whatever order is given to equal endpoints. -/
def C107_statement (spec : Format) [Fmt spec] : Prop :=
  ∀ (values ranges : Vec (Fp spec)) (srt : List (Fp spec × ℤ) → List (Fp spec × ℤ)), Sorts srt (endpoints values ranges) →
    values.len = ranges.len → 0 < values.len → values.len < 2 ^ 31 → (∀ i < values.len, (values.val i).Fin) → (∀ i < values.len, (ranges.val i).Fin ∧ 0 < V ranges i) →
    ∃ m flags, estimate srt values ranges = .ok (m, flags) ∧ m.Fin ∧ InHull values ranges m.val

/-- C107, for problems whose sizes fit the precision. Up to errors given by the sizes, the estimate is the weighted mean of the measures of a set S; a point is in the interval of every measure of
S, and every measure with it inside its interval is in S; the cost of the estimate is minimal among the candidates given by the points away from the endpoints; the flags tell the measures closer
than their range. -/
theorem C107_tls_partial {values ranges : Vec (Fp spec)} {p q a b z : ℤ} (hl : Lim spec) (h64 : Sub64 spec) (hz : Sizes spec p q a b z) (hd : Dom values ranges p q a b)
    {srt : List (Fp spec × ℤ) → List (Fp spec × ℤ)} (hsrt : Sorts srt (endpoints values ranges)) :
    ∃ (S : Finset ℕ) (x : ℝ) (m : Fp spec) (flags : Vec Bool), S ⊆ range values.len ∧ S.Nonempty ∧
      (∀ i ∈ S, |V values i - x| ≤ V ranges i + 2 ^ (z - spec.mantissaBits)) ∧
      (∀ i < values.len, |V values i - x| < V ranges i - 2 ^ (z - spec.mantissaBits) → i ∈ S) ∧
      estimate srt values ranges = .ok (m, flags) ∧ m.Fin ∧
      |m.val - Spec.wmean (V values) (V ranges) S| ≤ 2 ^ (p + 2 * q + 2 * (b - a) + 7 - spec.mantissaBits) ∧
      (∀ y, (∀ i < values.len, 2 ^ (z - spec.mantissaBits) < |V values i - V ranges i - y| ∧ 2 ^ (z - spec.mantissaBits) < |V values i + V ranges i - y|) →
        (Spec.overlap values.len (V values) (V ranges) y).Nonempty →
        Spec.cost values.len (V values) (V ranges) S (Spec.wmean (V values) (V ranges) S) ≤
          Spec.cost values.len (V values) (V ranges) (Spec.overlap values.len (V values) (V ranges) y)
            (Spec.wmean (V values) (V ranges) (Spec.overlap values.len (V values) (V ranges) y)) + 2 ^ (3 * q + z + 2 * (b - a) + 14 - spec.mantissaBits)) ∧
      InHull values ranges m.val ∧ flags.len = values.len ∧
      ∀ i < values.len, (flags.val i = true → |V values i - m.val| < V ranges i) ∧
        (|V values i - m.val| * (1 + 1 / 2 ^ (spec.mantissaBits : ℤ)) < V ranges i → flags.val i = true) := by
  obtain ⟨pre, suf, m, S, he, hpn, hS, hne, hest, hm, hmin⟩ := chosen hl h64 hz hd hsrt
  have hs := sorted_of hl hz hd hsrt
  have hss := hs.s
  have hsub : S ⊆ range values.len := by rw [hS]; exact filter_subset _ _
  obtain ⟨pr, c, hpr⟩ : ∃ pr c, pre = pr ++ [c] := ⟨pre.dropLast, pre.getLast hpn, (List.dropLast_append_getLast hpn).symm⟩
  have hL : (srt (endpoints values ranges)).map toR = pr.map toR ++ toR c :: suf.map toR := by rw [he, hpr]; simp
  have hpre : pre.map toR = pr.map toR ++ [toR c] := by rw [hpr]; simp
  rw [hpre] at hS
  have hp := hs.p
  rw [hL] at hp hss
  have hz1 : ∀ w ∈ pr.map toR ++ [toR c], w.1 ≤ (toR c).1 := by
    intro w hw
    rcases List.mem_append.1 hw with hw | hw
    · exact (List.pairwise_append.1 hss).2.2 w hw _ List.mem_cons_self
    · rw [List.mem_singleton.1 hw]
  have hz2 : ∀ w ∈ pr.map toR ++ toR c :: suf.map toR, w ∉ pr.map toR ++ [toR c] → (toR c).1 ≤ w.1 := by
    intro w hw hw'
    have : w ∈ suf.map toR := by
      rcases List.mem_append.1 hw with h | h
      · exact absurd (List.mem_append_left _ h) hw'
      · rcases List.mem_cons.1 h with h | h
        · exact absurd (by rw [h]; simp) hw'
        · exact h
    exact (List.pairwise_cons.1 (List.pairwise_append.1 hss).2.1).1 w this
  have hb : ∀ i < values.len, |(bp (mid values ranges) (hlf values ranges) i).1 - (V values i - V ranges i)| ≤ 2 ^ (z - spec.mantissaBits) := fun i hi => by
    rw [bp_mid]; exact (begin_near hl hz hd hi).2
  have hn : ∀ i < values.len, |(ep (mid values ranges) (hlf values ranges) i).1 - (V values i + V ranges i)| ≤ 2 ^ (z - spec.mantissaBits) := fun i hi => by
    rw [ep_mid]; exact (end_near hl hz hd hi).2
  have hmv := hm.2
  rw [show p + (2 * q + 2 * (b - a) + 7 - (spec.mantissaBits : ℤ)) = p + 2 * q + 2 * (b - a) + 7 - spec.mantissaBits by ring] at hmv
  have hmean : (∃ i ∈ S, V values i ≤ Spec.wmean (V values) (V ranges) S) ∧ ∃ i ∈ S, Spec.wmean (V values) (V ranges) S ≤ V values i := by
    have hp0 : ∀ i ∈ S, 0 < Spec.weight (V ranges) i := fun i hi => weight_pos (lt_of_lt_of_le (two_pow_pos a) (hd.ra i (mem_range.1 (hsub hi))))
    have h0 := sum_pos hp0 hne
    constructor
    · by_contra hc
      push Not at hc
      have := sum_lt_sum_of_nonempty hne fun i hi => mul_lt_mul_of_pos_left (hc i hi) (hp0 i hi)
      rw [← sum_mul] at this
      unfold Spec.wmean at this
      rw [mul_div_cancel₀ _ h0.ne'] at this
      exact lt_irrefl _ this
    · by_contra hc
      push Not at hc
      have := sum_lt_sum_of_nonempty hne fun i hi => mul_lt_mul_of_pos_left (hc i hi) (hp0 i hi)
      rw [← sum_mul] at this
      unfold Spec.wmean at this
      rw [mul_div_cancel₀ _ h0.ne'] at this
      exact lt_irrefl _ this
  have hea : (2 : ℝ) ^ (p + 2 * q + 2 * (b - a) + 7 - spec.mantissaBits) ≤ 2 ^ a := two_pow_le (by have := hz.cond; have := hz.q0; have := hz.pz; omega)
  refine ⟨S, (toR c).1, m, _, hsub, hne, ?_, ?_, hest, hm.1, hmv, ?_, ⟨?_, ?_⟩, rfl, ?_⟩
  · intro i hi
    have hin := mem_range.1 (hsub hi)
    rw [hS] at hi
    obtain ⟨-, h2, h3⟩ := mem_filter.1 hi
    have h4 := hz1 _ h2
    have h5 := hz2 _ (hp.mem_iff.2 (mem_base.2 ⟨i, hin, Or.inr rfl⟩)) h3
    have h6 := abs_le.1 (hb i hin)
    have h7 := abs_le.1 (hn i hin)
    rw [_root_.abs_le]
    constructor <;> linarith
  · intro i hi hx
    obtain ⟨h1, h2⟩ := abs_lt.1 hx
    have h6 := abs_le.1 (hb i hi)
    have h7 := abs_le.1 (hn i hi)
    rw [hS]
    refine mem_filter.2 ⟨mem_range.2 hi, ?_, ?_⟩
    · by_contra h
      have := hz2 _ (hp.mem_iff.2 (mem_base.2 ⟨i, hi, Or.inl rfl⟩)) h
      linarith
    · intro h
      have := hz1 _ h
      linarith
  · intro y hy hov
    -- the prefix of the endpoints up to y
    obtain ⟨L, hLe⟩ : ∃ L, L = srt (endpoints values ranges) := ⟨_, rfl⟩
    have hs' := hs
    rw [← hLe] at hs' hmin
    have hsplit := List.takeWhile_append_dropWhile (p := fun w : Fp spec × ℤ => decide ((toR w).1 ≤ y)) (l := L)
    have hmemP : ∀ w ∈ L.map toR, w ∈ (L.takeWhile (fun w => decide ((toR w).1 ≤ y))).map toR ↔ w.1 ≤ y := by
      intro w hw
      refine ⟨fun h => ?_, fun h => ?_⟩
      · obtain ⟨e, h1, rfl⟩ := List.mem_map.1 h
        simpa using List.mem_takeWhile_imp h1
      · by_contra hnot
        have hdr : w ∈ (L.dropWhile (fun w => decide ((toR w).1 ≤ y))).map toR := by
          rw [← hsplit, List.map_append] at hw
          exact (List.mem_append.1 hw).resolve_left hnot
        cases hdw : L.dropWhile (fun w => decide ((toR w).1 ≤ y)) with
        | nil => rw [hdw] at hdr; cases hdr
        | cons u t =>
          have hu : ¬ (toR u).1 ≤ y := by
            have := List.head_dropWhile_not (fun w : Fp spec × ℤ => decide ((toR w).1 ≤ y)) (l := L) (by rw [hdw]; simp)
            simp only [hdw, List.head_cons, decide_eq_false_iff_not] at this
            exact this
          have huw : (toR u).1 ≤ w.1 := by
            rw [hdw, List.map_cons] at hdr
            rcases List.mem_cons.1 hdr with hdr | hdr
            · rw [hdr]
            · have h3 := hs'.s
              rw [← hsplit, hdw, List.map_append, List.map_cons] at h3
              exact (List.pairwise_cons.1 (List.pairwise_append.1 h3).2.1).1 w hdr
          exact hu (le_trans huw h)
    generalize hP : L.takeWhile (fun w => decide ((toR w).1 ≤ y)) = P at hsplit hmemP
    have hact : Spec.overlap values.len (V values) (V ranges) y = active (mid values ranges) (hlf values ranges) values.len (P.map toR) := by
      unfold active Spec.overlap
      refine filter_congr fun i hi => ?_
      have hi := mem_range.1 hi
      rw [hmemP _ (hs'.p.mem_iff.2 (mem_base.2 ⟨i, hi, Or.inl rfl⟩)), hmemP _ (hs'.p.mem_iff.2 (mem_base.2 ⟨i, hi, Or.inr rfl⟩)), not_le]
      have h6 := abs_le.1 (hb i hi)
      have h7 := abs_le.1 (hn i hi)
      obtain ⟨h8, h9⟩ := hy i hi
      rw [lt_abs] at h8 h9
      refine and_congr ⟨fun h => ?_, fun h => ?_⟩ ⟨fun h => ?_, fun h => ?_⟩
      · rcases h8 with h8 | h8 <;> linarith
      · rcases h8 with h8 | h8 <;> linarith
      · rcases h9 with h9 | h9 <;> linarith
      · rcases h9 with h9 | h9 <;> linarith
    have hPne : P ≠ [] := by
      rintro rfl
      rw [hact] at hov
      obtain ⟨i, hi⟩ := hov
      have := (mem_filter.1 hi).2.1
      cases this
    have := hmin P _ _ hsplit.symm hPne hact hov
    rwa [show q + z + (2 * q + 2 * (b - a) + 14 - (spec.mantissaBits : ℤ)) = 3 * q + z + 2 * (b - a) + 14 - spec.mantissaBits by ring] at this
  · obtain ⟨i, hi, h⟩ := hmean.1
    have hin := mem_range.1 (hsub hi)
    have h1 : (2 : ℝ) ^ a ≤ V ranges i := hd.ra i hin
    have h2 := (abs_le.1 hmv).1
    exact ⟨i, hin, by linarith⟩
  · obtain ⟨i, hi, h⟩ := hmean.2
    have hin := mem_range.1 (hsub hi)
    have h1 : (2 : ℝ) ^ a ≤ V ranges i := hd.ra i hin
    have h2 := (abs_le.1 hmv).2
    exact ⟨i, hin, by linarith⟩
  · intro i hi
    have hmb : |m.val| ≤ 2 ^ (p + 1) + 2 ^ b := by
      obtain ⟨j, hj, h1⟩ := hmean.1
      obtain ⟨k, hk, h2⟩ := hmean.2
      have h3 := abs_le.1 (hd.v j (mem_range.1 (hsub hj)))
      have h4 := abs_le.1 (hd.v k (mem_range.1 (hsub hk)))
      have h5 := abs_le.1 hmv
      have h6 : (2 : ℝ) ^ a ≤ 2 ^ b := two_pow_le hz.ab
      have h7 := pow_double p
      have h8 := two_pow_pos p
      change -2 ^ p ≤ V values j ∧ V values j ≤ 2 ^ p at h3
      change -2 ^ p ≤ V values k ∧ V values k ≤ 2 ^ p at h4
      rw [_root_.abs_le]
      constructor <;> linarith
    have hbd : |(values.val i).val - m.val| ≤ 2 ^ top spec := by
      have h1 := abs_sub (values.val i).val m.val
      have h2 := hd.v i hi
      have h3 : (2 : ℝ) ^ p ≤ 2 ^ (29 : ℤ) := two_pow_le (by have := hz.p1; omega)
      have h4 : (2 : ℝ) ^ (p + 1) ≤ 2 ^ (29 : ℤ) := two_pow_le (by have := hz.p1; omega)
      have h5 : (2 : ℝ) ^ b ≤ 2 ^ (29 : ℤ) := two_pow_le (by have := hz.b0; omega)
      have h6 : (2 : ℝ) ^ (31 : ℤ) ≤ 2 ^ top spec := two_pow_le (by have := hl.hi; omega)
      have h7 : (2 : ℝ) ^ (31 : ℤ) = 4 * 2 ^ (29 : ℤ) := by norm_num
      have h8 := two_pow_pos (29 : ℤ)
      linarith
    have hsi := sub_is (hd.vf i hi) hm.1 hbd
    have hsr := sub_rel (hd.vf i hi) hm.1 hbd
    have hr0 : (0 : ℝ) ≤ (ranges.val i).val := le_trans (two_pow_pos a).le (hd.ra i hi)
    dsimp only
    rw [decide_eq_true_iff, lt_iff (abs_fin.2 hsi.1) (hd.rf i hi), abs_val]
    unfold V
    constructor
    · intro h
      by_contra hc
      rw [not_lt] at hc
      rcases le_abs.1 hc with hc | hc
      · have := hsi.2.mono_ge (ranges.val i).grid hc
        exact absurd ((le_abs_self _).trans_lt h) (not_lt.2 this)
      · have h1 : (values.val i).val - m.val ≤ (-ranges.val i).val := by rw [neg_val]; linarith
        have := hsi.2.mono_le (-ranges.val i).grid h1
        rw [neg_val] at this
        have h2 : -(values.val i - m).val < (ranges.val i).val := (neg_le_abs _).trans_lt h
        change (values.val i - m).val ≤ _ at this
        linarith
    · intro h
      have h1 := hsr.2
      have h2 := abs_sub_abs_le_abs_sub (values.val i - m).val ((values.val i).val - m.val)
      rw [div_eq_mul_one_div] at h1
      linarith

/-- C107 for `double`: at most 16 measures with values up to 2^8 and ranges between 1/4 and 1; the estimate is within 2^-26 of the weighted mean. -/
theorem C107_double {values ranges : Vec Dbl} (hd : Dom values ranges 8 4 (-2) 0) {srt : List (Dbl × ℤ) → List (Dbl × ℤ)} (hsrt : Sorts srt (endpoints values ranges)) :
    ∃ (S : Finset ℕ) (m : Dbl) (flags : Vec Bool), S ⊆ range values.len ∧ S.Nonempty ∧ estimate srt values ranges = .ok (m, flags) ∧ m.Fin ∧
      |m.val - Spec.wmean (V values) (V ranges) S| ≤ 2 ^ (-26 : ℤ) ∧ InHull values ranges m.val := by
  obtain ⟨S, x, m, flags, h1, h2, -, -, h3, h4, h5, -, h6, -⟩ := C107_tls_partial (z := 16) lim_dbl sub_dbl
    ⟨by decide, by decide, by decide, by decide, by decide, by decide, by decide, by decide, by decide, by decide, by decide, by decide⟩ hd hsrt
  exact ⟨S, m, flags, h1, h2, h3, h4, h5, h6⟩

/-- C107 for `float`: one or two measures with values up to 4 and ranges of 1; the estimate is within 2^-13 of the weighted mean. -/
theorem C107_float {values ranges : Vec Flt} (hd : Dom values ranges 2 1 0 0) {srt : List (Flt × ℤ) → List (Flt × ℤ)} (hsrt : Sorts srt (endpoints values ranges)) :
    ∃ (S : Finset ℕ) (m : Flt) (flags : Vec Bool), S ⊆ range values.len ∧ S.Nonempty ∧ estimate srt values ranges = .ok (m, flags) ∧ m.Fin ∧
      |m.val - Spec.wmean (V values) (V ranges) S| ≤ 2 ^ (-13 : ℤ) ∧ InHull values ranges m.val := by
  obtain ⟨S, x, m, flags, h1, h2, -, -, h3, h4, h5, -, h6, -⟩ := C107_tls_partial (z := 4) lim_flt sub_flt
    ⟨by decide, by decide, by decide, by decide, by decide, by decide, by decide, by decide, by decide, by decide, by decide, by decide⟩ hd hsrt
  exact ⟨S, m, flags, h1, h2, h3, h4, h5, h6⟩

/-- Different lengths abort. -/
theorem C107_lengths (srt : List (Fp spec × ℤ) → List (Fp spec × ℤ)) (values ranges : Vec (Fp spec)) (hl : values.len ≠ ranges.len) : estimate srt values ranges = .error .abort := by
  unfold estimate
  rw [show Cxx.assert (values.len = ranges.len) = .error .abort from if_neg hl]
  rfl

/-- The empty input: the minimum of an empty vector is dereferenced. -/
theorem C107_empty (srt : List (Fp spec × ℤ) → List (Fp spec × ℤ)) (values ranges : Vec (Fp spec)) (hsrt : Sorts srt (endpoints values ranges)) (hl : values.len = ranges.len)
    (h0 : values.len = 0) : estimate srt values ranges = .error (.ub .outOfBounds) := by
  have h : srt (endpoints values ranges) = [] := by
    have := hsrt.1
    have e : endpoints values ranges = [] := by unfold endpoints; rw [h0]; rfl
    rw [e] at this ⊢
    exact this.eq_nil
  unfold estimate
  rw [show Cxx.assert (values.len = ranges.len) = .ok () from if_pos hl, Tls.bind_ok, h]
  rfl

/-- A sort for the examples. -/
def isort (l : List (Fp spec × ℤ)) : List (Fp spec × ℤ) := l.insertionSort fun a b => a.1 ≤ b.1

/-- Test vectors. -/
def fv (l : List (Fp spec)) : Vec (Fp spec) := ⟨l.length, fun i => l.getD i 0⟩

instance (srt : List (Fp spec × ℤ) → List (Fp spec × ℤ)) (l : List (Fp spec × ℤ)) : Decidable (Sorts srt l) := inferInstanceAs (Decidable (_ ∧ _))

/-- Whether the estimate is finite and negative, and no measure is an inlier. -/
def bad (r : Outcome (Fp spec × Vec Bool)) : Bool :=
  match r with
  | .ok (m, flags) => decide m.Fin && decide (m < 0) && flags.toList.all (!·)
  | .error _ => false

-- 1.1 and 1.3 with ranges 0.2 and 0.3, in `float`: an estimate between the two, both are inliers
example : ((estimate isort (fv [lit .binary32 11 (-1), lit .binary32 13 (-1)]) (fv [lit .binary32 2 (-1), lit .binary32 3 (-1)])).map fun r =>
    (decide (lit .binary32 11 (-1) < r.1 ∧ r.1 < lit .binary32 13 (-1)), r.2.toList)) = .ok (true, [true, true]) := by
  decide +kernel

/-- Two measures of `double`: 100002.2 and 100002.1, with ranges 10^-7 and 0.2. -/
def dv : Vec Dbl := fv [lit .binary64 1000022 (-1), lit .binary64 1000021 (-1)]
@[inherit_doc dv] def dr : Vec Dbl := fv [lit .binary64 1 (-7), lit .binary64 2 (-1)]
/-- Two measures of `float`: 1002.1 and 1002.3, with ranges 0.02 and 0.3. -/
def sv : Vec Flt := fv [lit .binary32 10021 (-1), lit .binary32 10023 (-1)]
@[inherit_doc sv] def sr : Vec Flt := fv [lit .binary32 2 (-2), lit .binary32 3 (-1)]

/-- A negative estimate of two measures with intervals of positive numbers contradicts the statement. -/
theorem violated_of {values ranges : Vec (Fp spec)} (h1 : Sorts isort (endpoints values ranges)) (h2 : values.len = 2) (h3 : ranges.len = 2)
    (h4 : (values.val 0).Fin ∧ (values.val 1).Fin ∧ (ranges.val 0).Fin ∧ (ranges.val 1).Fin) (h5 : (0 : Fp spec) < ranges.val 0 ∧ (0 : Fp spec) < ranges.val 1)
    (h6 : ranges.val 0 < values.val 0 ∧ ranges.val 1 < values.val 1) (h7 : bad (estimate isort values ranges) = true) : ¬ C107_statement spec := by
  intro h
  have two : ∀ {P : ℕ → Prop}, P 0 → P 1 → ∀ i < values.len, P i := by
    intro P p0 p1 i hi
    rw [h2] at hi
    match i, hi with
    | 0, _ => exact p0
    | 1, _ => exact p1
  have z : (0 : Fp spec).Fin := zero_is.1
  rw [lt_iff z h4.2.2.1, lt_iff z h4.2.2.2, zero_is.2] at h5
  rw [lt_iff h4.2.2.1 h4.1, lt_iff h4.2.2.2 h4.2.1] at h6
  obtain ⟨m, flags, he, hf, ⟨i, hi, hlo⟩, -⟩ := h values ranges isort h1 (h2.trans h3.symm) (by omega) (by omega) (two h4.1 h4.2.1) (two ⟨h4.2.2.1, h5.1⟩ ⟨h4.2.2.2, h5.2⟩)
  rw [he] at h7
  unfold bad at h7
  simp only [Bool.and_eq_true, decide_eq_true_iff] at h7
  have h8 := h7.1.2
  rw [lt_iff hf z, zero_is.2] at h8
  have := two (P := fun i => V ranges i < V values i) h6.1 h6.2 i hi
  linarith

/-- C107 is false in `double`: the candidate of the empty set, left after the last endpoint, is made of rounding errors and has the least cost; the estimate is about -1.3 * 10^15, no measure is an inlier. -/
theorem C107_violated : ¬ C107_statement .binary64 :=
  violated_of (values := dv) (ranges := dr) (by decide +kernel) rfl rfl (by decide +kernel) (by decide +kernel) (by decide +kernel) (by decide +kernel)

/-- C107 is false in `float`, for measures of moderate sizes: the estimate is about -3145. -/
theorem C107_float_violated : ¬ C107_statement .binary32 :=
  violated_of (values := sv) (ranges := sr) (by decide +kernel) rfl rfl (by decide +kernel) (by decide +kernel) (by decide +kernel) (by decide +kernel)

end Verif.TlsFp
