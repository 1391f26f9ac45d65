import Verif.TlsFp.Found

/-! Lemmas for C107: the candidates and the one that is chosen. -/
namespace Verif.TlsFp
open Verif Ieee Fp Float.Model Finset Tls

variable {spec : Format} [Fmt spec] {values ranges : Vec (Fp spec)} {p q a b z : ℤ}

theorem spec_weight (hz : Sizes spec p q a b z) (hd : Dom values ranges p q a b) {i : ℕ} (hi : i < values.len) :
    Spec.weight (V ranges) i = 1 / (V ranges i) ^ 2 := by
  unfold Spec.weight
  refine if_neg (not_lt.2 ?_)
  have h1 : (2 : ℝ) ^ a ≤ V ranges i := hd.ra i hi
  have h2 : (2 : ℝ) ^ (-19 : ℤ) ≤ 2 ^ a := two_pow_le hz.a0
  have h3 : (1 / 1000000 : ℝ) ≤ 2 ^ (-19 : ℤ) := by norm_num
  exact (h3.trans (h2.trans h1)).trans (le_abs_self _)

theorem range_abs (hd : Dom values ranges p q a b) : ∀ i < values.len, |V ranges i| ≤ 2 ^ b := fun i hi => by
  have := hd.ra i hi
  unfold V
  rw [abs_of_nonneg (le_trans (two_pow_pos a).le this)]
  exact hd.rb i hi

/-- The candidate of a non-empty set. -/
theorem cand (hl : Lim spec) (h64 : Sub64 spec) (hz : Sizes spec p q a b z) (hd : Dom values ranges p q a b) {A : Acc spec} {S : Finset ℕ} (hS : S ⊆ range values.len) (hne : S.Nonempty)
    (hA : Near A p q a b S.card (∑ i ∈ S, W ranges i) (∑ i ∈ S, W ranges i * V values i) (∑ i ∈ S, V values i) (∑ i ∈ S, V values i * V values i) (∑ i ∈ range values.len \ S, V ranges i)) :
    Approx A.hat (Spec.wmean (V values) (V ranges) S) (2 ^ (p + (2 * q + 2 * (b - a) + 7 - spec.mantissaBits))) ∧
    Approx A.cost (Spec.cost values.len (V values) (V ranges) S (Spec.wmean (V values) (V ranges) S)) (2 ^ (q + z + (2 * q + 2 * (b - a) + 13 - spec.mantissaBits))) := by
  have hw := wts_of hl h64 hz hd
  have hin : ∀ i ∈ S, i < values.len := fun i hi => mem_range.1 (hS hi)
  have hin' : ∀ i ∈ S, i < ranges.len := fun i hi => by rw [← hd.len]; exact hin i hi
  have w0 : ∀ i ∈ S, 0 < W ranges i := fun i hi => lt_of_lt_of_le (two_pow_pos _) (hw.lo i (hin' i hi))
  have hv : ∀ i ∈ S, |V values i| ≤ 2 ^ p := fun i hi => hd.v i (hin i hi)
  have h1 : (2 : ℝ) ^ (-2 * b) ≤ ∑ i ∈ S, W ranges i := by
    obtain ⟨j, hj⟩ := hne
    exact (hw.lo j (hin' j hj)).trans (single_le_sum (f := fun i => W ranges i) (fun i hi => (w0 i hi).le) hj)
  have h2 : |∑ i ∈ S, W ranges i * V values i| ≤ 2 ^ p * ∑ i ∈ S, W ranges i := by
    rw [mul_sum]
    refine (abs_sum_le_sum_abs _ _).trans (sum_le_sum fun i hi => ?_)
    rw [abs_mul, abs_of_pos (w0 i hi), mul_comm]
    exact mul_le_mul_of_nonneg_right (hv i hi) (w0 i hi).le
  have hc : (S.card : ℝ) ≤ 2 ^ q := le_trans (by exact_mod_cast (card_le_card hS).trans (card_range _).le) hd.num
  have hsw : 0 < ∑ i ∈ S, W ranges i := lt_of_lt_of_le (two_pow_pos _) h1
  have hh := hat_near hl hz hA h1 h2
  have hco := cost_near hl hz hA h1 h2 hc (sum_le hS hd.num hd.v) (sum_le hS hd.num (T := 2 * p) fun i hi => by
    rw [abs_mul, two_mul, two_pow_add]
    exact mul_le_mul (hd.v i hi) (hd.v i hi) (abs_nonneg _) (two_pow_pos _).le) (sum_le sdiff_subset hd.num (range_abs hd))
  have hM := h64.m'
  have hmean : |(∑ i ∈ S, W ranges i * V values i) / ∑ i ∈ S, W ranges i - Spec.wmean (V values) (V ranges) S| ≤ 2 ^ (p + 4 - spec.mantissaBits) := by
    have hu1 : (2 : ℝ) ^ (2 - (spec.mantissaBits : ℤ)) ≤ 1 / 4 := by
      rw [show (1 / 4 : ℝ) = 2 ^ (-2 : ℤ) by norm_num]
      exact two_pow_le (by omega)
    have := mean_near hne (w := Spec.weight (V ranges)) (w' := W ranges) (v := V values) (two_pow_pos _).le hu1 (fun i hi => by
      rw [spec_weight hz hd (hin i hi)]
      have : 0 < V ranges i := lt_of_lt_of_le (two_pow_pos a) (hd.ra i (hin i hi))
      positivity) (fun i hi => by
      rw [spec_weight hz hd (hin i hi)]
      exact (weight_near hl h64 (hd.rf i (hin i hi)) hz.a0 hz.b0 (hd.ra i (hin i hi)) (hd.rb i (hin i hi))).2.2.2) hv
    refine this.trans (le_of_eq ?_)
    rw [show p + 4 - (spec.mantissaBits : ℤ) = 2 + (2 - spec.mantissaBits) + p by ring, two_pow_add, two_pow_add]
    norm_num
  obtain ⟨M, hMe⟩ : ∃ M : ℤ, M = spec.mantissaBits := ⟨_, rfl⟩
  obtain ⟨q0, q1, a0, ab, b0, p0, p1, pz, pz2, bz, z1, -⟩ := hz
  rw [← hMe] at hh hco hmean ⊢
  refine ⟨⟨hh.1, ?_⟩, hco.1, ?_⟩
  · have h3 := abs_le.1 hh.2
    have h4 := abs_le.1 hmean
    have h5 : (2 : ℝ) ^ (p + 4 - M) ≤ 2 ^ (p + (2 * q + 2 * (b - a) + 6 - M)) := two_pow_le (by omega)
    have h6 := pow_double (p + (2 * q + 2 * (b - a) + 6 - M))
    rw [show p + (2 * q + 2 * (b - a) + 6 - M) + 1 = p + (2 * q + 2 * (b - a) + 7 - M) by ring] at h6
    rw [abs_le]
    constructor <;> linarith
  · have hm : |(∑ i ∈ S, W ranges i * V values i) / ∑ i ∈ S, W ranges i| ≤ 2 ^ p := by rw [abs_div, abs_of_pos hsw, div_le_iff₀ hsw]; exact h2
    have hm' : |Spec.wmean (V values) (V ranges) S| ≤ 2 ^ p := by
      have hp0 : ∀ i ∈ S, 0 < Spec.weight (V ranges) i := fun i hi => weight_pos (lt_of_lt_of_le (two_pow_pos a) (hd.ra i (hin i hi)))
      unfold Spec.wmean
      have := sum_pos hp0 hne
      rw [abs_div, abs_of_pos this, div_le_iff₀ this, mul_sum]
      refine (abs_sum_le_sum_abs _ _).trans (sum_le_sum fun i hi => ?_)
      rw [abs_mul, abs_of_pos (hp0 i hi), mul_comm]
      exact mul_le_mul_of_nonneg_right (hv i hi) (hp0 i hi).le
    have hmv := cost_move (n := values.len) (r := V ranges) hc hv hm' hm hmean (two_pow_pos p).le
    have e1 : (S.card : ℝ) * ((∑ i ∈ S, W ranges i * V values i) / ∑ i ∈ S, W ranges i) * ((∑ i ∈ S, W ranges i * V values i) / ∑ i ∈ S, W ranges i) + ∑ i ∈ S, V values i * V values i
        - 2 * (∑ i ∈ S, V values i) * ((∑ i ∈ S, W ranges i * V values i) / ∑ i ∈ S, W ranges i) + ∑ i ∈ range values.len \ S, V ranges i
        = Spec.cost values.len (V values) (V ranges) S ((∑ i ∈ S, W ranges i * V values i) / ∑ i ∈ S, W ranges i) := by
      rw [← cost_eq hS, ← sum_sdiff (f := V ranges) hS, add_sub_cancel_right]
    rw [e1] at hco
    have h3 := abs_le.1 hco.2
    have h4 := abs_le.1 hmv
    have h5 : (2 : ℝ) ^ q * (2 ^ (p + 4 - M) * (4 * 2 ^ p)) = 2 ^ (q + (p + 4 - M + (2 + p))) := by
      rw [two_pow_add q, two_pow_add (p + 4 - M), two_pow_add 2 p]; norm_num
    have h6 : (2 : ℝ) ^ (q + (p + 4 - M + (2 + p))) ≤ 2 ^ (q + z + (2 * q + 2 * (b - a) + 12 - M)) := two_pow_le (by omega)
    have h7 := pow_double (q + z + (2 * q + 2 * (b - a) + 12 - M))
    rw [show q + z + (2 * q + 2 * (b - a) + 12 - M) + 1 = q + z + (2 * q + 2 * (b - a) + 13 - M) by ring] at h7
    rw [abs_le]
    constructor <;> linarith

/-- The candidate of the empty set. -/
theorem cand_empty (hl : Lim spec) (hz : Sizes spec p q a b z) (hd : Dom values ranges p q a b) {A : Acc spec}
    (hm : ∃ n : ℤ, A.consensusWeighted.val = n * 2 ^ (-2 * b - spec.mantissaBits + 1))
    (hA : Near A p q a b (∅ : Finset ℕ).card (∑ i ∈ (∅ : Finset ℕ), W ranges i) (∑ i ∈ (∅ : Finset ℕ), W ranges i * V values i) (∑ i ∈ (∅ : Finset ℕ), V values i)
      (∑ i ∈ (∅ : Finset ℕ), V values i * V values i) (∑ i ∈ range values.len \ ∅, V ranges i)) :
    A.cost.NaN ∨ (A.cost.Fin ∧ ∑ i ∈ range values.len, V ranges i - 2 ^ (a - 6) ≤ A.cost.val) := by
  rw [sdiff_empty] at hA
  simp only [card_empty, sum_empty] at hA
  exact cost_empty hl hz hA hm (sum_le Subset.rfl hd.num (range_abs hd))

/-- The cost of the value of a single measure. -/
theorem cost_single (hd : Dom values ranges p q a b) {i : ℕ} (hi : i < values.len) :
    Spec.cost values.len (V values) (V ranges) {i} (Spec.wmean (V values) (V ranges) {i}) ≤ ∑ j ∈ range values.len, V ranges j - 2 ^ a := by
  have hr : (2 : ℝ) ^ a ≤ V ranges i := hd.ra i hi
  have hw : 0 < Spec.weight (V ranges) i := weight_pos (lt_of_lt_of_le (two_pow_pos a) hr)
  have h1 : Spec.wmean (V values) (V ranges) {i} = V values i := by
    unfold Spec.wmean
    rw [sum_singleton, sum_singleton, mul_div_cancel_left₀ _ hw.ne']
  rw [h1]
  unfold Spec.cost
  have h2 : ({i} : Finset ℕ) ⊆ range values.len := singleton_subset_iff.2 (mem_range.2 hi)
  rw [← sum_sdiff (f := V ranges) h2, sum_singleton, sum_singleton, sub_self]
  norm_num
  linarith

/-- The sizes of the errors of the candidates. -/
theorem kappa_le (hz : Sizes spec p q a b z) : (2 : ℝ) ^ (q + z + (2 * q + 2 * (b - a) + 13 - spec.mantissaBits)) ≤ 2 ^ (a - 2) :=
  two_pow_le (by have := hz.cond; have := hz.q0; omega)

/-- The estimate: the candidate of a prefix of the endpoints, with a cost that is minimal among the candidates of non-empty sets. -/
theorem chosen (hl : Lim spec) (h64 : Sub64 spec) (hz : Sizes spec p q a b z) (hd : Dom values ranges p q a b) {srt : List (Fp spec × ℤ) → List (Fp spec × ℤ)}
    (hsrt : Sorts srt (endpoints values ranges)) :
    ∃ (pre suf : List (Fp spec × ℤ)) (m : Fp spec) (S : Finset ℕ), srt (endpoints values ranges) = pre ++ suf ∧ pre ≠ [] ∧
      S = active (mid values ranges) (hlf values ranges) values.len (pre.map toR) ∧ S.Nonempty ∧
      estimate srt values ranges = .ok (m, ⟨values.len, fun i => decide ((values.val i - m).abs < ranges.val i)⟩) ∧
      Approx m (Spec.wmean (V values) (V ranges) S) (2 ^ (p + (2 * q + 2 * (b - a) + 7 - spec.mantissaBits))) ∧
      ∀ (pre' suf' : List (Fp spec × ℤ)) (S' : Finset ℕ), srt (endpoints values ranges) = pre' ++ suf' → pre' ≠ [] →
        S' = active (mid values ranges) (hlf values ranges) values.len (pre'.map toR) → S'.Nonempty →
        Spec.cost values.len (V values) (V ranges) S (Spec.wmean (V values) (V ranges) S) ≤
          Spec.cost values.len (V values) (V ranges) S' (Spec.wmean (V values) (V ranges) S') + 2 ^ (q + z + (2 * q + 2 * (b - a) + 14 - spec.mantissaBits)) := by
  have hs := sorted_of hl hz hd hsrt
  have hf := hz.fits
  have hw := wts_of hl h64 hz hd
  obtain ⟨outs, ho, hlen, hk⟩ := sweep_near hl hf hd hw hs (srt (endpoints values ranges)) [] rfl _ (inv_init hl hf hd)
  obtain ⟨L, hL⟩ : ∃ L, L = srt (endpoints values ranges) := ⟨_, rfl⟩
  rw [← hL] at hs ho hlen hk ⊢
  simp only [List.nil_append] at hk
  -- every candidate
  have hcand : ∀ k, (h : k < outs.length) → ∀ S, S = active (mid values ranges) (hlf values ranges) values.len ((L.take (k + 1)).map toR) →
      (S.Nonempty → Approx outs[k].1 (Spec.wmean (V values) (V ranges) S) (2 ^ (p + (2 * q + 2 * (b - a) + 7 - spec.mantissaBits))) ∧
        Approx outs[k].2 (Spec.cost values.len (V values) (V ranges) S (Spec.wmean (V values) (V ranges) S)) (2 ^ (q + z + (2 * q + 2 * (b - a) + 13 - spec.mantissaBits)))) ∧
      (S = ∅ → outs[k].2.NaN ∨ (outs[k].2.Fin ∧ ∑ i ∈ range values.len, V ranges i - 2 ^ (a - 6) ≤ outs[k].2.val)) := by
    intro k h S hS
    obtain ⟨A, hinv, hA⟩ := hk k h
    have hnear := inv_near hf hd hs (List.take_append_drop (k + 1) L).symm hinv hS
    rw [hA]
    refine ⟨fun hne => cand hl h64 hz hd (by rw [hS]; exact filter_subset _ _) hne hnear, ?_⟩
    rintro rfl
    exact cand_empty hl hz hd hinv.m hnear
  -- the first
  have hLn : L.length = 2 * values.len := by
    have := hs.p.length_eq
    rwa [base_length, List.length_map] at this
  have h0 := hd.pos
  obtain ⟨e, l, hel⟩ : ∃ e l, L = e :: l := by
    cases h : L with
    | nil => rw [h] at hLn; simp at hLn; omega
    | cons e l => exact ⟨e, l, rfl⟩
  obtain ⟨i0, hi0, hact⟩ : ∃ i < values.len, active (mid values ranges) (hlf values ranges) values.len ((L.take (0 + 1)).map toR) = {i} := by
    rw [hel]
    obtain ⟨i, hi, h⟩ := mem_base.1 (hs.p.mem_iff.1 (by rw [hel]; exact List.mem_cons_self : toR e ∈ L.map toR))
    rcases h with h | h
    · refine ⟨i, hi, ?_⟩
      rw [show ((e :: l).take (0 + 1)).map toR = [toR e] by simp, h]
      ext j
      unfold active
      rw [mem_filter, mem_range, List.mem_singleton, List.mem_singleton, mem_singleton]
      constructor
      · rintro ⟨-, h1, -⟩
        exact bp_inj h1
      · rintro rfl
        exact ⟨hi, rfl, (bp_ne_ep _ _ _ _).symm⟩
    · exfalso
      have hb := hs.p.mem_iff.2 (mem_base.2 ⟨i, hi, Or.inl rfl⟩)
      have hss := hs.s
      rw [hel, List.map_cons] at hb hss
      rcases List.mem_cons.1 hb with hb | hb
      · rw [h] at hb
        exact bp_ne_ep _ _ _ _ hb
      · have h1 := (List.pairwise_cons.1 hss).1 _ hb
        rw [h] at h1
        have h2 := hs.r i hi
        simp only [bp, ep] at h1
        linarith
  have hl0 : 0 < outs.length := by rw [hlen, hLn]; omega
  have hfirst := ((hcand 0 hl0 _ rfl).1 (by rw [hact]; exact singleton_nonempty _)).2
  rw [hact] at hfirst
  -- the minimum
  obtain ⟨s, t, hst⟩ : ∃ s t, outs = s :: t := by
    cases h : outs with
    | nil => rw [h] at hl0; simp at hl0
    | cons s t => exact ⟨s, t, rfl⟩
  have hs0 : outs[0] = s := by simp only [hst, List.getElem_cons_zero]
  rw [hs0] at hfirst
  have hnan : ∀ c ∈ outs, c.2.NaN ∨ c.2.Fin := by
    intro c hc
    obtain ⟨k, hk', rfl⟩ := List.mem_iff_getElem.1 hc
    rcases eq_empty_or_nonempty (active (mid values ranges) (hlf values ranges) values.len ((L.take (k + 1)).map toR)) with h | h
    · exact ((hcand k hk' _ rfl).2 h).imp_right And.left
    · exact Or.inr ((hcand k hk' _ rfl).1 h).2.1
  obtain ⟨hm1, hm2, hm3, hm4⟩ := minLoop_spec t s hfirst.1 fun c hc => hnan c (by rw [hst]; exact List.mem_cons_of_mem _ hc)
  have hmem : minLoop s t ∈ outs := by
    rw [hst]
    rcases hm1 with h | h
    · rw [h]; exact List.mem_cons_self
    · exact List.mem_cons_of_mem _ h
  have hmin : ∀ c ∈ outs, c.2.Fin → (minLoop s t).2.val ≤ c.2.val := by
    intro c hc hcf
    rw [hst] at hc
    rcases List.mem_cons.1 hc with rfl | hc
    · exact hm3
    · exact hm4 c hc hcf
  obtain ⟨k, hk', hke⟩ := List.mem_iff_getElem.1 hmem
  obtain ⟨S, hS⟩ : ∃ S, S = active (mid values ranges) (hlf values ranges) values.len ((L.take (k + 1)).map toR) := ⟨_, rfl⟩
  have hLk : k < L.length := by omega
  have hne : S.Nonempty := by
    rw [nonempty_iff_ne_empty]
    intro hem
    rcases (hcand k hk' S hS).2 hem with h | h
    · rw [hke] at h
      exact absurd hm2 (by unfold Fp.Fin; rw [h]; exact id)
    · rw [hke] at h
      have h1 := (abs_le.1 hfirst.2).2
      have h2 := cost_single hd hi0
      have h3 := kappa_le hz
      have h4 : (2 : ℝ) ^ (a - 6) ≤ 2 ^ (a - 2) := two_pow_le (by omega)
      have h5 : (2 : ℝ) ^ a = 4 * 2 ^ (a - 2) := by
        rw [show a = 2 + (a - 2) by ring, two_pow_add]; norm_num
      have h6 := two_pow_pos (a - 2)
      linarith [h.2]
  have hc := (hcand k hk' S hS).1 hne
  rw [hke] at hc
  refine ⟨L.take (k + 1), L.drop (k + 1), (minLoop s t).1, S, (List.take_append_drop _ _).symm, ?_, hS, hne, ?_, hc.1, ?_⟩
  · rw [hel]; simp
  · unfold estimate
    rw [show Cxx.assert (values.len = ranges.len) = .ok () from if_pos hd.len, Tls.bind_ok, ← hL, ho, Tls.bind_ok, hst]
    rfl
  · intro pre' suf' S' he hpn hS' hne'
    have hpl : 0 < pre'.length := List.length_pos_iff.2 hpn
    have hpl' : pre'.length ≤ L.length := by rw [he, List.length_append]; omega
    have hk2 : pre'.length - 1 < outs.length := by omega
    have htk : L.take (pre'.length - 1 + 1) = pre' := by rw [Nat.sub_add_cancel hpl, he, List.take_left]
    have hc' := ((hcand (pre'.length - 1) hk2 S' (by rw [htk]; exact hS')).1 hne').2
    have h1 := hmin _ (List.getElem_mem hk2) hc'.1
    have h2 := abs_le.1 hc.2.2
    have h3 := abs_le.1 hc'.2
    have h4 := pow_double (q + z + (2 * q + 2 * (b - a) + 13 - spec.mantissaBits))
    rw [show q + z + (2 * q + 2 * (b - a) + 13 - spec.mantissaBits) + 1 = q + z + (2 * q + 2 * (b - a) + 14 - spec.mantissaBits) by ring] at h4
    linarith

end Verif.TlsFp
