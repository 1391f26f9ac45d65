import Verif.TlsFp.Weight

/-! Lemmas for C107: the order of the endpoints, the minimum and the weighted mean. -/
namespace Verif.TlsFp
open Verif Ieee Fp Float.Model Finset Tls

variable {spec : Format} [Fmt spec] {values ranges : Vec (Fp spec)} {p q a b z : ℤ}

theorem begin_near (hl : Lim spec) (hz : Sizes spec p q a b z) (hd : Dom values ranges p q a b) {i : ℕ} (hi : i < values.len) :
    (values.val i - ranges.val i).Fin ∧ |(values.val i - ranges.val i).val - (V values i - V ranges i)| ≤ 2 ^ (z - spec.mantissaBits) := by
  have lo := hl.lo
  have hi' := hl.hi
  obtain ⟨q0, q1, a0, ab, b0, p0, p1, pz, pz2, bz, z1, hc⟩ := hz
  have hb : |(values.val i).val - (ranges.val i).val| ≤ 2 ^ (z + 1) := by
    have h1 := (hd.v i hi).trans (two_pow_le pz)
    have h2 := (hd.rb i hi).trans (two_pow_le bz)
    have h3 := hd.ra i hi
    have h4 := two_pow_pos a
    have h5 := pow_double z
    rw [abs_le] at h1 ⊢
    constructor <;> linarith
  have := sub_is (hd.vf i hi) (hd.rf i hi) (hb.trans (two_pow_le (by omega)))
  refine ⟨this.1, (this.2.err (by omega) hb).trans (two_pow_le (by omega))⟩

theorem end_near (hl : Lim spec) (hz : Sizes spec p q a b z) (hd : Dom values ranges p q a b) {i : ℕ} (hi : i < values.len) :
    (values.val i + ranges.val i).Fin ∧ |(values.val i + ranges.val i).val - (V values i + V ranges i)| ≤ 2 ^ (z - spec.mantissaBits) := by
  have lo := hl.lo
  have hi' := hl.hi
  obtain ⟨q0, q1, a0, ab, b0, p0, p1, pz, pz2, bz, z1, hc⟩ := hz
  have hb : |(values.val i).val + (ranges.val i).val| ≤ 2 ^ (z + 1) := by
    have h1 := (hd.v i hi).trans (two_pow_le pz)
    have h2 := (hd.rb i hi).trans (two_pow_le bz)
    have h3 := hd.ra i hi
    have h4 := two_pow_pos a
    have h5 := pow_double z
    rw [abs_le] at h1 ⊢
    constructor <;> linarith
  have := add_is (hd.vf i hi) (hd.rf i hi) (hb.trans (two_pow_le (by omega)))
  refine ⟨this.1, (this.2.err (by omega) hb).trans (two_pow_le (by omega))⟩

theorem sorted_of (hl : Lim spec) (hz : Sizes spec p q a b z) (hd : Dom values ranges p q a b) {srt : List (Fp spec × ℤ) → List (Fp spec × ℤ)}
    (h : Sorts srt (endpoints values ranges)) : Sorted values ranges (srt (endpoints values ranges)) := by
  have hfin : ∀ e ∈ srt (endpoints values ranges), e.1.Fin := by
    intro e he
    have := h.1.mem_iff.1 he
    unfold endpoints at this
    simp only [List.mem_flatMap, List.mem_range, List.mem_cons, List.not_mem_nil, or_false] at this
    obtain ⟨i, hi, h | h⟩ := this
    · rw [h]; exact (begin_near hl hz hd hi).1
    · rw [h]; exact (end_near hl hz hd hi).1
  refine ⟨?_, ?_, ?_⟩
  · intro i hi
    have h1 := abs_le.1 (begin_near hl hz hd hi).2
    have h2 := abs_le.1 (end_near hl hz hd hi).2
    have h3 : (2 : ℝ) ^ a ≤ V ranges i := hd.ra i hi
    have h4 : (2 : ℝ) ^ (z - spec.mantissaBits) ≤ 2 ^ (a - 1) := two_pow_le (by have := hz.cond; have := hz.q0; have := hz.ab; omega)
    have h5 := pow_double (a - 1)
    rw [sub_add_cancel] at h5
    have h6 := two_pow_pos (a - 1)
    unfold hlf
    linarith
  · rw [← endpoints_base hd.small]
    exact h.1.map _
  · rw [List.pairwise_map]
    refine h.2.imp_of_mem fun {x y} hx hy hn => ?_
    rw [lt_iff (hfin _ hy) (hfin _ hx), not_lt] at hn
    exact hn

theorem wts_of (hl : Lim spec) (h64 : Sub64 spec) (hz : Sizes spec p q a b z) (hd : Dom values ranges p q a b) : Wts ranges a b := by
  have h := fun i (hi : i < ranges.len) => weight_near hl h64 (hd.rf i (by rw [hd.len]; exact hi)) hz.a0 hz.b0 (hd.ra i (by rw [hd.len]; exact hi)) (hd.rb i (by rw [hd.len]; exact hi))
  exact ⟨fun i hi => (h i hi).1, fun i hi => (h i hi).2.1, fun i hi => (h i hi).2.2.1⟩

/-- The minimum of finite costs, among which NaN is passed over. -/
theorem minLoop_spec (l : List (Fp spec × Fp spec)) (s : Fp spec × Fp spec) (hs : s.2.Fin) (hn : ∀ t ∈ l, t.2.NaN ∨ t.2.Fin) :
    (minLoop s l = s ∨ minLoop s l ∈ l) ∧ (minLoop s l).2.Fin ∧ (minLoop s l).2.val ≤ s.2.val ∧ ∀ t ∈ l, t.2.Fin → (minLoop s l).2.val ≤ t.2.val := by
  induction l generalizing s with
  | nil => exact ⟨Or.inl rfl, hs, le_rfl, fun t ht => absurd ht List.not_mem_nil⟩
  | cons x l ih =>
    have hn' : ∀ t ∈ l, t.2.NaN ∨ t.2.Fin := fun t ht => hn t (List.mem_cons_of_mem _ ht)
    unfold minLoop
    by_cases hlt : x.2 < s.2
    · rw [if_pos hlt]
      have hx : x.2.Fin := (hn x List.mem_cons_self).resolve_left fun h => NaN.not_lt (Or.inl h) hlt
      rw [lt_iff hx hs] at hlt
      obtain ⟨h1, h2, h3, h4⟩ := ih x hx hn'
      refine ⟨Or.inr ?_, h2, by linarith, ?_⟩
      · rcases h1 with h1 | h1
        · rw [h1]; exact List.mem_cons_self
        · exact List.mem_cons_of_mem _ h1
      · intro t ht htf
        rcases List.mem_cons.1 ht with rfl | ht
        · exact h3
        · exact h4 t ht htf
    · rw [if_neg hlt]
      obtain ⟨h1, h2, h3, h4⟩ := ih s hs hn'
      refine ⟨h1.imp_right (List.mem_cons_of_mem _), h2, h3, ?_⟩
      intro t ht htf
      rcases List.mem_cons.1 ht with rfl | ht
      · rw [lt_iff htf hs, not_lt] at hlt
        linarith
      · exact h4 t ht htf

/-- Weighted means with weights that differ by the relative error `u`. -/
theorem mean_near {S : Finset ℕ} (hS : S.Nonempty) {w w' v : ℕ → ℝ} {u c : ℝ} (hu : 0 ≤ u) (hu1 : u ≤ 1 / 4) (hw : ∀ i ∈ S, 0 < w i) (hw' : ∀ i ∈ S, |w' i - w i| ≤ u * w i)
    (hv : ∀ i ∈ S, |v i| ≤ c) : |(∑ i ∈ S, w' i * v i) / ∑ i ∈ S, w' i - (∑ i ∈ S, w i * v i) / ∑ i ∈ S, w i| ≤ 4 * u * c := by
  have hw0 : 0 < ∑ i ∈ S, w i := sum_pos hw hS
  obtain ⟨A, hA⟩ : ∃ A, A = ∑ i ∈ S, w i := ⟨_, rfl⟩
  obtain ⟨B, hB⟩ : ∃ B, B = ∑ i ∈ S, w' i := ⟨_, rfl⟩
  obtain ⟨X, hX⟩ : ∃ X, X = ∑ i ∈ S, w i * v i := ⟨_, rfl⟩
  obtain ⟨Y, hY⟩ : ∃ Y, Y = ∑ i ∈ S, w' i * v i := ⟨_, rfl⟩
  have c0 : 0 ≤ c := by obtain ⟨i, hi⟩ := hS; exact (abs_nonneg _).trans (hv i hi)
  have e1 : |B - A| ≤ u * A := by
    rw [hA, hB, ← sum_sub_distrib, mul_sum]
    exact (abs_sum_le_sum_abs _ _).trans (sum_le_sum hw')
  have e2 : |Y - X| ≤ u * A * c := by
    rw [hX, hY, ← sum_sub_distrib, hA, mul_sum, sum_mul]
    refine (abs_sum_le_sum_abs _ _).trans (sum_le_sum fun i hi => ?_)
    rw [← sub_mul, abs_mul]
    exact mul_le_mul (hw' i hi) (hv i hi) (abs_nonneg _) (mul_nonneg hu (hw i hi).le)
  have e3 : |X| ≤ A * c := by
    rw [hX, hA, sum_mul]
    refine (abs_sum_le_sum_abs _ _).trans (sum_le_sum fun i hi => ?_)
    rw [abs_mul, abs_of_pos (hw i hi)]
    exact mul_le_mul_of_nonneg_left (hv i hi) (hw i hi).le
  rw [← hA, ← hB, ← hX, ← hY]
  rw [← hA] at hw0
  have hB0 : A * (3 / 4) ≤ B := by
    have := (abs_le.1 e1).1
    have : u * A ≤ 1 / 4 * A := mul_le_mul_of_nonneg_right hu1 hw0.le
    linarith
  have hBp : 0 < B := by linarith
  rw [div_sub_div _ _ hBp.ne' hw0.ne', abs_div, abs_of_pos (mul_pos hBp hw0), div_le_iff₀ (mul_pos hBp hw0)]
  have : Y * A - B * X = (Y - X) * A - (B - A) * X := by ring
  rw [this]
  calc |(Y - X) * A - (B - A) * X| ≤ |(Y - X) * A| + |(B - A) * X| := abs_sub _ _
    _ ≤ u * A * c * A + u * A * (A * c) := by
        rw [abs_mul, abs_mul, abs_of_pos hw0]
        exact add_le_add (mul_le_mul_of_nonneg_right e2 hw0.le) (mul_le_mul e1 e3 (abs_nonneg _) (mul_nonneg hu hw0.le))
    _ = 2 * u * c * A * A := by ring
    _ ≤ 4 * u * c * (A * (3 / 4) * A) := by
        have : 0 ≤ u * c * (A * A) := by positivity
        linarith
    _ ≤ _ := mul_le_mul_of_nonneg_left (mul_le_mul_of_nonneg_right hB0 hw0.le) (by positivity)

/-- The residuals of two values. -/
theorem cost_move {n : ℕ} {v r : ℕ → ℝ} {S : Finset ℕ} {h h' c e N : ℝ} (hN : (S.card : ℝ) ≤ N) (hv : ∀ i ∈ S, |v i| ≤ c) (hh : |h| ≤ c) (hh' : |h'| ≤ c) (he : |h' - h| ≤ e) (c0 : 0 ≤ c) :
    |Spec.cost n v r S h' - Spec.cost n v r S h| ≤ N * (e * (4 * c)) := by
  unfold Spec.cost
  rw [add_sub_add_right_eq_sub, ← sum_sub_distrib]
  have e0 : 0 ≤ e := (abs_nonneg _).trans he
  calc |∑ i ∈ S, ((v i - h') ^ 2 - (v i - h) ^ 2)| ≤ ∑ i ∈ S, |(v i - h') ^ 2 - (v i - h) ^ 2| := abs_sum_le_sum_abs _ _
    _ ≤ ∑ i ∈ S, e * (4 * c) := by
        refine sum_le_sum fun i hi => ?_
        rw [show (v i - h') ^ 2 - (v i - h) ^ 2 = (h' - h) * (h' + h - 2 * v i) by ring, abs_mul]
        refine mul_le_mul he ?_ (abs_nonneg _) e0
        have h1 := abs_le.1 (hv i hi)
        have h2 := abs_le.1 hh
        have h3 := abs_le.1 hh'
        rw [abs_le]
        constructor <;> linarith
    _ = S.card * (e * (4 * c)) := by rw [sum_const, nsmul_eq_mul]
    _ ≤ _ := mul_le_mul_of_nonneg_right hN (by positivity)

end Verif.TlsFp
