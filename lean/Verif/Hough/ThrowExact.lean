import Verif.Hough.ThrowProps

/-! Property theorems C130, exact conditions (see properties.jsonl). -/
namespace Verif.Hough
open Verif Functions Interval Interval.Spec

variable {K : Type} [Field K] [LinearOrder K] [FloorRing K]

/-- When the transform cannot be enlarged, the last bin cannot be read. -/
theorem last_bin_fails (L : Libm K) (okT okS okN : ℕ → Bool) (d : Plane K) {a b c : ℤ} (x1 x2 x3 x4 x5 x6 : K) (h : Bins a b c) (hT : Fails okT d.transform.data (a * b * c)) :
    ∃ d', d.tryInit L okT okS okN a b c x1 x2 x3 x4 x5 x6 = .ok (d', true) ∧ (d'.thetaNum, d'.phiNum, d'.rhoNum) = (a, b, c) ∧
      d'.getHoughTransform (a - 1) (b - 1) (c - 1) = .error (.ub .outOfBounds) := by
  obtain ⟨i3, -⟩ := h.facts
  obtain ⟨ha, hb, hc, h1⟩ := h
  refine ⟨⟨⟨d.transform.data, [⟨0, a⟩, ⟨0, b⟩, ⟨0, c⟩]⟩, d.spectrum, d.lut, a, b, c, x1, x2, x3, x4, x5, x6, d.ithetaWin, d.iphiWin, d.irhoWin⟩, ?_, rfl, ?_⟩
  · unfold Plane.tryInit
    simp only [tryInit_fails (z := 0) i3 (by rw [prod3]; exact h1) (by rw [prod3]; exact hT), bind_ok, if_true]
    rfl
  · have ri : 0 ≤ a - 1 ∧ a - 1 < a := by omega
    have rj : 0 ≤ b - 1 ∧ b - 1 < b := by omega
    have rr : 0 ≤ c - 1 ∧ c - 1 < c := by omega
    rw [get_transform ri rj rr, (read3 (g := ⟨d.transform.data, [⟨0, a⟩, ⟨0, b⟩, ⟨0, c⟩]⟩) rfl h1 ri rj rr).2.2, if_neg]
    have e : a - 1 + a * (b - 1 + b * (c - 1)) = a * b * c - 1 := by ring
    have := hT.1
    rw [e]
    show ¬ _ < (d.transform.data.len : ℤ)
    omega

/-- C130 for planes, exact condition: after an initialisation of any detector, usable or not, all the bins and normals of the numbers reported can be read if and only if each of the three storages
is large enough or can be allocated, that is, if and only if nothing was thrown. -/
theorem C130_planes_iff (L : Libm K) (okT okS okN : ℕ → Bool) (d d' : Plane K) {a b c : ℤ} (x1 x2 x3 x4 x5 x6 : K) (thrown : Bool) (h : Bins a b c)
    (he : d.tryInit L okT okS okN a b c x1 x2 x3 x4 x5 x6 = .ok (d', thrown)) :
    ((∀ i j r, (0 ≤ i ∧ i < d'.thetaNum) → (0 ≤ j ∧ j < d'.phiNum) → (0 ≤ r ∧ r < d'.rhoNum) →
        (∃ v, d'.getHoughTransform i j r = .ok v) ∧ (∃ v, d'.getHoughSpectrum i j = .ok v) ∧ ∃ n, d'.getNormal i j = .ok n) ↔
      ¬ Fails okT d.transform.data (a * b * c) ∧ ¬ Fails okS d.spectrum.data (a * b) ∧ ¬ Fails okN d.lut.data (a * b)) ∧
    (thrown = false ↔ ¬ Fails okT d.transform.data (a * b * c) ∧ ¬ Fails okS d.spectrum.data (a * b) ∧ ¬ Fails okN d.lut.data (a * b)) := by
  have ri : 0 ≤ a - 1 ∧ a - 1 < a := by have := h.1; omega
  have rj : 0 ≤ b - 1 ∧ b - 1 < b := by have := h.2.1; omega
  have rr : 0 ≤ c - 1 ∧ c - 1 < c := by have := h.2.2.1; omega
  have e2 : a - 1 + a * (b - 1) = a * b - 1 := by ring
  by_cases hT : Fails okT d.transform.data (a * b * c)
  · obtain ⟨d1, h1, h2, h3⟩ := last_bin_fails L okT okS okN d x1 x2 x3 x4 x5 x6 h hT
    obtain ⟨rfl, rfl⟩ := Prod.mk.inj (Except.ok.inj (h1.symm.trans he))
    simp only [Prod.mk.injEq] at h2
    refine ⟨⟨fun hr => ?_, fun hn => absurd hT hn.1⟩, ⟨fun ht => by simp at ht, fun hn => absurd hT hn.1⟩⟩
    obtain ⟨⟨v, hv⟩, -⟩ := hr (a - 1) (b - 1) (c - 1) (by rw [h2.1]; exact ri) (by rw [h2.2.1]; exact rj) (by rw [h2.2.2]; exact rr)
    rw [h3] at hv
    cases hv
  by_cases hS : Fails okS d.spectrum.data (a * b)
  · obtain ⟨d1, h1, h2, -, h3⟩ := C130_spectrum_violated L okT okS okN d x1 x2 x3 x4 x5 x6 h hT hS
    obtain ⟨rfl, rfl⟩ := Prod.mk.inj (Except.ok.inj (h1.symm.trans he))
    simp only [Prod.mk.injEq] at h2
    refine ⟨⟨fun hr => ?_, fun hn => absurd hS hn.2.1⟩, ⟨fun ht => by simp at ht, fun hn => absurd hS hn.2.1⟩⟩
    obtain ⟨-, ⟨v, hv⟩, -⟩ := hr (a - 1) (b - 1) (c - 1) (by rw [h2.1]; exact ri) (by rw [h2.2.1]; exact rj) (by rw [h2.2.2]; exact rr)
    rw [(h3 _ _ _ ri rj rr).2, e2, if_neg (by have := hS.1; omega)] at hv
    cases hv
  by_cases hN : Fails okN d.lut.data (a * b)
  · obtain ⟨d1, h1, h2, h3⟩ := C130_normals_violated L okT okS okN d x1 x2 x3 x4 x5 x6 h hT hS hN
    obtain ⟨rfl, rfl⟩ := Prod.mk.inj (Except.ok.inj (h1.symm.trans he))
    simp only [Prod.mk.injEq] at h2
    refine ⟨⟨fun hr => ?_, fun hn => absurd hN hn.2.2⟩, ⟨fun ht => by simp at ht, fun hn => absurd hN hn.2.2⟩⟩
    obtain ⟨-, -, v, hv⟩ := hr (a - 1) (b - 1) (c - 1) (by rw [h2.1]; exact ri) (by rw [h2.2.1]; exact rj) (by rw [h2.2.2]; exact rr)
    rw [(h3 _ _ _ ri rj rr).2.2, e2, if_neg (by have := hN.1; omega)] at hv
    cases hv
  · obtain ⟨d1, h1, -, h2, h3⟩ := C130_planes_partial L okT okS okN d x1 x2 x3 x4 x5 x6 h hT hS hN
    obtain ⟨rfl, rfl⟩ := Prod.mk.inj (Except.ok.inj (h1.symm.trans he))
    simp only [Prod.mk.injEq] at h2
    refine ⟨⟨fun _ => ⟨hT, hS, hN⟩, fun _ i j r hi hj hr => ?_⟩, ⟨fun _ => ⟨hT, hS, hN⟩, fun _ => rfl⟩⟩
    rw [h2.1] at hi
    rw [h2.2.1] at hj
    rw [h2.2.2] at hr
    obtain ⟨q1, q2, q3⟩ := h3 i j r hi hj hr
    exact ⟨⟨_, q1⟩, ⟨_, q2⟩, _, q3⟩

/-- C130 for lines, exact condition: all the bins of the numbers reported can be read if and only if the storages of the transform and of the spectrum are large enough or can be allocated; an
exception of the third storage leaves bins that can be read, but have not been cleared. -/
theorem C130_lines_iff (L : Libm K) (okT okS okN : ℕ → Bool) (e e' : Line K) {a b : ℤ} (x1 x2 x3 x4 : K) (thrown : Bool) (h : LineBins a b)
    (he : e.tryInit L okT okS okN a b x1 x2 x3 x4 = .ok (e', thrown)) :
    (∀ i r, (0 ≤ i ∧ i < e'.thetaNum) → (0 ≤ r ∧ r < e'.rhoNum) → (∃ v, e'.getHoughTransform i r = .ok v) ∧ ∃ v, e'.getHoughSpectrum i = .ok v) ↔
      ¬ Fails okT e.transform.data (a * b) ∧ ¬ Fails okS e.spectrum a := by
  have ri : 0 ≤ a - 1 ∧ a - 1 < a := by have := h.1; omega
  have rr : 0 ≤ b - 1 ∧ b - 1 < b := by have := h.2.1; omega
  have e2 : a - 1 + a * (b - 1) = a * b - 1 := by ring
  by_cases hT : Fails okT e.transform.data (a * b)
  · obtain ⟨d1, h1, h2, h3⟩ := C130_line_transform_violated L okT okS okN x1 x2 x3 x4 e h hT
    obtain ⟨rfl, rfl⟩ := Prod.mk.inj (Except.ok.inj (h1.symm.trans he))
    simp only [Prod.mk.injEq] at h2
    refine ⟨fun hr => ?_, fun hn => absurd hT hn.1⟩
    obtain ⟨⟨v, hv⟩, -⟩ := hr (a - 1) (b - 1) (by rw [h2.1]; exact ri) (by rw [h2.2]; exact rr)
    rw [(h3 _ _ ri rr).1, e2, if_neg (by have := hT.1; omega)] at hv
    cases hv
  by_cases hS : Fails okS e.spectrum a
  · obtain ⟨d1, h1, h2, h3⟩ := C130_line_spectrum_violated L okT okS okN x1 x2 x3 x4 e h hT (Or.inl hS)
    obtain ⟨rfl, rfl⟩ := Prod.mk.inj (Except.ok.inj (h1.symm.trans he))
    simp only [Prod.mk.injEq] at h2
    refine ⟨fun hr => ?_, fun hn => absurd hS hn.2⟩
    obtain ⟨-, v, hv⟩ := hr (a - 1) (b - 1) (by rw [h2.1]; exact ri) (by rw [h2.2]; exact rr)
    rw [(h3 _ _ ri rr).2.1 hS, if_neg (by have := hS.1; omega)] at hv
    cases hv
  refine ⟨fun _ => ⟨hT, hS⟩, fun _ i r hi hr => ?_⟩
  by_cases hN : Fails okN e.lut a
  · obtain ⟨d1, h1, h2, h3⟩ := C130_line_spectrum_violated L okT okS okN x1 x2 x3 x4 e h hT (Or.inr hN)
    obtain ⟨rfl, rfl⟩ := Prod.mk.inj (Except.ok.inj (h1.symm.trans he))
    simp only [Prod.mk.injEq] at h2
    rw [h2.1] at hi
    rw [h2.2] at hr
    obtain ⟨q1, -, q2⟩ := h3 i r hi hr
    exact ⟨⟨_, q1⟩, _, q2 hS⟩
  · obtain ⟨d1, h1, -, h2, h3⟩ := C130_lines_partial L okT okS okN x1 x2 x3 x4 e h hT hS hN
    obtain ⟨rfl, rfl⟩ := Prod.mk.inj (Except.ok.inj (h1.symm.trans he))
    simp only [Prod.mk.injEq] at h2
    rw [h2.1] at hi
    rw [h2.2] at hr
    obtain ⟨q1, q2⟩ := h3 i r hi hr
    exact ⟨⟨_, q1⟩, _, q2⟩

/-- Example: a new detector of lines whose normals cannot be stored throws, and its bins can be read. -/
example : ¬ Fails (fun _ => true) (Line.new : Line ℚ).transform.data 6 ∧ ¬ Fails (fun _ => true) (Line.new : Line ℚ).spectrum 2 ∧ Fails (fun _ => false) (Line.new : Line ℚ).lut 2 := by
  refine ⟨?_, ?_, ?_, rfl⟩
  · rintro ⟨-, h⟩
    exact Bool.noConfusion h
  · rintro ⟨-, h⟩
    exact Bool.noConfusion h
  · exact show ((0 : ℕ) : ℤ) < 2 by decide

end Verif.Hough
