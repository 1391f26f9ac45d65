import Verif.HoughFp.WindowProps

/-! Property theorem C121, exact condition (see properties.jsonl). -/
namespace Verif.HoughFp
open Verif Hough Ieee Fp Interval Interval.Spec Float.Model

/-- C121, exact condition: the number of cells is the least one that covers the size if and only if the quotient is not rounded down to an integer. -/
theorem C121_iff {win res : Flt} (h : WinDom 24 win res) :
    (∃ i, castCeil (win / res) = .ok i ∧ Covers win.val res.val i 0) ↔ ¬∃ j : ℤ, (win / res).val = j ∧ (j : ℝ) < win.val / res.val := by
  obtain ⟨hi, hq⟩ := quot_is h
  constructor
  · rintro ⟨i, h1, h2⟩ ⟨j, h3, h4⟩
    rw [castCeil_quot h, h3, Int.ceil_intCast] at h1
    cases h1
    have := h2.2
    rw [add_zero, ← div_le_iff₀ h.pos] at this
    linarith
  · intro hn
    obtain ⟨i, h1, h2⟩ := C121_cells_partial h
    refine ⟨i, h1, h2.1, ?_⟩
    rw [add_zero, ← div_le_iff₀ h.pos]
    by_contra hlt
    rw [not_le] at hlt
    rw [castCeil_quot h] at h1
    cases h1
    refine hn ⟨_, le_antisymm (Int.le_ceil _) ?_, hlt⟩
    have hb := _root_.abs_le.1 hq
    have hb' : |(win / res).val| ≤ 2 ^ (24 : ℤ) := hi.2.abs_le (show (-149 : ℤ) ≤ 24 by omega) hq
    have hg : Grid .binary32 ((⌈(win / res).val⌉ : ℤ) : ℝ) := by
      refine grid_int Fmt.good ?_
      show |_| ≤ (2 : ℝ) ^ (24 : ℤ)
      rw [_root_.abs_le]
      exact ⟨(_root_.abs_le.1 hb').1.trans (Int.le_ceil _), by linarith [hb.2]⟩
    exact hi.2.mono_ge hg hlt.le

/-- Example: the quotient of 0.3 by 0.1 is rounded down to 3, so the three cells of size 0.1 do not cover the size 0.3. -/
example : (3 : ℝ) < (lit .binary32 3 (-1)).val / (lit .binary32 1 (-1)).val ∧ lit .binary32 3 (-1) / lit .binary32 1 (-1) = (lit .binary32 3 0 : Flt) := by
  refine ⟨?_, by decide +kernel⟩
  rw [one_tenth.2, three_tenths.2]
  norm_num

end Verif.HoughFp
