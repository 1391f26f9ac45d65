import Verif.MortonFloat.IntervalProps

/-! Exact condition of C70 (see properties.jsonl). -/
namespace Verif.MortonFloat
open Verif.NumericTraits Verif.MortonFloat.Spec Verif.Morton

/-- C70, exactly: of the pairs of finite floats those with different bit patterns have their interval, `+0` and `-0` among them; a float with itself has none. -/
theorem C70_iff (a b : BitVec 32) (ha : Spec.Finite a) (hb : Spec.Finite b) : C70_at strict a b ↔ a ≠ b := by
  constructor
  · rintro ⟨r, hr, -⟩ rfl
    rw [C70_equal_violated] at hr
    cases hr
  · exact C70_bounds_partial strict a b ha hb

example : C70_at strict 0#32 0x80000000#32 := (C70_iff _ _ (by unfold Spec.Finite; decide) (by unfold Spec.Finite; decide)).2 (by decide)

end Verif.MortonFloat
