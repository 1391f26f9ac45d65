import Verif.NumericTraits.Props

/-! Property theorem C06 (see properties.jsonl): the exact values for which the powers of two are right. -/
namespace Verif.NumericTraits

/-- C06: the floor is right exactly when the negation does not overflow; the ceiling exactly when moreover it is representable. -/
theorem C06_iff (t : ITy) (x : BitVec t.w) :
    (C06_floor_at t x ↔ ¬ MostNegative t x) ∧ (C06_ceil_at t x ↔ ¬ MostNegative t x ∧ t.val x ≤ ceilLimit t) := by
  have hm : MostNegative t x → floorPow2 t x = .error (.ub .overflow) ∧ ceilPow2 t x = .error (.ub .overflow) := by
    rintro ⟨rfl | rfl, h⟩
    · have h' : x.toInt = -2147483648 := h
      simp only [floorPow2, ceilPow2]
      rw [if_neg (by omega), if_pos h', if_neg (by omega), if_pos h']
      exact ⟨rfl, rfl⟩
    · have h' : x.toInt = -9223372036854775808 := h
      simp only [floorPow2, ceilPow2]
      rw [if_neg (by omega), if_pos h', if_neg (by omega), if_pos h']
      exact ⟨rfl, rfl⟩
  refine ⟨⟨?_, C06_floorPow2_partial t x⟩, ?_, fun h => C06_ceilPow2_partial t x h.1 h.2⟩
  · rintro ⟨r, e, -⟩ h
    rw [(hm h).1] at e; cases e
  · intro hc
    refine ⟨fun h => ?_, ?_⟩
    · obtain ⟨r, e, -⟩ := hc
      rw [(hm h).2] at e; cases e
    · by_contra h
      exact C06_ceilPow2_beyond_violated t x (by omega) hc

/-- The ceiling of 64 in `int8_t` is right, that of 65 is not. -/
example : C06_ceil_at .i8 64#8 ∧ ¬ C06_ceil_at .i8 65#8 :=
  ⟨((C06_iff .i8 64#8).2).2 ⟨(by rintro ⟨h | h, -⟩ <;> cases h), by decide⟩, fun h => absurd (((C06_iff .i8 65#8).2).1 h).2 (by decide)⟩

end Verif.NumericTraits
