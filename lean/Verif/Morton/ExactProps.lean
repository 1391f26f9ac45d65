import Verif.Morton.Props

/-! Property theorems C08 to C10 (see properties.jsonl): the exact numbers of dimensions for which `mortonCmpInt` is right, and the exact set of pairs on which
`intervalPow2Int` is. -/
namespace Verif.Morton
open Verif NumericTraits

/-- Values of the same sign of a signed type share the top bit. -/
theorem sameCell_of_signs (t : ITy) (x y : BitVec t.w) (hs : t.signed = true) (h : t.val x < 0 ↔ t.val y < 0) :
    Spec.SameCell (t.w - 1) (Spec.bias t x) (Spec.bias t y) := by
  have hx := bias_cast t x
  have hy := bias_cast t y
  have bx := bias_lt t x
  have bz := bias_lt t y
  rw [hs, if_pos rfl] at hx hy
  have ep : (2 : ℤ) ^ (t.w - 1) = ((2 ^ (t.w - 1) : ℕ) : ℤ) := by push_cast; rfl
  rw [ep] at hx hy
  rw [pow_w t] at bx bz
  unfold Spec.SameCell
  by_cases h1 : t.val x < 0
  · have h2 := h.1 h1
    rw [Nat.div_eq_of_lt (by omega), Nat.div_eq_of_lt (by omega)]
  · have h2 := mt h.2 h1
    rw [Nat.div_eq_of_lt_le (k := 1) (by omega) (by omega), Nat.div_eq_of_lt_le (k := 1) (by omega) (by omega)]

/-- The middle chosen for the whole range of an unsigned type is one below its upper half. -/
theorem unsigned_mid (t : ITy) (hs : t.signed = false) :
    t.val (BitVec.ofInt t.w ((maxVal t + minVal t).tdiv 2)) = 2 ^ (t.w - 1) - 1 ∧ t.val (BitVec.ofInt t.w (minVal t)) = 0 := by
  cases t <;> first | exact absurd hs (by decide) | decide +kernel

/-- C10: exactly on the pairs of `C10_intervalPow2Int_partial` the result is the smallest dyadic interval with its middle: the values are different, and they
agree above bit 30 and in the top bit, or have opposite signs. -/
theorem C10_iff (t : ITy) (i1 i2 : BitVec t.w) : C10_at t i1 i2 ↔ i1 ≠ i2 ∧ Spec.Nice t i1 i2 := by
  refine ⟨fun h => ?_, fun h => C10_intervalPow2Int_partial t i1 i2 h.1 h.2⟩
  obtain ⟨r, k, hr, hk, hd⟩ := h
  have hne : i1 ≠ i2 := by
    rintro rfl
    rw [C10_equal_violated] at hr
    exact absurd hr (by simp)
  refine ⟨hne, ?_⟩
  by_contra hn
  have hw := w_pos t
  have hn1 : ¬ lev t i1 i2 ≤ min 30 (t.w - 1) := fun h => hn (Or.inl (size_xor_le.1 h))
  by_cases hl : lev t i1 i2 < t.w
  · by_cases h31 : lev t i1 i2 = 31
    · rw [C10_level31_violated t i1 i2 (by omega) h31] at hr
      exact absurd hr (by simp)
    · rw [C10_level64_violated t i1 i2 (by omega) hl] at hr
      exact absurd hr (by simp)
  · have hlw : lev t i1 i2 = t.w := le_antisymm (lev_le t i1 i2) (by omega)
    cases hs : t.signed with
    | true =>
      have hsg : t.val i1 < 0 ↔ t.val i2 < 0 := by
        by_contra hc
        exact hn (Or.inr ⟨hs, hc⟩)
      have h1 : lev t i1 i2 ≤ t.w - 1 := size_xor_le.2 (sameCell_of_signs t i1 i2 hs hsg)
      omega
    | false =>
      unfold intervalPow2Int at hr
      simp only [level_eq, hlw, lt_self_iff_false, if_false, pure, Except.pure] at hr
      have e := Except.ok.inj hr
      subst e
      simp only [Nat.cast_inj] at hk
      subst hk
      have hv : t.val i1 ≠ t.val i2 := fun e => hne ((bias_inj t i1 i2).1 (by
        have h1 := val_eq_bias t i1
        have h2 := val_eq_bias t i2
        omega))
      have hh := hd.half hv
      obtain ⟨m1, m2⟩ := unsigned_mid t hs
      simp only [m1, m2] at hh
      omega

/-! ### C08 and C09 -/

theorem cmpLoop_lt (t : ITy) (v1 v2 : ℕ → BitVec t.w) (n : ℕ) : (cmpLoop t v1 v2 n).1 < 2 ^ t.w := by
  induction n with
  | zero => simp [cmpLoop]
  | succ n ih =>
    simp only [cmpLoop]
    split_ifs
    · exact Nat.mod_lt _ (by positivity)
    · exact ih

/-- Vectors that agree in the first `2^w` coordinates are not ordered. -/
theorem cmp_beyond (t : ITy) (dim : ℕ) (v1 v2 : ℕ → BitVec t.w) (h : ∀ d < 2 ^ t.w, v1 d = v2 d) : mortonCmpInt t dim v1 v2 = false := by
  simp only [mortonCmpInt, ITy.lt, h _ (cmpLoop_lt t v1 v2 (dim - 1))]
  simp

/-- Two vectors that differ only in coordinate `2^w`. -/
def far (t : ITy) (d : ℕ) : BitVec t.w := if d = 2 ^ t.w then BitVec.ofInt t.w (maxVal t) else BitVec.ofInt t.w (minVal t)

theorem far_bias (t : ITy) : Spec.bias t (BitVec.ofInt t.w (minVal t)) = 0 ∧ BitVec.ofInt t.w (maxVal t) ≠ BitVec.ofInt t.w (minVal t) := by
  cases t <;> decide +kernel

/-- C08: the comparison is that of the Morton codes exactly when there are at most `2^w` dimensions. -/
theorem C08_iff (t : ITy) (dim : ℕ) (h0 : 0 < dim) :
    (∀ v1 v2, mortonCmpInt t dim v1 v2 = true ↔ Spec.mcode t dim v1 < Spec.mcode t dim v2) ↔ dim ≤ 2 ^ t.w := by
  refine ⟨fun h => ?_, fun h v1 v2 => C08_mortonCmpInt_partial t dim v1 v2 h0 h⟩
  by_contra hd
  obtain ⟨hb, hne⟩ := far_bias t
  let z : ℕ → BitVec t.w := fun _ => BitVec.ofInt t.w (minVal t)
  have hle : Spec.mcode t dim z ≤ Spec.mcode t dim (far t) := by
    refine code_mono h0 (fun d _ => bias_lt t _) (fun d _ => bias_lt t _) fun d _ => ?_
    simp only [z, hb]
    exact Nat.zero_le _
  have hlt : Spec.mcode t dim z < Spec.mcode t dim (far t) := by
    refine lt_of_le_of_ne hle fun he => ?_
    have := code_inj (fun d _ => bias_lt t _) (fun d _ => bias_lt t _) he (2 ^ t.w) (by omega)
    rw [bias_inj] at this
    simp only [z, far, if_true] at this
    exact hne this.symm
  have hc := (h z (far t)).2 hlt
  rw [cmp_beyond t dim z (far t) fun d hd' => by simp only [z, far]; rw [if_neg (by omega)]] at hc
  exact absurd hc (by simp)

/-- C09: it is a strict total order exactly then. -/
theorem C09_iff (t : ITy) (dim : ℕ) (h0 : 0 < dim) :
    ((∀ v, mortonCmpInt t dim v v = false) ∧
    (∀ v1 v2, mortonCmpInt t dim v1 v2 = true → mortonCmpInt t dim v2 v1 = false) ∧
    (∀ v1 v2 v3, mortonCmpInt t dim v1 v2 = true → mortonCmpInt t dim v2 v3 = true → mortonCmpInt t dim v1 v3 = true) ∧
    (∀ v1 v2, ¬ Spec.SameVec dim v1 v2 → mortonCmpInt t dim v1 v2 = true ∨ mortonCmpInt t dim v2 v1 = true)) ↔ dim ≤ 2 ^ t.w := by
  refine ⟨fun h => ?_, C09_order_partial t dim h0⟩
  by_contra hd
  obtain ⟨-, hne⟩ := far_bias t
  let z : ℕ → BitVec t.w := fun _ => BitVec.ofInt t.w (minVal t)
  have hz : ∀ d < 2 ^ t.w, z d = far t d := fun d hd' => by simp only [z, far]; rw [if_neg (by omega)]
  have h1 := h.2.2.2 z (far t) fun hs => by
    have := hs (2 ^ t.w) (by omega)
    simp only [z, far, if_true] at this
    exact hne this.symm
  rw [cmp_beyond t dim z (far t) hz, cmp_beyond t dim (far t) z fun d hd' => (hz d hd').symm] at h1
  simp at h1

/-- Coordinates 0 to 255 of 8 bits are compared, coordinate 256 is not. -/
example : mortonCmpInt .u8 256 (fun _ => 0#8) (fun d => if d = 255 then 1#8 else 0#8) = true ∧
    mortonCmpInt .u8 257 (fun _ => 0#8) (fun d => if d = 256 then 1#8 else 0#8) = false := by decide +kernel

/-- Pairs of each kind: a right one, the same level in an unsigned type, and a pair that agrees only above bit 30. -/
example : C10_at .i8 127#8 128#8 ∧ ¬ C10_at .u8 127#8 128#8 ∧ C10_at .u32 0#32 0x20000000#32 ∧ ¬ C10_at .u32 0#32 0x40000000#32 := by
  simp only [C10_iff, Spec.Nice, Spec.SameCell]
  decide +kernel

end Verif.Morton
