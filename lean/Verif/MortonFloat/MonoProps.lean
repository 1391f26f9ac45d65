import Verif.MortonFloat.Props
import Verif.Morton.ExactProps

/-! Property theorem C143 (see properties.jsonl): the Morton comparisons respect the order of the coordinates. -/
namespace Verif.Morton
open Verif NumericTraits

/-- `v` is nowhere greater than `w` in the first `dim` coordinates. -/
def Dominated (t : ITy) (dim : ℕ) (v w : ℕ → BitVec t.w) : Prop := ∀ d < dim, t.val (v d) ≤ t.val (w d)

/-- The selected coordinate is a coordinate of the vectors, also when the counter wraps. -/
theorem cmpLoop_le (t : ITy) (v w : ℕ → BitVec t.w) (n : ℕ) : (cmpLoop t v w n).1 ≤ n := by
  induction n with
  | zero => simp [cmpLoop]
  | succ n ih =>
    simp only [cmpLoop]
    split
    · exact Nat.mod_le _ _
    · omega

/-- C143, first part, for every number of dimensions (the wrapping counter of `cmpLoop` included): a vector is never after one that is nowhere smaller. -/
theorem C143_never_after (t : ITy) (dim : ℕ) (h0 : 0 < dim) (v w : ℕ → BitVec t.w) (h : Dominated t dim v w) :
    mortonCmpInt t dim w v = false := by
  have := cmpLoop_le t w v (dim - 1)
  have := h (cmpLoop t w v (dim - 1)).1 (by omega)
  simp only [mortonCmpInt, ITy.lt, decide_eq_false_iff_not]
  omega

/-- C143, second part: it is before it as soon as a coordinate is smaller. -/
theorem C143_before (t : ITy) (dim : ℕ) (h0 : 0 < dim) (h1 : dim ≤ 2 ^ t.w) (v w : ℕ → BitVec t.w) (h : Dominated t dim v w) :
    mortonCmpInt t dim v w = true ↔ ∃ d < dim, t.val (v d) < t.val (w d) := by
  have hw := C143_never_after t dim h0 v w h
  constructor
  · intro hlt
    refine ⟨(cmpLoop t v w (dim - 1)).1, ?_, ?_⟩
    · have := cmpLoop_le t v w (dim - 1); omega
    · simpa only [mortonCmpInt, ITy.lt, decide_eq_true_eq] using hlt
  · rintro ⟨d, hd, hlt⟩
    rcases (C09_order_partial t dim h0 h1).2.2.2 v w (fun h' => by rw [h' d hd] at hlt; exact lt_irrefl _ hlt) with h' | h'
    · exact h'
    · rw [h'] at hw; exact absurd hw (by simp)

/-- C143, boxes: in the Morton order every vector of a box lies between the two corners of the box. -/
theorem C143_box (t : ITy) (dim : ℕ) (h0 : 0 < dim) (lo hi v : ℕ → BitVec t.w) (h1 : Dominated t dim lo v) (h2 : Dominated t dim v hi) :
    mortonCmpInt t dim v lo = false ∧ mortonCmpInt t dim hi v = false :=
  ⟨C143_never_after t dim h0 lo v h1, C143_never_after t dim h0 v hi h2⟩

/-- The converse is false: (1, 2) lies between the corners (0, 0) and (3, 1) in the Morton order, but not in their box... -/
example : mortonCmpInt .u8 2 (fun d => if d = 0 then 0#8 else 0#8) (fun d => if d = 0 then 1#8 else 2#8) = true ∧
    mortonCmpInt .u8 2 (fun d => if d = 0 then 1#8 else 2#8) (fun d => if d = 0 then 3#8 else 1#8) = true := by decide +kernel

/-- ... and with more dimensions than the counter can count the second part fails: the vectors differ in coordinate 256 only. -/
example : mortonCmpInt .u8 257 (fun _ => 0#8) (fun d => if d = 256 then 1#8 else 0#8) = false := by decide +kernel

example : mortonCmpInt .i8 2 (fun d => if d = 0 then -3#8 else 2#8) (fun d => if d = 0 then -3#8 else 5#8) = true := by decide +kernel

end Verif.Morton

namespace Verif.MortonFloat
open Verif.NumericTraits Verif.MortonFloat.Spec Verif.Morton

theorem cmpLoop_le (lax : Bool) (t : FTy) (v w : ℕ → BitVec t.w) (n : ℕ) {s : ℕ × XorF t.w} (h : cmpLoop lax t v w n = .ok s) : s.1 ≤ n := by
  induction n generalizing s with
  | zero =>
    simp only [cmpLoop] at h
    cases hx : xorFloat lax t (v 0) (w 0) with
    | error e => rw [hx] at h; cases h
    | ok x => rw [hx] at h; cases h; exact le_refl _
  | succ n ih =>
    simp only [cmpLoop] at h
    cases hl : cmpLoop lax t v w n with
    | error e => rw [hl] at h; cases h
    | ok s' =>
      rw [hl, bind_ok] at h
      cases hx : xorFloat lax t (v (n + 1)) (w (n + 1)) with
      | error e => rw [hx] at h; cases h
      | ok x =>
        rw [hx, bind_ok] at h
        have := ih hl
        simp only [pure, Except.pure, Except.ok.injEq] at h
        split at h <;> subst h <;> first | omega | exact le_refl _

/-- C143, first part, for floats and doubles, all bit patterns: if the comparison is defined, a vector is never after one that is nowhere smaller
(`t.lt` is the `<` of the floating-point type, false on NaN). -/
theorem C143_float_never_after (lax : Bool) (t : FTy) (dim : ℕ) (h0 : 0 < dim) (v w : ℕ → BitVec t.w)
    (h : ∀ d < dim, lt t (w d) (v d) = false) (b : Bool) (hb : mortonCmpFloat lax t dim w v = .ok b) : b = false := by
  unfold mortonCmpFloat at hb
  cases hl : cmpLoop lax t w v (dim - 1) with
  | error e => rw [hl] at hb; cases hb
  | ok s =>
    have := cmpLoop_le lax t w v (dim - 1) hl
    rw [hl, bind_ok] at hb
    cases hb
    exact h _ (by omega)

/-- C143, second part, on vectors of tame floats. -/
theorem C143_float_before (dim : ℕ) (h0 : 0 < dim) (v w : ℕ → BitVec 32) (hv : ∀ d < dim, Tame (v d)) (hw : ∀ d < dim, Tame (w d))
    (h : ∀ d < dim, scaled (v d) ≤ scaled (w d)) : Less true .f32 dim v w ↔ ∃ d < dim, scaled (v d) < scaled (w d) := by
  have hf : ∀ d < dim, (lt .f32 (w d) (v d) = true ↔ scaled (w d) < scaled (v d)) := fun d hd => by
    rw [lt_iff (tame_expo (hw d hd)) (tame_expo (hv d hd))]
    have h1 := biased_cast (tame_expo (hv d hd))
    have h2 := biased_cast (tame_expo (hw d hd))
    generalize (2 : ℤ) ^ 278 = K at h1 h2
    omega
  constructor
  · intro hl
    by_contra hc
    push Not at hc
    have he : ∀ d < dim, v d = w d := fun d hd => by
      apply tame_inj (hv d hd) (hw d hd)
      have h1 := biased_cast (tame_expo (hv d hd))
      have h2 := biased_cast (tame_expo (hw d hd))
      have := h d hd
      have := hc d hd
      generalize (2 : ℤ) ^ 278 = K at h1 h2
      omega
    have hzz := C143_float_never_after true .f32 dim h0 w v (fun d hd => by
      rw [he d hd]; unfold lt; simp) true hl
    exact absurd hzz (by simp)
  · rintro ⟨d, hd, hlt⟩
    rcases (C17_order_partial dim h0 v w w hv hw hw).2.2 with h' | h' | h'
    · exact h'
    · have := C143_float_never_after true .f32 dim h0 v w (fun d hd => by
        have h3 := (hf d hd).not.2 (not_lt.2 (h d hd))
        simpa using h3) true h'
      exact absurd this (by simp)
    · rw [h' d hd] at hlt; exact absurd hlt (lt_irrefl _)

/-- (1.5, -2.5) is before (1.5, 3). -/
example : Less true .f32 2 (v2 0x3FC00000#32 0xC0200000#32) (v2 0x3FC00000#32 0x40400000#32) := by
  unfold Less; decide +kernel

end Verif.MortonFloat
