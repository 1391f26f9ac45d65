import Verif.MortonFloat.AgreeProps

/-! Property theorems for C71 and C154 (see properties.jsonl): `mortonDistanceFloat` with negative powers of two among the operands, and on integers. -/
namespace Verif.MortonFloat
open Verif.NumericTraits Verif.MortonFloat.Spec Verif.Morton

/-- C71 on regular and aligned floats, among them the integers of at most 24 bits: the distance is defined, at least -127, and at most `L` exactly if in every coordinate the
exact values fall into the same cell of size 2^(L+1). Missing: the other floats. -/
theorem C71_aligned_partial (lax : Bool) (v w : ℕ → BitVec 32) (n : ℕ) (hv : ∀ d < n, Regular (v d)) (hw : ∀ d < n, Regular (w d))
    (hs : ∀ d < n, lax = true ∨ Safe (v d) (w d)) (ha : ∀ d < n, Aligned (v d) (w d) ∧ Aligned (w d) (v d)) :
    ∃ r, mortonDistanceFloat lax .f32 v w n = .ok r ∧ -127 ≤ r ∧
      ∀ L : ℤ, -127 ≤ L → (r ≤ L ↔ ∀ d < n, Morton.Spec.SameCell (L + 151).toNat (biased (v d)) (biased (w d))) := by
  induction n with
  | zero => exact ⟨-127, rfl, le_refl _, fun L hL => ⟨fun _ d hd => absurd hd (Nat.not_lt_zero d), fun _ => hL⟩⟩
  | succ n ih =>
    obtain ⟨r, h1, h2, h3⟩ := ih (fun d hd => hv d (by omega)) (fun d hd => hw d (by omega)) (fun d hd => hs d (by omega)) (fun d hd => ha d (by omega))
    obtain ⟨x, hx, he, -⟩ := good_xor' lax (hv n (by omega)) (hw n (by omega)) (hs n (by omega)) (ha n (by omega)).1 (ha n (by omega)).2
    have hlev := lev_regular (hv n (by omega)) (hw n (by omega))
    have hstep : mortonDistanceFloat lax .f32 v w (n + 1) = .ok (if x.exponentDiff > r then x.exponentDiff else r) := by
      rw [mortonDistanceFloat, h1, bind_ok, hx, bind_ok]; rfl
    refine ⟨_, hstep, ?_, ?_⟩
    · split <;> omega
    · intro L hL
      have hcell : x.exponentDiff ≤ L ↔ Morton.Spec.SameCell (L + 151).toNat (biased (v n)) (biased (w n)) := by
        rw [← size_xor_le, he]
        show _ ↔ lev (v n) (w n) ≤ _
        split <;> omega
      have h4 := h3 L hL
      constructor
      · intro h d hd
        have hr : r ≤ L := by split at h <;> omega
        have hxl : x.exponentDiff ≤ L := by split at h <;> omega
        rcases Nat.lt_or_ge d n with h' | h'
        · exact h4.1 hr d h'
        · rw [show d = n by omega]; exact hcell.1 hxl
      · intro h
        have hr := h4.2 fun d hd => h d (by omega)
        have hxl := hcell.2 (h n (by omega))
        split <;> omega

-- -8 and -3, which `C71_distance_partial` does not cover, are in the same cell of size 8 (from -8 to 0): distance 2
example : mortonDistanceFloat false .f32 (v2 0xC1000000#32 0#32) (v2 0xC0400000#32 0#32) 2 = .ok 2 := by decide +kernel

theorem same_safe {t : ITy} {p : ℕ} {x y : BitVec t.w} {a b : BitVec 32} (ha : Same t p x a) (hb : Same t p y b) (hp : 47 ≤ p) (hx : |t.val x| < 2 ^ 24)
    (hy : |t.val y| < 2 ^ 24) : Safe a b := by
  unfold Safe
  by_cases h1 : neg a = false
  · exact Or.inl h1
  · by_cases h2 : neg b = false
    · exact Or.inr (Or.inl h2)
    · have h3 := same_expo ha hp hx (by simpa using h1)
      have h4 := same_expo hb hp hy (by simpa using h2)
      exact Or.inr (Or.inr (by omega))

/-- C154 for the distances: that of the floats is -127 if the integer points are equal, 128 if they differ in the sign of a coordinate, and otherwise the distance of the
integers plus the exponent of the resolution 2^(p - 150), minus one. -/
theorem C154_distance (lax : Bool) (t : ITy) (p dim : ℕ) (v w : ℕ → BitVec t.w) (fv fw : ℕ → BitVec 32) (hp : 47 ≤ p) (hp' : p ≤ 214)
    (hv : ∀ d < dim, Same t p (v d) (fv d) ∧ |t.val (v d)| < 2 ^ 24) (hw : ∀ d < dim, Same t p (w d) (fw d) ∧ |t.val (w d)| < 2 ^ 24) :
    mortonDistanceFloat lax .f32 fv fw dim = .ok (if mortonDistanceInt t dim v w = 0 then -127 else
      if t.signed = true ∧ mortonDistanceInt t dim v w = t.w then 128 else mortonDistanceInt t dim v w + ((p : ℤ) - 150) - 1) := by
  have hw64 : t.w ≤ 64 := by cases t <;> decide
  have hwp := w_pos t
  obtain ⟨r, h1, h2, h3⟩ := C71_aligned_partial lax fv fw dim (fun d hd => same_regular (hv d hd).1 hp) (fun d hd => same_regular (hw d hd).1 hp)
    (fun d hd => Or.inr (same_safe (hv d hd).1 (hw d hd).1 hp (hv d hd).2 (hw d hd).2))
    (fun d hd => ⟨same_aligned (hv d hd).1 (hw d hd).1 hp (hv d hd).2, same_aligned (hw d hd).1 (hv d hd).1 hp (hw d hd).2⟩)
  rw [h1]
  congr 1
  have hsz : ∀ d, (Morton.Spec.bias t (v d) ^^^ Morton.Spec.bias t (w d)).size ≤ t.w := fun d => by
    rw [Nat.size_le]; exact Nat.xor_lt_two_pow (bias_lt t _) (bias_lt t _)
  have hlift : ∀ d < dim, (biased (fv d) ^^^ biased (fw d)).size = lift t p (Morton.Spec.bias t (v d) ^^^ Morton.Spec.bias t (w d)).size :=
    fun d hd => size_lift (hv d hd).1 (hw d hd).1 (by omega)
  unfold mortonDistanceInt
  have hD0 := distLoop_nonneg t v w dim
  have hDw : distLoop t v w dim ≤ t.w := by
    rw [distLoop_le]
    refine ⟨by omega, fun d _ => ?_⟩
    rw [Int.toNat_natCast, ← size_xor_le]; exact hsz d
  obtain ⟨k, hk⟩ := Int.eq_ofNat_of_zero_le hD0
  rw [hk] at hDw ⊢
  have hkw : k ≤ t.w := by exact_mod_cast hDw
  have hcells := (distLoop_le t v w dim _).1 (le_refl _)
  have hle : r ≤ max 24 (lift t p k : ℤ) - 151 := by
    rw [h3 _ (by omega)]
    intro d hd
    have h5 := hcells.2 d hd
    rw [hk, ← size_xor_le] at h5
    rw [← size_xor_le, hlift d hd]
    have h6 : lift t p (Morton.Spec.bias t (v d) ^^^ Morton.Spec.bias t (w d)).size ≤ lift t p k := by
      by_contra hc
      rw [not_le, lift_lt (by omega) hkw (hsz d)] at hc
      have : (Int.toNat (Int.ofNat k)) = k := rfl
      omega
    omega
  have hge : k ≠ 0 → (lift t p k : ℤ) - 151 ≤ r := by
    intro hk0
    by_contra hc
    have h48 : 48 ≤ lift t p k := by
      unfold lift
      split_ifs <;> omega
    have h5 := (h3 ((lift t p k : ℤ) - 152) (by omega)).1 (by omega)
    have h6 : distLoop t v w dim ≤ (k : ℤ) - 1 := by
      rw [distLoop_le]
      refine ⟨by omega, fun d hd => ?_⟩
      have h7 := h5 d hd
      rw [← size_xor_le, hlift d hd] at h7
      rw [← size_xor_le]
      have h8 : lift t p (Morton.Spec.bias t (v d) ^^^ Morton.Spec.bias t (w d)).size < lift t p k := by omega
      rw [lift_lt (by omega) (hsz d) hkw] at h8
      omega
    rw [hk] at h6
    have : (Int.ofNat k : ℤ) = k := rfl
    omega
  rcases Nat.eq_zero_or_pos k with rfl | hk0
  · rw [if_pos Nat.cast_zero]
    have : lift t p 0 = 0 := if_pos rfl
    omega
  · have hge' := hge (by omega)
    rw [if_neg (by omega)]
    have hl : lift t p k = if t.signed = true ∧ k = t.w then 279 else k + p := by unfold lift; rw [if_neg (by omega)]
    by_cases hc : t.signed = true ∧ k = t.w
    · rw [if_pos hc] at hl
      rw [if_pos ⟨hc.1, by exact_mod_cast hc.2⟩]
      omega
    · rw [if_neg hc] at hl
      rw [if_neg (fun h => hc ⟨h.1, by exact_mod_cast h.2⟩)]
      omega

-- the points (1, 9) and (7, 30) of `C12_ultrametric` as floats, res = 1 (p = 150): 5 - 1 = 4
example : mortonDistanceFloat false .f32 (v2 0x3F800000#32 0x41100000#32) (v2 0x40E00000#32 0x41F00000#32) 2 = .ok 4 ∧
    mortonDistanceInt .i32 2 (v2 1#32 9#32) (v2 7#32 30#32) = 5 := by decide +kernel

end Verif.MortonFloat
