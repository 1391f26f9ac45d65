import Verif.MortonTree.Items

/-! Property theorem C100 (see properties.jsonl): the exact boxes around a point that are right. -/
namespace Verif.MortonTree
open Verif NumericTraits

/-- The bounds of the type. -/
theorem inRange_iff (t : ITy) : ∃ lo hi : ℤ, hi = lo + 2 ^ t.w ∧ ∀ x, InRange t x ↔ lo ≤ x ∧ x < hi := by
  unfold InRange
  by_cases hs : t.signed = true
  · refine ⟨-2 ^ (t.w - 1), 2 ^ (t.w - 1), ?_, fun x => by rw [if_pos hs]⟩
    have : (2 : ℤ) ^ t.w = 2 * 2 ^ (t.w - 1) := by cases t <;> norm_num [ITy.w]
    rw [this]; ring
  · exact ⟨0, 2 ^ t.w, by ring, fun x => by rw [if_neg hs]⟩

theorem val_inRange (t : ITy) (x : BitVec t.w) : InRange t (t.val x) := by
  unfold InRange ITy.val
  split
  · have h1 := BitVec.le_toInt x
    have h2 := BitVec.toInt_lt (x := x)
    exact ⟨h1, h2⟩
  · refine ⟨by omega, ?_⟩
    have := x.isLt
    exact_mod_cast this

theorem val_wrap (t : ITy) (x : ℤ) : ∃ k : ℤ, t.val (BitVec.ofInt t.w x) = x + k * 2 ^ t.w := by
  unfold ITy.val
  split
  · rw [BitVec.toInt_ofInt]
    have h1 := Int.emod_bmod (x := x) (n := 2 ^ t.w)
    have h2 : ((2 ^ t.w : ℕ) : ℤ) ∣ Int.bmod x (2 ^ t.w) - x := Int.dvd_bmod_sub_self
    obtain ⟨k, hk⟩ := h2
    refine ⟨k, ?_⟩
    push_cast at hk
    linarith
  · rw [BitVec.toNat_ofInt]
    have hp : (0 : ℤ) < ((2 ^ t.w : ℕ) : ℤ) := by positivity
    have h0 := Int.emod_nonneg x hp.ne'
    rw [Int.toNat_of_nonneg h0]
    refine ⟨-(x / ((2 ^ t.w : ℕ) : ℤ)), ?_⟩
    have := Int.emod_add_mul_ediv x ((2 ^ t.w : ℕ) : ℤ)
    push_cast at *
    linarith

theorem boxLoop_wrap (t : ITy) (c : ℕ → BitVec t.w) (r : BitVec t.w) : ∀ (ds : List ℕ) (lo hi lo' hi' : ℕ → BitVec t.w),
    boxLoop t c r ds lo hi = .ok (lo', hi') →
      (∀ d, d ∈ ds → lo' d = BitVec.ofInt t.w (t.val (c d) - t.val r) ∧ hi' d = BitVec.ofInt t.w (t.val (c d) + t.val r)) ∧
      ∀ d, d ∉ ds → lo' d = lo d ∧ hi' d = hi d
  | [], lo, hi, lo', hi', h => by
    unfold boxLoop at h
    have h1 := Except.ok.inj h
    rw [Prod.mk.injEq] at h1
    obtain ⟨rfl, rfl⟩ := h1
    exact ⟨by simp, by simp⟩
  | d :: ds, lo, hi, lo', hi', h => by
    unfold boxLoop at h
    have ha : ∀ x y, arith t x = .ok y → y = BitVec.ofInt t.w x := by
      intro x y h
      unfold arith at h
      split at h
      · cases h
      · exact (Except.ok.inj h).symm
    cases e1 : arith t (t.val (c d) - t.val r) with
    | error e => rw [e1] at h; cases h
    | ok a =>
      cases e2 : arith t (t.val (c d) + t.val r) with
      | error e => rw [e1, e2] at h; cases h
      | ok b =>
        rw [e1, e2] at h
        obtain ⟨p1, p2⟩ := boxLoop_wrap t c r ds _ _ lo' hi' h
        refine ⟨fun k hk => ?_, fun k hk => ?_⟩
        · by_cases hd : k ∈ ds
          · exact p1 k hd
          · obtain rfl : k = d := by simpa [hd] using hk
            obtain ⟨q1, q2⟩ := p2 k hd
            simp only [if_true] at q1 q2
            exact ⟨q1.trans (ha _ _ e1), q2.trans (ha _ _ e2)⟩
        · have hd : k ∉ ds ∧ k ≠ d := by simp only [List.mem_cons, not_or] at hk; exact ⟨hk.2, hk.1⟩
          obtain ⟨q1, q2⟩ := p2 k hd.1
          rw [q1, q2]
          simp [hd.2]

/-- C100: for a range that is not negative the box is right exactly when all its corners are representable; for the other boxes the call is undefined or the
centre itself is outside of the box. -/
theorem C100_iff (t : ITy) (dim : ℕ) (c : ℕ → BitVec t.w) (r : BitVec t.w) (hr : 0 ≤ t.val r) :
    ((∃ lo hi, boxAround t dim c r = .ok (lo, hi) ∧ ∀ v, InBox t dim lo hi v ↔ Around t dim c r v) ↔
      ∀ d < dim, InRange t (t.val (c d) - t.val r) ∧ InRange t (t.val (c d) + t.val r)) ∧
    ((∃ lo hi, boxAround t dim c r = .ok (lo, hi) ∧ InBox t dim lo hi c) ↔
      ∀ d < dim, InRange t (t.val (c d) - t.val r) ∧ InRange t (t.val (c d) + t.val r)) := by
  have hself : Around t dim c r c := fun d _ => by simpa using hr
  have hmain : (∃ lo hi, boxAround t dim c r = .ok (lo, hi) ∧ InBox t dim lo hi c) →
      ∀ d < dim, InRange t (t.val (c d) - t.val r) ∧ InRange t (t.val (c d) + t.val r) := by
    rintro ⟨lo, hi, e, hb⟩ d hd
    obtain ⟨p, -⟩ := boxLoop_wrap t c r (List.range dim) _ _ lo hi e
    obtain ⟨p1, p2⟩ := p d (by simpa using hd)
    obtain ⟨b1, b2⟩ := hb d hd
    obtain ⟨m, M, hM, hin⟩ := inRange_iff t
    have hP : (0 : ℤ) < 2 ^ t.w := by positivity
    have v1 := (hin _).1 (val_inRange t (c d))
    have v2 := (hin _).1 (val_inRange t r)
    have v3 := (hin _).1 (val_inRange t (lo d))
    have v4 := (hin _).1 (val_inRange t (hi d))
    obtain ⟨k1, w1⟩ := val_wrap t (t.val (c d) - t.val r)
    obtain ⟨k2, w2⟩ := val_wrap t (t.val (c d) + t.val r)
    rw [← p1] at w1
    rw [← p2] at w2
    rw [hin, hin]
    have hm : m ≤ 0 := by
      by_contra hm
      have h0 := (hin 0).1 (by unfold InRange; split <;> exact ⟨by simp, by positivity⟩)
      omega
    have hrP : t.val r < 2 ^ t.w := by linarith [v2.2]
    refine ⟨⟨?_, by linarith [v1.2]⟩, by linarith [v1.1], ?_⟩
    · by_contra hlt
      have hk : 1 ≤ k1 := by
        by_contra hk
        have : k1 * 2 ^ t.w ≤ 0 := mul_nonpos_of_nonpos_of_nonneg (by omega) hP.le
        linarith [v3.1]
      have : (2 : ℤ) ^ t.w ≤ k1 * 2 ^ t.w := le_mul_of_one_le_left hP.le hk
      linarith
    · by_contra hlt
      have hk : k2 ≤ -1 := by
        by_contra hk
        have : 0 ≤ k2 * 2 ^ t.w := mul_nonneg (by omega) hP.le
        linarith [v4.2]
      have : k2 * 2 ^ t.w ≤ -1 * 2 ^ t.w := mul_le_mul_of_nonneg_right hk hP.le
      linarith
  refine ⟨⟨?_, C100_box_partial t dim c r⟩, hmain, fun h => ?_⟩
  · rintro ⟨lo, hi, e, hv⟩
    exact hmain ⟨lo, hi, e, (hv c).2 hself⟩
  · obtain ⟨lo, hi, e, hv⟩ := C100_box_partial t dim c r h
    exact ⟨lo, hi, e, (hv c).2 hself⟩

/-- The box of range 100 around 100 of type `int8_t` runs from 0 to -56. -/
example : ((boxAround .i8 1 (fun _ => 100#8) 100#8).toOption.map fun b => ((b.1 0).toInt, (b.2 0).toInt)) = some (0, -56) := by decide +kernel

end Verif.MortonTree
