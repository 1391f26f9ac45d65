import Verif.Interval.BackModel
import Verif.Interval.Props

/-! Property C124: the iterators move in both directions. -/
namespace Verif.Interval
open Spec

variable {ix : Interval → ℤ → Outcome (List ℤ)} {iv : Interval} {f : ℤ → List ℤ}

theorem prev_ok {it : Iter} {is : List ℤ} (h : I32 (it.pos - 1)) (hi : ix iv (it.pos - 1) = .ok is) : it.prev ix iv = .ok ⟨it.pos - 1, is⟩ := by
  rw [Iter.prev, int_ok h]
  show (ix iv (it.pos - 1)).bind _ = _
  rw [hi]; rfl

theorem backLoop_ok {N : ℕ} (hN : (N : ℤ) ≤ 2147483647) (hix : ∀ p : ℤ, 0 ≤ p → p ≤ N → ix iv p = .ok (f p)) :
    ∀ (k fuel : ℕ) (is : List ℤ) (b : Iter), b.pos = 0 → k ≤ N → k < fuel →
      backLoop ix iv b fuel ⟨k, is⟩ = .ok ((List.range k).map fun j => f (j : ℕ)).reverse := by
  intro k
  induction k with
  | zero =>
    intro fuel is b hb hk hf
    obtain ⟨fuel, rfl⟩ : ∃ m, fuel = m + 1 := ⟨fuel - 1, by omega⟩
    unfold backLoop
    rw [if_neg (by simp [hb])]
    rfl
  | succ k ih =>
    intro fuel is b hb hk hf
    obtain ⟨fuel, rfl⟩ : ∃ m, fuel = m + 1 := ⟨fuel - 1, by omega⟩
    have hc : ((k + 1 : ℕ) : ℤ) - 1 = k := by omega
    have hp : Iter.prev ix iv ⟨((k + 1 : ℕ) : ℤ), is⟩ = .ok ⟨(k : ℤ), f k⟩ := by
      have := prev_ok (ix := ix) (iv := iv) (it := ⟨((k + 1 : ℕ) : ℤ), is⟩) (is := f k) (by unfold I32; simp only; omega) (by simp only [hc]; exact hix _ (by omega) (by omega))
      simpa only [hc] using this
    unfold backLoop
    rw [if_pos (by simp only [hb]; omega), hp]
    show (backLoop ix iv b fuel ⟨k, f k⟩).bind _ = _
    rw [ih fuel _ b hb (by omega) (by omega), List.range_succ, List.map_append, List.reverse_append]
    rfl

theorem postLoop_eq (e : Iter) (fuel : ℕ) (it : Iter) : postLoop ix iv e fuel it = visitLoop ix iv e fuel it := by
  induction fuel generalizing it with
  | zero => rfl
  | succ fuel ih =>
    unfold postLoop visitLoop
    split_ifs with h
    · rw [Iter.postNext]
      cases hn : it.next ix iv with
      | error e => rfl
      | ok nx =>
        show (postLoop ix iv e fuel nx).bind _ = (visitLoop ix iv e fuel nx).bind _
        rw [ih nx]
    · rfl

theorem visitBack_ok (h : Proper iv) (hc : card iv ≤ 2147483647) (hix : ∀ p : ℤ, 0 ≤ p → I32 p → ix iv p = .ok (f p)) (fuel : ℕ) (hf : card iv < fuel) :
    visitBack ix iv fuel = .ok ((List.range (card iv).toNat).map fun j => f (j : ℕ)).reverse := by
  have hs := size_ok h hc
  have hpos := card_pos h.pos
  unfold visitBack begin «end» Iter.mk'
  rw [ofSize_small (by omega), hs]
  simp only [not_empty h.pos, Bool.not_false, if_true]
  rw [hix 0 (le_refl _) (by unfold I32; omega), hix (card iv) hpos.le (by unfold I32; omega)]
  have := backLoop_ok (ix := ix) (iv := iv) (f := f) (N := (card iv).toNat) (by omega) (fun p h0 hp => hix p h0 (by unfold I32; omega))
    (card iv).toNat fuel (f (card iv)) ⟨0, f 0⟩ rfl le_rfl (by omega)
  rw [Int.toNat_of_nonneg hpos.le] at this
  exact this

/-- What C124 says of an indexing policy: backwards the same cells are visited in the reverse order; with the postfix operator in the same order; `++` moves from the iterator of a position to that of the
next one and `--` back; the postfix operators return the iterator before the move. -/
def Bidirectional (ix : Interval → ℤ → Outcome (List ℤ)) : Prop :=
  ∀ iv, Proper iv → card iv ≤ 2147483647 →
    (∀ fuel : ℕ, card iv < fuel → ∃ L, visit ix iv fuel = .ok L ∧ visitBack ix iv fuel = .ok L.reverse ∧ visitPost ix iv fuel = .ok L) ∧
      ∀ p, 0 ≤ p → p < card iv → ∃ a b, Iter.mk' ix iv p = .ok a ∧ Iter.mk' ix iv (p + 1) = .ok b ∧ a.pos = p ∧ b.pos = p + 1 ∧ a.next ix iv = .ok b ∧ b.prev ix iv = .ok a ∧
        a.postNext ix iv = .ok (a, b) ∧ b.postPrev ix iv = .ok (b, a)

theorem bidirectional_of (f : Interval → ℤ → List ℤ) (hix : ∀ iv, Proper iv → ∀ p : ℤ, 0 ≤ p → I32 p → ix iv p = .ok (f iv p)) : Bidirectional ix := by
  intro iv h hc
  refine ⟨fun fuel hf => ⟨_, visit_ok h hc (hix iv h) fuel hf, visitBack_ok h hc (hix iv h) fuel hf, ?_⟩, fun p h0 hp => ?_⟩
  · rw [← visit_ok h hc (hix iv h) fuel hf]
    unfold visitPost visit
    simp only [postLoop_eq]
  · have h1 := hix iv h p h0 (by unfold I32; omega)
    have h2 := hix iv h (p + 1) (by omega) (by unfold I32; omega)
    have e1 : Iter.mk' ix iv p = .ok ⟨p, f iv p⟩ := by
      unfold Iter.mk'
      rw [not_empty h.pos, h1]; rfl
    have e2 : Iter.mk' ix iv (p + 1) = .ok ⟨p + 1, f iv (p + 1)⟩ := by
      unfold Iter.mk'
      rw [not_empty h.pos, h2]; rfl
    have e3 : Iter.next ix iv ⟨p, f iv p⟩ = .ok ⟨p + 1, f iv (p + 1)⟩ := next_ok (int_ok (by unfold I32; simp only; omega)) h2
    have e4 : Iter.prev ix iv ⟨p + 1, f iv (p + 1)⟩ = .ok ⟨p, f iv p⟩ := by
      have := prev_ok (ix := ix) (iv := iv) (it := ⟨p + 1, f iv (p + 1)⟩) (is := f iv p) (by unfold I32; simp only; omega) (by simpa using h1)
      simpa using this
    exact ⟨_, _, e1, e2, rfl, rfl, e3, e4, by rw [Iter.postNext, e3]; rfl, by rw [Iter.postPrev, e4]; rfl⟩

/-- C124: the iterators of both orders move in both directions. -/
theorem C124_bidirectional : Bidirectional rasterGetIndices ∧ Bidirectional boustroGetIndices :=
  ⟨bidirectional_of (fun iv p => cell p iv) fun _ h _ h0 hp => rasterGetIndices_ok h h0 hp, bidirectional_of (fun iv p => fold iv (digits p iv)) fun _ h _ h0 hp => boustroGetIndices_ok h h0 hp⟩

-- the cells of a box of 2 * 3 backwards
example : visitBack rasterGetIndices [⟨-1, 2⟩, ⟨5, 3⟩] 7 = .ok [[0, 7], [-1, 7], [0, 6], [-1, 6], [0, 5], [-1, 5]] := by decide +kernel
example : visitBack boustroGetIndices [⟨-1, 2⟩, ⟨5, 3⟩] 7 = .ok [[0, 7], [-1, 7], [-1, 6], [0, 6], [0, 5], [-1, 5]] := by decide +kernel
example : visitPost boustroGetIndices [⟨-1, 2⟩, ⟨5, 3⟩] 7 = .ok [[-1, 5], [0, 5], [0, 6], [-1, 6], [-1, 7], [0, 7]] := by decide +kernel

end Verif.Interval
