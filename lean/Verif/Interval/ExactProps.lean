import Verif.Interval.Props

/-! Property theorems C31, C32 and C36 (see properties.jsonl): the exact sets of intervals on which the code is right. -/
namespace Verif.Interval
open Verif Spec

/-- The last cell of a box. -/
def lastCell (iv : Interval) : List ℤ := iv.map fun a => a.min + a.dim - 1

theorem lastCell_mem {iv : Interval} (h : ∀ a ∈ iv, 0 < a.dim) : Mem iv (lastCell iv) := by
  induction iv with
  | nil => exact List.Forall₂.nil
  | cons a iv ih =>
    have := h a (by simp)
    exact List.Forall₂.cons ⟨by simp only; omega, by simp only; omega⟩ (ih fun b hb => h b (by simp [hb]))

theorem lastCell_rank {iv : Interval} : rank iv (lastCell iv) = card iv - 1 := by
  induction iv with
  | nil => simp [rank, card]
  | cons a iv ih =>
    rw [lastCell, List.map_cons, rank_cons, ← lastCell, ih, card_cons]
    ring

theorem lastCell_overflow {iv : Interval} (h : Proper iv) (hc : card iv ≤ 2147483647)
    (hs : ¬ ∀ a jv, a :: jv <:+ iv → a.min + card (a :: jv) - 1 ≤ 2147483647) : rasterGetPos iv (lastCell iv) = .error (.ub .overflow) := by
  induction iv with
  | nil => exact absurd (fun a jv e => by simp at e) hs
  | cons a iv ih =>
    have hle := card_tail_le h
    have hc' := le_trans hle hc
    unfold rasterGetPos
    rw [lastCell, List.map_cons, ← lastCell]
    by_cases ht : ∀ b jv, b :: jv <:+ iv → b.min + card (b :: jv) - 1 ≤ 2147483647
    · have ha : ¬ a.min + card (a :: iv) - 1 ≤ 2147483647 := by
        intro ha
        refine hs fun b jv hb => ?_
        rcases List.suffix_cons_iff.1 hb with e | e
        · rw [e]
          simp only [List.cons.injEq] at e
          rw [e.1]
          exact ha
        · exact ht b jv e
      obtain ⟨p0, p1, p2, p3⟩ := h a (by simp)
      have hcp := card_pos h.tail.pos
      simp only [rasterGetPos_ok h.tail hc' ht (lastCell_mem h.tail.pos), lastCell_rank, bind, Except.bind]
      rw [card_cons] at ha hc
      have e1 : (card iv - 1) * a.dim = a.dim * card iv - a.dim := by ring
      have e2 : 0 ≤ (card iv - 1) * a.dim := mul_nonneg (by omega) p0.le
      rw [int_ok (z := (card iv - 1) * a.dim) (by unfold I32 at *; omega)]
      simp only
      rw [int_bad (by unfold I32 at *; omega)]
    · simp only [ih h.tail hc' ht, bind, Except.bind]

/-- C31, `RasterIndexer`: exactly on the boxes of `C31_dynamic_partial` every cell has its position; on each other box the position of the last cell
overflows. -/
theorem C31_dynamic_iff (iv : Interval) (h : Proper iv) (hc : card iv ≤ 2147483647) :
    ((∀ is, Mem iv is → rasterGetPos iv is = .ok (rank iv is)) ↔ ∀ a jv, a :: jv <:+ iv → a.min + card (a :: jv) - 1 ≤ 2147483647) ∧
    ((∃ is, Mem iv is ∧ rasterGetPos iv is ≠ .ok (rank iv is)) →
      rasterGetPos iv (iv.map fun a => a.min + a.dim - 1) = .error (.ub .overflow)) := by
  refine ⟨⟨fun H => ?_, fun hs is hm => rasterGetPos_ok h hc hs hm⟩, ?_⟩
  · by_contra hs
    have h1 := lastCell_overflow h hc hs
    rw [H _ (lastCell_mem h.pos)] at h1
    exact absurd h1 (by simp)
  · rintro ⟨is, hm, hne⟩
    exact lastCell_overflow h hc fun hs => hne (rasterGetPos_ok h hc hs hm)

/-- C32: exactly on these boxes the two indexers agree on all the cells. -/
theorem C32_iff (iv : Interval) (h : Proper iv) (hc : card iv ≤ 2147483647) :
    (∀ is, Mem iv is → staticGetPos iv is = rasterGetPos iv is) ↔ ∀ a jv, a :: jv <:+ iv → a.min + card (a :: jv) - 1 ≤ 2147483647 := by
  rw [← (C31_dynamic_iff iv h hc).1]
  refine forall_congr' fun is => forall_congr' fun hm => ?_
  rw [staticGetPos_ok h hc hm]
  exact eq_comm

example : rasterGetPos [⟨2147473648, 100⟩, ⟨0, 100⟩] [2147473747, 99] = .ok 9999 ∧
    rasterGetPos [⟨2147473649, 100⟩, ⟨0, 100⟩] [2147473748, 99] = .error (.ub .overflow) := by decide +kernel

theorem initMinMax_overflow {ms xs : List ℤ} (hl : ms.length = xs.length) (hu : List.Forall₂ (fun m x => x - m + 1 ≤ 2147483647) ms xs)
    (h : ¬ List.Forall₂ (fun m x : ℤ => -2147483648 ≤ x - m) ms xs) : initMinMax ms xs = .error (.ub .overflow) := by
  induction hu with
  | nil => exact absurd List.Forall₂.nil h
  | @cons m x ms xs h1 _ ih =>
    unfold initMinMax
    by_cases hx : -2147483648 ≤ x - m
    · have := ih (by simpa using hl) fun ht => h (List.Forall₂.cons hx ht)
      rw [int_ok (z := x - m) (by unfold I32; omega)]
      simp only [bind, Except.bind]
      rw [int_ok (z := x - m + 1) (by unfold I32; omega)]
      simp only [this]
    · rw [int_bad (by unfold I32; omega)]
      rfl

/-- C36, `intersect`: for intervals with cells the result is right exactly when in each coordinate the gap between the two fits an `int`, otherwise the
computation overflows. (`C36_intersect_partial` covers the intervals without cells.) -/
theorem C36_intersect_iff (iv jv : Interval) (hl : iv.length = jv.length) (h : Spec.Repr iv) (h' : Spec.Repr jv)
    (hi : ∃ is, Mem iv is) (hj : ∃ is, Mem jv is) :
    ((∃ r, intersect iv jv = .ok r ∧ ∀ is, Mem r is ↔ Mem iv is ∧ Mem jv is) ↔
      List.Forall₂ (fun (a b : Axis) => Max.max a.min b.min - Min.min (a.min + a.dim - 1) (b.min + b.dim - 1) ≤ 2147483648) iv jv) ∧
    ((¬ ∃ r, intersect iv jv = .ok r) → intersect iv jv = .error (.ub .overflow)) := by
  rw [exists_mem_iff] at hi hj
  have hiff : ∀ a b : Axis, (Max.max a.min b.min - Min.min (a.min + a.dim - 1) (b.min + b.dim - 1) ≤ 2147483648 ↔
      -2147483648 ≤ Min.min (a.min + a.dim) (b.min + b.dim) - 1 - Max.max a.min b.min) := fun a b => by omega
  have hover : ¬ List.Forall₂ (fun (a b : Axis) => -2147483648 ≤ Min.min (a.min + a.dim) (b.min + b.dim) - 1 - Max.max a.min b.min) iv jv →
      intersect iv jv = .error (.ub .overflow) := by
    intro hd
    unfold intersect
    rw [not_empty hi, not_empty hj, intersectLoop_ok hi hj h h' hl]
    simp only [Bool.false_eq_true, if_false, bind, Except.bind]
    rw [initMinMax_overflow (by simp [hl])]
    · clear hd
      induction iv generalizing jv with
      | nil => cases jv with
        | nil => exact List.Forall₂.nil
        | cons b jv => simp at hl
      | cons a iv ih =>
        match jv, hl with
        | b :: jv, hl =>
          obtain ⟨a1, a2, a3⟩ := h a (by simp)
          obtain ⟨b1, b2, b3⟩ := h' b (by simp)
          refine List.Forall₂.cons ?_ (ih jv (by simpa using hl) (fun c hc => h c (by simp [hc])) (fun c hc => h' c (by simp [hc]))
            (fun c hc => hi c (by simp [hc])) (fun c hc => hj c (by simp [hc])))
          simp only; unfold I32 at *; omega
    · intro hf
      refine hd ?_
      clear hd h h' hi hj
      induction iv generalizing jv with
      | nil => cases jv with
        | nil => exact List.Forall₂.nil
        | cons b jv => simp at hl
      | cons a iv ih =>
        match jv, hl with
        | b :: jv, hl =>
          simp only [List.zipWith_cons_cons, List.forall₂_cons] at hf
          exact List.Forall₂.cons hf.1 (ih jv (by simpa using hl) hf.2)
  have hcongr : List.Forall₂ (fun (a b : Axis) => Max.max a.min b.min - Min.min (a.min + a.dim - 1) (b.min + b.dim - 1) ≤ 2147483648) iv jv ↔
      List.Forall₂ (fun (a b : Axis) => -2147483648 ≤ Min.min (a.min + a.dim) (b.min + b.dim) - 1 - Max.max a.min b.min) iv jv :=
    ⟨fun H => H.imp fun a b => (hiff a b).1, fun H => H.imp fun a b => (hiff a b).2⟩
  rw [hcongr]
  constructor
  · refine ⟨fun ⟨r, hr, _⟩ => ?_, C36_intersect_partial iv jv hl h h'⟩
    by_contra hd
    rw [hover hd] at hr
    exact absurd hr (by simp)
  · intro hn
    refine hover fun hd => hn ?_
    obtain ⟨r, hr, _⟩ := C36_intersect_partial iv jv hl h h' hd
    exact ⟨r, hr⟩

example : intersect [⟨-2147483648, 1⟩] [⟨0, 1⟩] = .ok [⟨0, 0⟩] ∧ intersect [⟨-2147483648, 1⟩] [⟨1, 1⟩] = .error (.ub .overflow) := by decide +kernel

end Verif.Interval
