import Verif.Grid.ReinitPlane

/-! Property theorem C67, exact form for grids of any number of dimensions (see properties.jsonl): which changes of size keep the values. -/
namespace Verif.Grid
open Verif Verif.Interval Verif.Interval.Spec

theorem initBounds_cons (m d : ℤ) (ms ds : List ℤ) : Interval.initBounds (m :: ms) (d :: ds) = ⟨m, d⟩ :: Interval.initBounds ms ds := rfl

/-- The lower corner is in the box. -/
theorem corner_mem (ms : List ℤ) : ∀ ds : List ℤ, ds.length = ms.length → (∀ d ∈ ds, 0 < d) → Mem (Interval.initBounds ms ds) ms ∧ rank (Interval.initBounds ms ds) ms = 0 := by
  induction ms with
  | nil =>
    intro ds h _
    obtain rfl := List.length_eq_zero_iff.1 h
    exact ⟨mem_nil.2 rfl, rank_nil _⟩
  | cons m ms ih =>
    intro ds h hp
    cases ds with
    | nil => simp at h
    | cons d ds =>
      have := hp d (by simp)
      obtain ⟨h1, h2⟩ := ih ds (by simpa using h) (fun x hx => hp x (List.mem_cons_of_mem _ hx))
      rw [initBounds_cons]
      refine ⟨mem_cons_cons.2 ⟨⟨le_refl _, by simp only; omega⟩, h1⟩, ?_⟩
      rw [rank_cons, h2]
      simp

/-- Multiples of the positions in two boxes with the same lower corner. -/
theorem rank_agree (ms : List ℤ) : ∀ (ds es : List ℤ) (a b : ℤ), ds.length = ms.length → es.length = ms.length → (∀ d ∈ ds, 0 < d) → (∀ e ∈ es, 0 < e) →
    ((∀ is, Mem (Interval.initBounds ms ds) is → Mem (Interval.initBounds ms es) is → a * rank (Interval.initBounds ms ds) is = b * rank (Interval.initBounds ms es) is) ↔
      ∀ k, 1 < ds.getD k 0 → 1 < es.getD k 0 → a * (ds.take k).prod = b * (es.take k).prod) := by
  induction ms with
  | nil =>
    intro ds es a b h1 h2 _ _
    obtain rfl := List.length_eq_zero_iff.1 h1
    obtain rfl := List.length_eq_zero_iff.1 h2
    refine ⟨fun _ k hk => by simp at hk, fun _ is _ _ => ?_⟩
    show a * rank [] is = b * rank [] is
    rw [rank_nil, mul_zero, mul_zero]
  | cons m ms ih =>
    intro ds es a b h1 h2 p1 p2
    cases ds with
    | nil => simp at h1
    | cons d ds =>
      cases es with
      | nil => simp at h2
      | cons e es =>
        have hd := p1 d (by simp)
        have he := p2 e (by simp)
        have q1 : ∀ x ∈ ds, 0 < x := fun x hx => p1 x (List.mem_cons_of_mem _ hx)
        have q2 : ∀ x ∈ es, 0 < x := fun x hx => p2 x (List.mem_cons_of_mem _ hx)
        have l1 : ds.length = ms.length := by simpa using h1
        have l2 : es.length = ms.length := by simpa using h2
        have hi := ih ds es (a * d) (b * e) l1 l2 q1 q2
        rw [initBounds_cons, initBounds_cons]
        constructor
        · intro h k hk1 hk2
          cases k with
          | zero =>
            obtain ⟨c1, c2⟩ := corner_mem ms ds l1 q1
            obtain ⟨c3, c4⟩ := corner_mem ms es l2 q2
            rw [List.getD_cons_zero] at hk1 hk2
            have := h ((m + 1) :: ms) (mem_cons_cons.2 ⟨⟨by simp only; omega, by simp only; omega⟩, c1⟩) (mem_cons_cons.2 ⟨⟨by simp only; omega, by simp only; omega⟩, c3⟩)
            rw [rank_cons, rank_cons, c2, c4] at this
            simpa using this
          | succ k =>
            rw [List.getD_cons_succ] at hk1 hk2
            rw [List.take_succ_cons, List.take_succ_cons, List.prod_cons, List.prod_cons, ← mul_assoc, ← mul_assoc]
            refine hi.1 (fun is m1 m2 => ?_) k hk1 hk2
            have := h (m :: is) (mem_cons_cons.2 ⟨⟨le_refl _, by simp only; omega⟩, m1⟩) (mem_cons_cons.2 ⟨⟨le_refl _, by simp only; omega⟩, m2⟩)
            rw [rank_cons, rank_cons] at this
            simp only [sub_self, zero_add] at this
            rw [mul_assoc, mul_assoc]
            exact this
        · intro h is m1 m2
          obtain ⟨i, js, rfl, b1, m1⟩ := mem_cons.1 m1
          obtain ⟨b2, m2⟩ := mem_cons_cons.1 m2
          have r := hi.2 (fun k hk1 hk2 => by
            have := h (k + 1) (by rwa [List.getD_cons_succ]) (by rwa [List.getD_cons_succ])
            rwa [List.take_succ_cons, List.take_succ_cons, List.prod_cons, List.prod_cons, ← mul_assoc, ← mul_assoc] at this) js m1 m2
          rw [rank_cons, rank_cons, mul_add, mul_add, ← mul_assoc, ← mul_assoc, r]
          simp only at b1 b2 ⊢
          by_cases hi0 : i = m
          · rw [hi0, sub_self, mul_zero, mul_zero]
          · have := h 0 (by rw [List.getD_cons_zero]; omega) (by rw [List.getD_cons_zero]; omega)
            simp only [List.take_zero, List.prod_nil, mul_one] at this
            rw [this]

theorem dims_of_proper (ms : List ℤ) : ∀ ds : List ℤ, ds.length = ms.length → Proper (Interval.initBounds ms ds) → ∀ d ∈ ds, 0 < d := by
  induction ms with
  | nil =>
    intro ds h _
    obtain rfl := List.length_eq_zero_iff.1 h
    simp
  | cons m ms ih =>
    intro ds h hp
    cases ds with
    | nil => simp
    | cons d ds =>
      rw [initBounds_cons] at hp
      intro x hx
      rcases List.mem_cons.1 hx with rfl | hx
      · exact (hp ⟨m, x⟩ (by simp)).1
      · exact ih ds (by simpa using h) (fun a ha => hp a (List.mem_cons_of_mem _ ha)) x hx

/-- C67 in any number of dimensions, with the same lower corner: a change of the dimensions from `ds` to `es` keeps the values of the common cells, or clears all, exactly when, for every axis of which both sizes are at
least 2, the products of the dimensions of the axes before are the same. -/
theorem C67_space_iff (maxSize : ℕ) (ms ds es : List ℤ) (hds : ds.length = ms.length) (hes : es.length = ms.length)
    (hD : Proper (Interval.initBounds ms ds)) (hDc : card (Interval.initBounds ms ds) ≤ 2147483647)
    (hp : Proper (Interval.initBounds ms es)) (hc : card (Interval.initBounds ms es) ≤ 2147483647) (hm : card (Interval.initBounds ms es) ≤ maxSize) :
    (∀ g g' : Grid ℕ, Valid g → g.domain = Interval.initBounds ms ds → initBounds maxSize 0 g ms es = .ok g' →
      (∀ is, Mem g'.domain is → read g' is = .ok 0) ∨ (∀ is, Mem g.domain is → Mem g'.domain is → read g' is = read g is)) ↔
    ∀ k, 1 < ds.getD k 0 → 1 < es.getD k 0 → (ds.take k).prod = (es.take k).prod := by
  rw [C67_iff maxSize _ hD hDc ms es hp hc hm]
  have := rank_agree ms ds es 1 1 hds hes (dims_of_proper ms ds hds hD) (dims_of_proper ms es hes hp)
  simpa only [one_mul] using this

/-- Example: from 2 × 3 × 2 to 3 × 2 × 2 the cells of the second row move, those of the second layer do not. -/
example : ((do
    let g ← initBounds 100 0 (new 0 3) [0, 0, 0] [2, 3, 2]
    let g ← write g [0, 1, 0] 7
    let g ← write g [1, 0, 1] 8
    let a ← initBounds 100 0 g [0, 0, 0] [3, 2, 2]
    return (← read a [0, 1, 0], ← read a [2, 0, 0], ← read a [1, 0, 1]) : Outcome (ℕ × ℕ × ℕ))) = .ok (0, 7, 8) := by decide +kernel

end Verif.Grid
