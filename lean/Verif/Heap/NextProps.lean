import Verif.Heap.Props

/-! Property theorem C21 (see properties.jsonl): the exact heaps for which `nextTop` and `nextBottom` are right. -/
namespace Verif.Heap
open Verif Spec
variable {α : Type}

theorem nextTop_iff {β : Type} [LinearOrder β] (key : α → β) (cmp : α → α → Bool) (hc : ∀ x y, cmp x y = true ↔ key x < key y)
    (v : Vec α) (ho : Ordered v.len true (fun j => key (v.val j))) (hl : v.len = 4 ∨ v.len = 5) :
    NextTopRight cmp v ↔ ∃ j, 3 ≤ j ∧ j < v.len ∧ key (v.val j) ≤ key (v.val 2) := by
  have hcf : ∀ x y, cmp x y = false ↔ key y ≤ key x := by
    intro x y
    rw [← not_lt, ← hc, Bool.not_eq_true]
  obtain ⟨ig, j1, j2, j3, -⟩ := grandchildBest_ok (fun a b => cmp a b) v 0
  have hb := grandchildBest_best key (fun a b => cmp a b) hc v 0 j1
  have hb' : ∀ c, 3 ≤ c → c ≤ 6 → c < v.len → key (v.val ig) ≤ key (v.val c) := fun c c1 c2 c3 =>
    hb c c3 (by omega) (by rw [grandparent_eq]; omega)
  have hlt := j3 (by omega)
  have h3 : 3 ≤ ig := by omega
  have he : nextTop cmp v = .ok (v.val ig) := by
    unfold nextTop
    rw [if_neg (by omega), if_neg (by omega), if_neg (by omega), grandchildMin, j1]
    exact Vec.get_nat v hlt
  have ht : top v = .ok (v.val 0) := by unfold top; rw [if_neg (by omega)]; exact Vec.get_nat v (i := 0) (by omega)
  constructor
  · rintro ⟨a, t, x, x', e1, e2, e3, ⟨-, q⟩, -, e5⟩
    obtain rfl : v.val 0 = a := Except.ok.inj (ht.symm.trans e1)
    obtain rfl : v.val ig = x := Except.ok.inj (he.symm.trans e3)
    rw [content_erase v (i := 0) (by omega), Multiset.cons_inj_right] at e2
    subst e2
    refine ⟨ig, h3, hlt, ?_⟩
    have h5 := (hcf _ _).1 (e5 (v.val 2) (rest_mem v (by omega) (by omega)))
    exact le_trans ((hcf _ _).1 q) h5
  · rintro ⟨j, a1, a2, a3⟩
    refine ⟨v.val 0, _, v.val ig, v.val ig, ht, content_erase v (i := 0) (by omega), he, ⟨(hcf _ _).2 (le_refl _), (hcf _ _).2 (le_refl _)⟩,
      rest_mem v hlt (by omega), ?_⟩
    intro y hy
    obtain ⟨i, hi, hi0, rfl⟩ := mem_rest hy
    refine (hcf _ _).2 ?_
    by_cases e1 : i = 1
    · subst e1
      exact le_trans (hb' 3 (by omega) (by omega) (by omega)) ((ho 1 3 (by omega) (Or.inl ⟨by omega, rfl⟩)).of_ne (by rw [par_one]; simp))
    · by_cases e2 : i = 2
      · subst e2
        exact le_trans (hb' j a1 (by omega) a2) a3
      · exact hb' i (by omega) (by omega) hi

theorem nextBottom_iff {β : Type} [LinearOrder β] (key : α → β) (cmp : α → α → Bool) (hc : ∀ x y, cmp x y = true ↔ key x < key y)
    (v : Vec α) (ho : Ordered v.len true (fun j => key (v.val j))) (hl : 4 ≤ v.len) :
    NextBottomRight cmp v ↔ ∀ j, 3 ≤ j → j < v.len → key (v.val j) ≤ key (v.val 1) ∧ key (v.val j) ≤ key (v.val 2) := by
  have hcf : ∀ x y, cmp x y = false ↔ key y ≤ key x := by
    intro x y
    rw [← not_lt, ← hc, Bool.not_eq_true]
  obtain ⟨i, b1, b2, -, b4⟩ := bottom_eq cmp v (by omega)
  have hi := b4 (by omega)
  obtain ⟨im, m1, m2, m3, m4⟩ := childBest_ok (fun a b => cmp b a) v 0
  obtain rfl : im = i := Except.ok.inj (m1.symm.trans hi)
  have hmax := childMax_best key cmp hc v hi
  obtain ⟨ic, c1, c2, c3, -⟩ := childBest_ok (fun a b => cmp a b) v 0
  have hmin := childBest_best key (fun a b => cmp a b) hc v 0 c1
  have hmin' : ∀ j, 0 < j → j ≤ 2 → key (v.val ic) ≤ key (v.val j) := fun j a b => hmin j (by omega) a (by rw [parent_eq]; omega)
  obtain ⟨o, o1, o2, o3⟩ : ∃ o, 0 < o ∧ o ≤ 2 ∧ o ≠ im := by
    rcases m2 with rfl | rfl
    · exact ⟨2, by omega, by omega, by omega⟩
    · exact ⟨1, by omega, by omega, by omega⟩
  have heq : key (v.val ic) = key (v.val o) := by
    refine le_antisymm (hmin' o o1 o2) ?_
    by_cases e : ic = o
    · rw [e]
    · have : ic = im := by omega
      rw [this]; exact hmax o (by omega) o1 o2
  have he : nextBottom cmp v = .ok (v.val ic) := by
    unfold nextBottom; rw [if_neg (by omega), if_neg (by omega), childMin, c1]; exact Vec.get_nat v (c3 (by omega))
  constructor
  · rintro ⟨a, t, x, x', e1, e2, e3, ⟨q, -⟩, -, e5⟩ j h3 hj
    obtain rfl : v.val im = a := Except.ok.inj (b1.symm.trans e1)
    obtain rfl : v.val ic = x := Except.ok.inj (he.symm.trans e3)
    rw [content_erase v b2, Multiset.cons_inj_right] at e2
    subst e2
    have h5 := (hcf _ _).1 (e5 (v.val j) (rest_mem v hj (by omega)))
    have h6 := le_trans h5 ((hcf _ _).1 q)
    exact ⟨le_trans h6 (hmin' 1 (by omega) (by omega)), le_trans h6 (hmin' 2 (by omega) (by omega))⟩
  · intro h
    refine ⟨_, _, v.val ic, v.val o, b1, content_erase v b2, he, ⟨(hcf _ _).2 heq.ge, (hcf _ _).2 heq.le⟩, rest_mem v (by omega) o3, ?_⟩
    intro y hy
    obtain ⟨j, hj, hj0, rfl⟩ := mem_rest hy
    refine (hcf _ _).2 ?_
    rcases Nat.eq_zero_or_pos j with rfl | hjp
    · exact ordered_min ho o (by omega)
    · by_cases h3 : 3 ≤ j
      · obtain ⟨p, q⟩ := h j h3 hj
        obtain rfl | rfl : o = 1 ∨ o = 2 := by omega
        · exact p
        · exact q
      · rw [show j = o by omega]

/-- C21, exactly: after any history without ties when `popTop` is called, `nextTop()` is right unless the heap has four or five elements and the one at position
2 is before those at positions 3 and 4; `nextBottom()` is right, from four elements on, if and only if no element of the lower levels is after one of the two at
positions 1 and 2. -/
theorem C21_iff (cmp : α → α → Bool) (z : α) (hw : StrictWeak cmp) (h : List (Op α)) (hs : Safe 0 h) (ht : NoTiesAtPopTop cmp (Vec.empty z) h) :
    ∃ v, run cmp z h = .ok v ∧
      (2 ≤ v.len → (NextTopRight cmp v ↔ ¬ ((v.len = 4 ∨ v.len = 5) ∧ ∀ j, 3 ≤ j → j < v.len → cmp (v.val 2) (v.val j) = true))) ∧
      (2 ≤ v.len → (NextBottomRight cmp v ↔ ∀ j, 3 ≤ j → j < v.len → cmp (v.val 1) (v.val j) = false ∧ cmp (v.val 2) (v.val j) = false)) := by
  obtain ⟨β, _, key, hc⟩ := key_exists hw
  obtain ⟨v, h1, ho⟩ := run_ordered key cmp hc h (Vec.empty z) (ordered_empty key z) hs ht
  have hcf : ∀ x y, cmp x y = false ↔ key y ≤ key x := by
    intro x y
    rw [← not_lt, ← hc, Bool.not_eq_true]
  refine ⟨v, h1, fun h2 => ?_, fun h2 => ?_⟩
  · by_cases hl : v.len = 4 ∨ v.len = 5
    · rw [nextTop_iff key cmp hc v ho hl]
      constructor
      · rintro ⟨j, a1, a2, a3⟩ ⟨-, hn⟩
        have := (hc _ _).1 (hn j a1 a2)
        exact absurd a3 (not_le.2 this)
      · intro hn
        by_contra hx
        refine hn ⟨hl, fun j a1 a2 => (hc _ _).2 (not_le.1 fun a3 => hx ⟨j, a1, a2, a3⟩)⟩
    · exact ⟨fun _ hn => hl hn.1, fun _ => nextTop_ordered key cmp hc v ho (by omega)⟩
  · by_cases hl : 4 ≤ v.len
    · rw [nextBottom_iff key cmp hc v ho hl]
      simp only [hcf]
    · exact ⟨fun _ j a1 a2 => absurd a2 (by omega), fun _ => nextBottom_ordered key cmp hc v ho (by omega)⟩

/-- A heap of five elements with both results right, and one with both wrong. -/
example : (do
    let v ← (run ltNat 0 [.push 0, .push 8, .push 9, .push 1, .push 2]).toOption
    let x ← (nextTop ltNat v).toOption
    let y ← (nextBottom ltNat v).toOption
    return (v.toList, x, y)) = some ([0, 8, 9, 1, 2], 1, 8) ∧ (do
    let v ← (run ltNat 0 [.push 0, .push 9, .push 5, .push 8, .push 7]).toOption
    let x ← (nextTop ltNat v).toOption
    let y ← (nextBottom ltNat v).toOption
    return (v.toList, x, y)) = some ([0, 9, 5, 8, 7], 7, 5) := by decide +kernel

end Verif.Heap
