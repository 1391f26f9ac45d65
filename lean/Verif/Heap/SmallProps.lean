import Verif.Heap.Props

/-! Property theorem C20, exact bound of the number of elements (see properties.jsonl): ties are harmless in small heaps. -/
namespace Verif.Heap
open Verif Spec

variable {α : Type}

/-- Without children nothing is moved. -/
theorem loop_stop (better : α → α → Bool) (cont : Bool) (fuel : ℕ) (w : Vec α) (i : ℕ) (h : w.len ≤ 2 * i + 1) : heapDownLoop better cont (fuel + 1) w i = .ok w := by
  by_cases hi : i < w.len
  · obtain ⟨ic, c1, -, -, c2⟩ := childBest_ok better w i
    obtain ⟨ig, g1, -, -, g2⟩ := grandchildBest_ok better w i
    obtain ⟨ic', ig', c1', g1', hs⟩ := heapDown_step better cont fuel w i hi
    obtain rfl : ic = ic' := Except.ok.inj (c1.symm.trans c1')
    obtain rfl : ig = ig' := Except.ok.inj (g1.symm.trans g1')
    have h1 := c2 h
    have h2 := g2 (by omega)
    rcases hs with ⟨hg, -⟩ | ⟨-, ⟨hc, -⟩ | ⟨-, e⟩⟩
    · omega
    · omega
    · exact e
  · rw [heapDownLoop, if_neg hi]
    rfl

/-- With at most four elements, the fourth of which is not greater than the second one after the first was replaced, it does not matter if the loop goes on from the child. -/
theorem loop_small (better : α → α → Bool) (fuel : ℕ) (w : Vec α) (hl : w.len ≤ 4) (h : w.len = 4 → better (w.val 1) (w.val 0) = false) :
    heapDownLoop better true (fuel + 2) w 0 = heapDownLoop better false (fuel + 2) w 0 := by
  by_cases hi : 0 < w.len
  · obtain ⟨ic, c1, c2, -⟩ := childBest_ok better w 0
    obtain ⟨ig, g1, ⟨g2, -⟩, -⟩ := grandchildBest_ok better w 0
    obtain ⟨ic', ig', c1', g1', h1⟩ := heapDown_step better true (fuel + 1) w 0 hi
    obtain rfl : ic = ic' := Except.ok.inj (c1.symm.trans c1')
    obtain rfl : ig = ig' := Except.ok.inj (g1.symm.trans g1')
    obtain ⟨ic', ig', c1', g1', h2⟩ := heapDown_step better false (fuel + 1) w 0 hi
    obtain rfl : ic = ic' := Except.ok.inj (c1.symm.trans c1')
    obtain rfl : ig = ig' := Except.ok.inj (g1.symm.trans g1')
    rcases h1 with ⟨a1, a2, a3, ⟨a4, e1⟩ | ⟨a4, e1⟩⟩ | ⟨a, ⟨a1, a2, e1⟩ | ⟨a1, e1⟩⟩
    · rcases h2 with ⟨-, -, -, ⟨-, e2⟩ | ⟨b4, -⟩⟩ | ⟨b, -⟩
      · rw [e1, e2]
        have hb : w.len ≤ 2 * ig + 1 := by omega
        exact (loop_stop better true fuel (sw (sw w 0 ig) (parent ig) ig) ig hb).trans (loop_stop better false fuel (sw (sw w 0 ig) (parent ig) ig) ig hb).symm
      · exact absurd a4 b4
      · exact absurd ⟨a1, a2, a3⟩ b
    · rcases h2 with ⟨-, -, -, ⟨b4, -⟩ | ⟨-, e2⟩⟩ | ⟨b, -⟩
      · exact absurd b4 a4
      · rw [e1, e2]
        have hb : w.len ≤ 2 * ig + 1 := by omega
        exact (loop_stop better true fuel (sw w 0 ig) ig hb).trans (loop_stop better false fuel (sw w 0 ig) ig hb).symm
      · exact absurd ⟨a1, a2, a3⟩ b
    · rcases h2 with ⟨b1, b2, b3, -⟩ | ⟨-, ⟨-, -, e2⟩ | ⟨b1, -⟩⟩
      · exact absurd ⟨b1, b2, b3⟩ a
      · rw [if_pos rfl] at e1
        rw [if_neg (by simp)] at e2
        rw [e1, e2]
        refine loop_stop _ _ _ _ _ (show w.len ≤ _ from ?_)
        by_contra hcon
        have hic : ic = 1 := by omega
        rw [hic, h (by omega)] at a2
        cases a2
      · exact absurd ⟨a1, a2⟩ b1
    · rcases h2 with ⟨b1, b2, b3, -⟩ | ⟨-, ⟨b1, b2, -⟩ | ⟨-, e2⟩⟩
      · exact absurd ⟨b1, b2, b3⟩ a
      · exact absurd ⟨b1, b2⟩ a1
      · rw [e1, e2]
  · rw [loop_stop _ _ _ _ _ (by omega), loop_stop _ _ _ _ _ (by omega)]

variable {β : Type} [LinearOrder β]

/-- `popTop` of a heap of at most five elements, ties allowed. -/
theorem popTop_small (key : α → β) (cmp : α → α → Bool) (hc : ∀ x y, cmp x y = true ↔ key x < key y) (v : Vec α)
    (h : Ordered v.len true (fun j => key (v.val j))) (hl : v.len ≠ 0) (h5 : v.len ≤ 5) :
    ∃ v', popTop cmp v = .ok v' ∧ Ordered v'.len true (fun j => key (v'.val j)) := by
  unfold popTop
  rw [if_neg hl, show (((v.len : ℕ) : ℕ) - 1 : ℕ) = v.len - 1 from rfl, swap_ok (by omega) (by omega)]
  simp only [bind_ok]
  unfold heapDownMin
  have hlen : (popBack (sw v 0 (v.len - 1))).len = v.len - 1 := rfl
  have hval : ∀ j, j ≠ 0 → j < v.len - 1 → (popBack (sw v 0 (v.len - 1))).val j = v.val j := by
    intro j h1 h2
    simp only [popBack, sw]
    rw [Equiv.swap_apply_of_ne_of_ne h1 (by omega)]
  have hval0 : (popBack (sw v 0 (v.len - 1))).val 0 = v.val (v.len - 1) := by
    simp only [popBack, sw]
    rw [Equiv.swap_apply_left]
  have hpre : DownPre (popBack (sw v 0 (v.len - 1))).len true (fun j => key ((popBack (sw v 0 (v.len - 1))).val j)) 0 := by
    refine ⟨?_, fun h => by omega⟩
    intro u w hw hb hu
    have hlt := below_gt hb
    rw [hlen] at hw
    have := h u w (by omega) hb
    unfold Le at this ⊢
    beta_reduce at this ⊢
    rw [hval u hu (by omega), hval w (by omega) hw]
    exact this
  obtain ⟨v', r1, -, r3⟩ := heapDown_ordered key (fun a b => cmp a b) hc false true
    ((popBack (sw v 0 (v.len - 1))).len + 1) (popBack (sw v 0 (v.len - 1))) 0 (by omega) (by omega) par_zero hpre (by
      intro h; cases h)
  refine ⟨v', ?_, r3⟩
  rw [← r1]
  by_cases h1 : v.len = 1
  · rw [loop_stop _ _ _ _ _ (by omega), loop_stop _ _ _ _ _ (by omega)]
  · rw [hlen, show v.len - 1 + 1 = (v.len - 2) + 2 by omega]
    refine loop_small _ _ _ (by omega) fun h4 => ?_
    have e5 : v.len = 5 := by omega
    rw [hval 1 (by omega) (by omega), hval0]
    have hb := (h 1 4 (by omega) (Or.inl ⟨by omega, by rw [parent_eq]⟩)).of_ne (by rw [par_parent (by omega), show parent 1 = 0 from rfl, par_zero]; simp)
    rw [e5]
    by_contra hcon
    have := (hc _ _).1 (by simpa using hcon)
    beta_reduce at hb
    order

/-- No more elements than were pushed. -/
theorem len_le_pushed (cmp : α → α → Bool) (h : List (Op α)) : ∀ v v' : Vec α, h.foldlM (step cmp) v = .ok v' → v'.len ≤ v.len + Multiset.card (pushed h) := by
  induction h with
  | nil =>
    intro v v' e
    obtain rfl := Except.ok.inj e
    simp
  | cons o h ih =>
    intro v v' e
    rw [List.foldlM_cons] at e
    cases hw : step cmp v o with
    | error err => rw [hw] at e; cases e
    | ok w =>
      rw [hw] at e
      have hi := ih w v' e
      cases o with
      | push x =>
        obtain ⟨w', e1, e2, -⟩ := push_content cmp v x
        obtain rfl := Except.ok.inj (e1.symm.trans hw)
        simp only [pushed, Multiset.card_cons]
        omega
      | popTop =>
        by_cases hl : v.len = 0
        · have hw' : popTop cmp v = .ok w := hw
          simp [popTop, hl] at hw'
        · obtain ⟨x, w', -, e1, e2, -⟩ := popTop_content cmp v hl
          obtain rfl := Except.ok.inj (e1.symm.trans hw)
          simp only [pushed]
          omega
      | popBottom =>
        by_cases hl : v.len = 0
        · have hw' : popBottom cmp v = .ok w := hw
          simp [popBottom, hl] at hw'
        · obtain ⟨x, w', -, e1, e2, -⟩ := popBottom_content cmp v hl
          obtain rfl := Except.ok.inj (e1.symm.trans hw)
          simp only [pushed]
          omega

theorem run_small (key : α → β) (cmp : α → α → Bool) (hc : ∀ x y, cmp x y = true ↔ key x < key y) (h : List (Op α)) :
    ∀ v : Vec α, Ordered v.len true (fun j => key (v.val j)) → Safe v.len h → (∀ h1 h2 w, h = h1 ++ h2 → h1.foldlM (step cmp) v = .ok w → w.len ≤ 5) →
      ∃ w, h.foldlM (step cmp) v = .ok w ∧ Ordered w.len true (fun j => key (w.val j)) := by
  induction h with
  | nil => intro v ho _ _; exact ⟨v, rfl, ho⟩
  | cons o t ih =>
    intro v ho hs ht
    have next : ∀ v1, step cmp v o = .ok v1 → ∀ h1 h2 w, t = h1 ++ h2 → h1.foldlM (step cmp) v1 = .ok w → w.len ≤ 5 := by
      intro v1 h1 a b w e hw
      exact ht (o :: a) b w (by rw [e]; rfl) ((foldlM_cons (step cmp) _ v1 _ _ h1).trans hw)
    cases o with
    | push x =>
      obtain ⟨v1, h1, o1⟩ := push_ordered key cmp hc v x ho
      obtain ⟨v1', h1', l1, -⟩ := push_content cmp v x
      obtain rfl : v1' = v1 := Except.ok.inj (h1'.symm.trans h1)
      obtain ⟨w, e1, e2⟩ := ih v1' o1 (by rw [l1]; exact hs) (next v1' h1)
      exact ⟨w, (foldlM_cons (step cmp) v v1' (.push x) _ h1).trans e1, e2⟩
    | popTop =>
      have hl : v.len ≠ 0 := by have := hs.1; omega
      obtain ⟨v1, h1, o1⟩ := popTop_small key cmp hc v ho hl (ht [] (.popTop :: t) v rfl rfl)
      obtain ⟨x, v1', -, h1', l1, -⟩ := popTop_content cmp v hl
      obtain rfl : v1' = v1 := Except.ok.inj (h1'.symm.trans h1)
      obtain ⟨w, e1, e2⟩ := ih v1' o1 (by rw [l1]; exact hs.2) (next v1' h1)
      exact ⟨w, (foldlM_cons (step cmp) v v1' .popTop _ h1).trans e1, e2⟩
    | popBottom =>
      have hl : v.len ≠ 0 := by have := hs.1; omega
      obtain ⟨v1, h1, o1⟩ := popBottom_ordered key cmp hc v ho hl
      obtain ⟨x, v1', -, h1', l1, -⟩ := popBottom_content cmp v hl
      obtain rfl : v1' = v1 := Except.ok.inj (h1'.symm.trans h1)
      obtain ⟨w, e1, e2⟩ := ih v1' o1 (by rw [l1]; exact hs.2) (next v1' h1)
      exact ⟨w, (foldlM_cons (step cmp) v v1' .popBottom _ h1).trans e1, e2⟩

/-- C20, exact bound: with ties and removals at both ends in any order, `top` and `bottom` are right after all the histories during which the heap has at most `n` elements if and only if `n` is at most 5. -/
theorem C20_size_iff (n : ℕ) :
    (∀ (α : Type) (cmp : α → α → Bool) (z : α), StrictWeak cmp → ∀ h : List (Op α), Safe 0 h → (∀ h1 h2 v, h = h1 ++ h2 → run cmp z h1 = .ok v → v.len ≤ n) →
      ∃ v, run cmp z h = .ok v ∧ (v.len ≠ 0 → (∃ x, top v = .ok x ∧ IsFirst cmp (content v) x) ∧ ∃ y, bottom cmp v = .ok y ∧ IsLast cmp (content v) y)) ↔
    n ≤ 5 := by
  constructor
  · intro hst
    by_contra hn
    obtain ⟨-, ⟨hs, w, y, e1, e2, e3⟩, -⟩ := C20_violated
    obtain ⟨v, f1, f2⟩ := hst ℕ ltNat 0 ltNat_strictWeak badBottom hs (by
      intro h1 h2 v he hv
      have h3 := len_le_pushed ltNat h1 _ _ hv
      have h4 : Multiset.card (pushed (h1 ++ h2)) = 6 := by rw [← he]; rfl
      rw [pushed_append, Multiset.card_add] at h4
      have h5 : (Vec.empty (0 : ℕ)).len = 0 := rfl
      omega)
    obtain rfl : w = v := Except.ok.inj (e1.symm.trans f1)
    by_cases hl : w.len = 0
    · rw [bottom, if_pos hl] at e2
      cases e2
    · obtain ⟨-, y', g1, g2⟩ := f2 hl
      obtain rfl : y = y' := Except.ok.inj (e2.symm.trans g1)
      exact e3 g2
  · intro hn α cmp z hw h hs hm
    obtain ⟨β, _, key, hc⟩ := key_exists hw
    obtain ⟨v, h1, h2⟩ := run_small key cmp hc h (Vec.empty z) (ordered_empty key z) hs fun h1 h2 w e hw => le_trans (hm h1 h2 w e hw) hn
    exact ⟨v, h1, fun hl => ⟨top_ordered key cmp hc v h2 hl, bottom_ordered key cmp hc v h2 hl⟩⟩

/-- Example: five elements with ties, removals at both ends. -/
example : (match run ltNat 0 [.push 1, .push 1, .push 5, .push 1, .push 3, .popTop, .push 1, .popTop, .popBottom] with
    | .ok v => (match top v, bottom ltNat v with
      | .ok x, .ok y => some (x, y)
      | _, _ => none)
    | .error _ => none) = some (1, 3) := by decide +kernel

end Verif.Heap
