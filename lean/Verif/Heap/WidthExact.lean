import Verif.Heap.WidthProps

/-! Property theorem C132, exact bound (see properties.jsonl). -/
namespace Verif.Heap
open Verif Spec

variable {α : Type}

/-- Every operation adds at most one element. -/
theorem len_le_ops (cmp : α → α → Bool) (h : List (Op α)) : ∀ v v' : Vec α, h.foldlM (step cmp) v = .ok v' → v'.len ≤ v.len + h.length := by
  induction h with
  | nil =>
    intro v v' e
    obtain rfl := Except.ok.inj e
    simp
  | cons o h ih =>
    intro v v' e
    have hs : ∀ w, step cmp v o = .ok w → w.len ≤ v.len + 1 := by
      intro w hw
      cases o with
      | push x =>
        obtain ⟨w', e1, e2, -⟩ := push_content cmp v x
        obtain rfl := Except.ok.inj (e1.symm.trans hw)
        omega
      | popTop =>
        by_cases hl : v.len = 0
        · have hw' : popTop cmp v = .ok w := hw
          simp [popTop, hl] at hw'
        · obtain ⟨x, w', -, e1, e2, -⟩ := popTop_content cmp v hl
          obtain rfl := Except.ok.inj (e1.symm.trans hw)
          omega
      | popBottom =>
        by_cases hl : v.len = 0
        · have hw' : popBottom cmp v = .ok w := hw
          simp [popBottom, hl] at hw'
        · obtain ⟨x, w', -, e1, e2, -⟩ := popBottom_content cmp v hl
          obtain rfl := Except.ok.inj (e1.symm.trans hw)
          omega
    rw [List.foldlM_cons] at e
    cases hw : step cmp v o with
    | error err => rw [hw] at e; cases e
    | ok w =>
      rw [hw] at e
      have := ih w v' e
      have := hs w hw
      rw [List.length_cons]
      omega

/-- C132, exact bound: both ends are right after all the histories (without `popTop`) during which the heap has at most `n` elements if and only if `n` is at most 2^31. -/
theorem C132_size_iff (n : ℕ) :
    (∀ (α : Type) (cmp : α → α → Bool) (z : α), StrictWeak cmp → ∀ h : List (Op α), Safe 0 h → Op.popTop ∉ h → (∀ h1 h2 v, h = h1 ++ h2 → run cmp z h1 = .ok v → v.len ≤ n) →
      ∃ v, runW cmp z h = .ok v ∧ (v.len ≠ 0 → (∃ x, top v = .ok x ∧ IsFirst cmp (content v) x) ∧ ∃ y, bottom cmp v = .ok y ∧ IsLast cmp (content v) y)) ↔
    n ≤ 2147483648 := by
  constructor
  · intro hst
    by_contra hn
    obtain ⟨m, hm⟩ : ∃ m : ℕ, m = 2147483648 := ⟨_, rfl⟩
    obtain ⟨v, e1, e2, e3, e4⟩ := many_pushes m (by omega) (by omega)
    obtain ⟨w, f1, f2⟩ := hst ℕ ltNat 0 ltNat_strictWeak (List.replicate m (.push 1) ++ [.push 0]) (pushes_safe m 0 1 [.push 0] fun _ => trivial)
      (by simp [List.mem_append, List.mem_replicate]) (by
        intro h1 h2 v he hv
        have h3 := len_le_ops ltNat h1 _ _ hv
        have h4 := congrArg List.length he
        simp only [List.length_append, List.length_replicate, List.length_cons, List.length_nil] at h4
        have h5 : (Vec.empty (0 : ℕ)).len = 0 := rfl
        omega)
    obtain rfl : v = w := Except.ok.inj (e1.symm.trans f1)
    obtain ⟨⟨x, g1, g2⟩, -⟩ := f2 (by omega)
    obtain rfl : 1 = x := Except.ok.inj (e3.symm.trans g1)
    exact absurd (g2.2 0 e4) (by decide)
  · intro hn α cmp z hw h hs ht hm
    exact C132_order_partial cmp z hw h hs ht fun h1 h2 v e hv => le_trans (hm h1 h2 v e hv) hn

/-- Example: with few elements, the pushes and pops of the code. -/
example : (match runW ltNat 0 [.push 4, .push 2, .push 9, .popBottom, .push 1] with
    | .ok v => (match top v, bottom ltNat v with
      | .ok x, .ok y => some (x, y)
      | _, _ => none)
    | .error _ => none) = some (1, 4) := by decide +kernel

end Verif.Heap
