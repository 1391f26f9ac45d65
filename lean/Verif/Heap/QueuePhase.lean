import Verif.Heap.QueueProps
import Verif.Heap.SortProps

/-! Property theorem C172, ties with removals at both ends (see properties.jsonl): removals at the top come last. -/
namespace Verif.Heap
open Verif Spec

variable {α : Type}

/-- **C172** with ties, for histories in which the removals at the top come last. Missing: ties and other operations after a removal at the top, see `C172_violated`. -/
theorem C172_phases_partial (cmp : α → α → Bool) (z : α) (hw : StrictWeak cmp) (h : List (Op α)) (n : ℕ) (ht : Op.popTop ∉ h) (hs : Safe 0 (h ++ List.replicate n Op.popTop)) :
    ∃ l, trace cmp (h ++ List.replicate n Op.popTop) (Vec.empty z) = .ok l ∧ Queue cmp 0 (h ++ List.replicate n Op.popTop) l := by
  obtain ⟨β, _, key, hc⟩ := key_exists hw
  have tops : ∀ (n : ℕ) (v : Vec α), MinOrd v.len (fun j => key (v.val j)) → Safe v.len (List.replicate n (Op.popTop : Op α)) →
      ∃ l, trace cmp (List.replicate n Op.popTop) v = .ok l ∧ Queue cmp (content v) (List.replicate n Op.popTop) l := by
    intro n
    induction n with
    | zero => intro v _ _; exact ⟨[], rfl, .nil _⟩
    | succ n ih =>
      intro v ho hs
      rw [List.replicate_succ] at hs ⊢
      have hl : v.len ≠ 0 := by have := hs.1; omega
      obtain ⟨x, v', e1, e2, e3, e4⟩ := popTop_content cmp v hl
      obtain ⟨x', g1, g2⟩ := top_minOrd key cmp hc v ho hl
      obtain rfl := Except.ok.inj (g1.symm.trans e1)
      obtain ⟨v1, f1, -, f2⟩ := popTop_minOrd key cmp hc v ho hl
      obtain rfl := Except.ok.inj (f1.symm.trans e2)
      obtain ⟨l, d1, d2⟩ := ih v1 f2 (by rw [e3]; exact hs.2)
      refine ⟨x' :: l, ?_, ?_⟩
      · unfold trace
        rw [e1, bind_ok, e2, bind_ok, d1]
        rfl
      · rw [e4] at g2 ⊢
        exact .popTop g2 d2
  have main : ∀ (h : List (Op α)) (v : Vec α), Ordered v.len true (fun j => key (v.val j)) → Safe v.len (h ++ List.replicate n Op.popTop) → Op.popTop ∉ h →
      ∃ l, trace cmp (h ++ List.replicate n Op.popTop) v = .ok l ∧ Queue cmp (content v) (h ++ List.replicate n Op.popTop) l := by
    intro h
    induction h with
    | nil => intro v ho hs _; exact tops n v ho.minOrd hs
    | cons o h ih =>
      intro v ho hs ht
      rw [List.mem_cons, not_or] at ht
      rw [List.cons_append] at hs ⊢
      cases o with
      | push x =>
        obtain ⟨v', e1, e2, e3⟩ := push_content cmp v x
        obtain ⟨v1, f1, f2⟩ := push_ordered key cmp hc v x ho
        obtain rfl := Except.ok.inj (f1.symm.trans e1)
        obtain ⟨l, d1, d2⟩ := ih v1 f2 (by rw [e2]; exact hs) ht.2
        refine ⟨l, ?_, .push (e3 ▸ d2)⟩
        unfold trace
        rw [e1, bind_ok, d1]
      | popTop => exact absurd rfl ht.1
      | popBottom =>
        have hl : v.len ≠ 0 := by have := hs.1; omega
        obtain ⟨x, v', e1, e2, e3, e4⟩ := popBottom_content cmp v hl
        obtain ⟨x', g1, g2⟩ := bottom_ordered key cmp hc v ho hl
        obtain rfl := Except.ok.inj (g1.symm.trans e1)
        obtain ⟨v1, f1, f2⟩ := popBottom_ordered key cmp hc v ho hl
        obtain rfl := Except.ok.inj (f1.symm.trans e2)
        obtain ⟨l, d1, d2⟩ := ih v1 f2 (by rw [e3]; exact hs.2) ht.2
        refine ⟨x' :: l, ?_, ?_⟩
        · unfold trace
          rw [e1, bind_ok, e2, bind_ok, d1]
          rfl
        · rw [e4] at g2 ⊢
          exact .popBottom g2 d2
  have := main h (Vec.empty z) (ordered_empty key z) hs ht
  rwa [content_empty] at this

/-- Example: ties, removals at the bottom between the insertions, then at the top. -/
example : (match trace ltNat ([.push 1, .push 1, .push 5, .popBottom, .push 3, .push 1, .push 3, .popBottom] ++ List.replicate 3 .popTop) (Vec.empty 0) with | .ok l => some l | .error _ => none) =
    some [5, 3, 1, 1, 1] := by decide +kernel

end Verif.Heap
