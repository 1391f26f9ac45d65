import Verif.Heap.SortProps

/-! Property theorem C137, ties at both ends (see properties.jsonl): first the bottoms, then the tops. -/
namespace Verif.Heap
open Verif Spec

variable {α : Type}

/-- **C137** with ties, when nothing is taken out at the bottom after the first element taken out at the top. Missing: ties and removals at the bottom after removals at the top, see `C137_violated`. -/
theorem C137_phases_partial (cmp : α → α → Bool) (z : α) (hw : StrictWeak cmp) (xs : List α) (s : List Bool) (hl : s.length = xs.length) (h : s.Pairwise fun a b => a = true → b = true) :
    ∃ v l, pushAll cmp z xs = .ok v ∧ drain cmp s v = .ok l ∧ l.Perm xs ∧ l.Pairwise fun x y => cmp y x = false := by
  obtain ⟨β, _, key, hc⟩ := key_exists hw
  obtain ⟨v, h1, h2, h3, h4⟩ := pushAll_ordered key cmp hc z xs
  have main : ∀ (s : List Bool) (v : Vec α), (s.Pairwise fun a b => a = true → b = true) → s.length = v.len → Ordered v.len true (fun j => key (v.val j)) →
      ∃ l, drain cmp s v = .ok l ∧ (l : Multiset α) = content v ∧ l.Pairwise fun x y => cmp y x = false := by
    intro s
    induction s with
    | nil =>
      intro v _ hl hv
      exact drain_sorted cmp (fun _ => True) (fun _ => False) (fun h => h.elim) (fun h => h.elim) [] (by simp) v trivial hl
    | cons b s ih =>
      intro v hs hl hv
      have hs' := List.pairwise_cons.1 hs
      cases b with
      | true =>
        refine drain_sorted cmp (fun v => MinOrd v.len (fun j => key (v.val j))) (fun b => b = true) ?_ (by intro h; cases h) _
          (fun b hb => ?_) v hv.minOrd hl
        · intro _ v hv hl
          refine ⟨top_minOrd key cmp hc v hv hl, fun v' hv' => ?_⟩
          obtain ⟨w, e1, -, e2⟩ := popTop_minOrd key cmp hc v hv hl
          rwa [← Except.ok.inj (e1.symm.trans hv')]
        · rcases List.mem_cons.1 hb with rfl | hb
          · rfl
          · exact hs'.1 b hb rfl
      | false =>
        rw [List.length_cons] at hl
        obtain ⟨x, e1, hx⟩ := bottom_ordered key cmp hc v hv (by omega)
        obtain ⟨x', v', e1', e2, e3, e4⟩ := popBottom_content cmp v (by omega)
        obtain rfl : x = x' := Except.ok.inj (e1.symm.trans e1')
        obtain ⟨w, f1, f2⟩ := popBottom_ordered key cmp hc v hv (by omega)
        obtain rfl := Except.ok.inj (f1.symm.trans e2)
        obtain ⟨l, d1, d2, d3⟩ := ih w hs'.2 (by omega) f2
        refine ⟨l ++ [x], ?_, ?_, List.pairwise_append.2 ⟨d3, List.pairwise_singleton _ _, fun y hy z hz => ?_⟩⟩
        · unfold drain
          rw [e1, bind_ok, e2, bind_ok, d1]
          rfl
        · rw [e4, ← d2, ← Multiset.coe_add, Multiset.add_comm, Multiset.coe_singleton, Multiset.singleton_add]
        · rw [List.mem_singleton.1 hz]
          refine hx.2 y ?_
          rw [e4, ← d2]
          exact Multiset.mem_cons_of_mem (Multiset.mem_coe.2 hy)
  obtain ⟨l, d1, d2, d3⟩ := main s v h (by omega) h4
  exact ⟨v, l, h1, d1, Multiset.coe_eq_coe.1 (d2.trans h2), d3⟩

/-- Example: the elements of `C137_violated` are sorted if the bottoms are taken out first. -/
example : (match pushAll ltNat 0 [1, 1, 5, 1, 1, 3] with
    | .ok v => (match drain ltNat [false, false, true, true, true, true] v with
      | .ok l => some l
      | .error _ => none)
    | .error _ => none) = some [1, 1, 1, 1, 3, 5] := by decide +kernel

end Verif.Heap
