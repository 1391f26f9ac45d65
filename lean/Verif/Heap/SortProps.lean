import Verif.Heap.Props

/-! Property theorems C137 (see properties.jsonl): sorting with the heap. -/
namespace Verif.Heap
open Verif Spec

variable {α : Type}

/-- `push` of all elements of a list, in order, into an empty heap, min_max_heap.h:47-84. -/
def pushAll (cmp : α → α → Bool) (z : α) (xs : List α) : Outcome (Vec α) := xs.foldlM (push cmp) (Vec.empty z)

/-- Taking the elements out, `top` and `popTop` for `true`, `bottom` and `popBottom` for `false`, min_max_heap.h:88-125: the list of the tops in the
order in which they are taken out, followed by the bottoms in the opposite order. -/
def drain (cmp : α → α → Bool) : List Bool → Vec α → Outcome (List α)
  | [], _ => .ok []
  | true :: s, v => do
    let x ← top v
    let v ← popTop cmp v
    let l ← drain cmp s v
    return x :: l
  | false :: s, v => do
    let x ← bottom cmp v
    let v ← popBottom cmp v
    let l ← drain cmp s v
    return l ++ [x]

/-- C137, full statement: pushing all elements and taking them out from both ends, in any order of the ends, sorts them. -/
def C137_statement : Prop :=
  ∀ (α : Type) (cmp : α → α → Bool) (z : α), StrictWeak cmp → ∀ (xs : List α) (s : List Bool), s.length = xs.length →
    ∃ v l, pushAll cmp z xs = .ok v ∧ drain cmp s v = .ok l ∧ l.Perm xs ∧ l.Pairwise fun x y => cmp y x = false

theorem drain_sorted (cmp : α → α → Bool) (P : Vec α → Prop) (ends : Bool → Prop)
    (hT : ends true → ∀ v, P v → v.len ≠ 0 → (∃ x, top v = .ok x ∧ IsFirst cmp (content v) x) ∧ ∀ v', popTop cmp v = .ok v' → P v')
    (hB : ends false → ∀ v, P v → v.len ≠ 0 → (∃ x, bottom cmp v = .ok x ∧ IsLast cmp (content v) x) ∧ ∀ v', popBottom cmp v = .ok v' → P v')
    (s : List Bool) (hs : ∀ b ∈ s, ends b) (v : Vec α) (hv : P v) (hl : s.length = v.len) :
    ∃ l, drain cmp s v = .ok l ∧ (l : Multiset α) = content v ∧ l.Pairwise fun x y => cmp y x = false := by
  induction s generalizing v with
  | nil =>
    refine ⟨[], rfl, ?_, List.Pairwise.nil⟩
    rw [List.length_nil] at hl
    unfold content
    rw [← hl]
    rfl
  | cons b s ih =>
    rw [List.length_cons] at hl
    cases b with
    | true =>
      obtain ⟨⟨x, e1, hx⟩, hP⟩ := hT (hs true (by simp)) v hv (by omega)
      obtain ⟨x', v', e1', e2, e3, e4⟩ := popTop_content cmp v (by omega)
      obtain rfl : x = x' := Except.ok.inj (e1.symm.trans e1')
      obtain ⟨l, d1, d2, d3⟩ := ih (fun b hb => hs b (by simp [hb])) v' (hP v' e2) (by omega)
      refine ⟨x :: l, ?_, ?_, List.Pairwise.cons (fun y hy => hx.2 y ?_) d3⟩
      · unfold drain
        rw [e1, bind_ok, e2, bind_ok, d1]
        rfl
      · rw [e4, ← d2, Multiset.cons_coe]
      · rw [e4, ← d2]
        exact Multiset.mem_cons_of_mem (Multiset.mem_coe.2 hy)
    | false =>
      obtain ⟨⟨x, e1, hx⟩, hP⟩ := hB (hs false (by simp)) v hv (by omega)
      obtain ⟨x', v', e1', e2, e3, e4⟩ := popBottom_content cmp v (by omega)
      obtain rfl : x = x' := Except.ok.inj (e1.symm.trans e1')
      obtain ⟨l, d1, d2, d3⟩ := ih (fun b hb => hs b (by simp [hb])) v' (hP v' e2) (by omega)
      refine ⟨l ++ [x], ?_, ?_, List.pairwise_append.2 ⟨d3, List.pairwise_singleton _ _, fun y hy z hz => ?_⟩⟩
      · unfold drain
        rw [e1, bind_ok, e2, bind_ok, d1]
        rfl
      · rw [e4, ← d2, ← Multiset.coe_add, Multiset.add_comm, Multiset.coe_singleton, Multiset.singleton_add]
      · rw [List.mem_singleton.1 hz]
        refine hx.2 y ?_
        rw [e4, ← d2]
        exact Multiset.mem_cons_of_mem (Multiset.mem_coe.2 hy)

theorem pushAll_run (cmp : α → α → Bool) (z : α) (xs : List α) : pushAll cmp z xs = run cmp z (xs.map Op.push) := by
  unfold pushAll run
  rw [List.foldlM_map]
  rfl

theorem pushed_map (xs : List α) : pushed (xs.map Op.push) = (xs : Multiset α) := by
  induction xs with
  | nil => rfl
  | cons x xs ih => rw [List.map_cons, ← Multiset.cons_coe, ← ih]; rfl

theorem safe_map (xs : List α) (n : ℕ) : Safe n (xs.map Op.push) := by
  induction xs generalizing n with
  | nil => trivial
  | cons x xs ih => exact ih _

theorem pushAll_ordered {β : Type} [LinearOrder β] (key : α → β) (cmp : α → α → Bool) (hc : ∀ x y, cmp x y = true ↔ key x < key y) (z : α) (xs : List α) :
    ∃ v, pushAll cmp z xs = .ok v ∧ content v = (xs : Multiset α) ∧ v.len = xs.length ∧ Ordered v.len true (fun j => key (v.val j)) := by
  have ht : Op.popTop ∉ xs.map (Op.push (α := α)) := by simp
  obtain ⟨v, h1, h2⟩ := run_ordered key cmp hc (xs.map Op.push) (Vec.empty z) (ordered_empty key z) (safe_map xs _)
    (fun h1 h2 e => absurd (by rw [e]; simp) ht)
  have hcont : ∀ (xs : List α) (v w : Vec α), xs.foldlM (push cmp) v = .ok w → content w = content v + (xs : Multiset α) ∧ w.len = v.len + xs.length := by
    intro xs
    induction xs with
    | nil => intro v w h; cases Except.ok.inj h; simp
    | cons x xs ih =>
      intro v w h
      obtain ⟨v1, a1, a2, a3⟩ := push_content cmp v x
      rw [List.foldlM_cons, a1, bind_ok] at h
      obtain ⟨b1, b2⟩ := ih v1 w h
      refine ⟨?_, by rw [b2, a2, List.length_cons]; omega⟩
      rw [b1, a3, ← Multiset.cons_coe, Multiset.cons_add, Multiset.add_cons]
  rw [pushAll_run]
  have h1' : pushAll cmp z xs = .ok v := by rw [pushAll_run]; exact h1
  obtain ⟨c1, c2⟩ := hcont xs _ v h1'
  refine ⟨v, h1, ?_, ?_, h2⟩
  · rw [c1]; simp [content, Vec.empty]
  · rw [c2]; simp [Vec.empty]

theorem top_minOrd {β : Type} [LinearOrder β] (key : α → β) (cmp : α → α → Bool) (hc : ∀ x y, cmp x y = true ↔ key x < key y)
    (v : Vec α) (ho : MinOrd v.len (fun j => key (v.val j))) (hl : v.len ≠ 0) : ∃ x, top v = .ok x ∧ IsFirst cmp (content v) x := by
  refine ⟨v.val 0, by unfold top; rw [if_neg hl]; exact Vec.get_nat v (i := 0) (by omega), mem_content.2 ⟨0, by omega, rfl⟩, ?_⟩
  intro y hy
  obtain ⟨j, hj, rfl⟩ := mem_content.1 hy
  have : ¬ cmp (v.val j) (v.val 0) = true := by rw [hc, not_lt]; exact ho.le_zero j hj
  simpa using this

/-- **C137** when the elements are only taken out at one end (ties allowed), or no two are equivalent. Missing: ties taken out at both ends. -/
theorem C137_sort_partial (cmp : α → α → Bool) (z : α) (hw : StrictWeak cmp) (xs : List α) (s : List Bool) (hl : s.length = xs.length)
    (h : true ∉ s ∨ false ∉ s ∨ NoTies cmp (xs : Multiset α)) :
    ∃ v l, pushAll cmp z xs = .ok v ∧ drain cmp s v = .ok l ∧ l.Perm xs ∧ l.Pairwise fun x y => cmp y x = false := by
  obtain ⟨β, _, key, hc⟩ := key_exists hw
  obtain ⟨v, h1, h2, h3, h4⟩ := pushAll_ordered key cmp hc z xs
  have fin : (∃ l, drain cmp s v = .ok l ∧ (l : Multiset α) = content v ∧ l.Pairwise fun x y => cmp y x = false) →
      ∃ v l, pushAll cmp z xs = .ok v ∧ drain cmp s v = .ok l ∧ l.Perm xs ∧ l.Pairwise fun x y => cmp y x = false := by
    rintro ⟨l, d1, d2, d3⟩
    exact ⟨v, l, h1, d1, Multiset.coe_eq_coe.1 (d2.trans h2), d3⟩
  apply fin
  rcases h with h | h | h
  · refine drain_sorted cmp (fun v => Ordered v.len true (fun j => key (v.val j))) (fun b => b = false) (by intro h; cases h) ?_ s
      (fun b hb => by cases b with | false => rfl | true => exact absurd hb h) v h4 (by omega)
    intro _ v hv hl
    refine ⟨bottom_ordered key cmp hc v hv hl, fun v' hv' => ?_⟩
    obtain ⟨w, e1, e2⟩ := popBottom_ordered key cmp hc v hv hl
    rwa [← Except.ok.inj (e1.symm.trans hv')]
  · refine drain_sorted cmp (fun v => MinOrd v.len (fun j => key (v.val j))) (fun b => b = true) ?_ (by intro h; cases h) s
      (fun b hb => by cases b with | true => rfl | false => exact absurd hb h) v h4.minOrd (by omega)
    intro _ v hv hl
    refine ⟨top_minOrd key cmp hc v hv hl, fun v' hv' => ?_⟩
    obtain ⟨w, e1, -, e2⟩ := popTop_minOrd key cmp hc v hv hl
    rwa [← Except.ok.inj (e1.symm.trans hv')]
  · refine drain_sorted cmp (fun v => Ordered v.len true (fun j => key (v.val j)) ∧ NoTies cmp (content v)) (fun _ => True) ?_ ?_ s
      (fun _ _ => trivial) v ⟨h4, h2 ▸ h⟩ (by omega)
    · rintro - v ⟨hv, ht⟩ hl
      refine ⟨top_ordered key cmp hc v hv hl, fun v' hv' => ?_⟩
      obtain ⟨w, e1, e2⟩ := popTop_ordered key cmp hc v hv hl (noTies_key hc ht)
      obtain rfl := Except.ok.inj (e1.symm.trans hv')
      obtain ⟨x, v1, -, f1, -, f2⟩ := popTop_content cmp v hl
      obtain rfl := Except.ok.inj (f1.symm.trans hv')
      exact ⟨e2, NoTies.mono ht (by rw [f2]; exact Multiset.le_cons_self _ _)⟩
    · rintro - v ⟨hv, ht⟩ hl
      refine ⟨bottom_ordered key cmp hc v hv hl, fun v' hv' => ?_⟩
      obtain ⟨w, e1, e2⟩ := popBottom_ordered key cmp hc v hv hl
      obtain rfl := Except.ok.inj (e1.symm.trans hv')
      obtain ⟨x, v1, -, f1, -, f2⟩ := popBottom_content cmp v hl
      obtain rfl := Except.ok.inj (f1.symm.trans hv')
      exact ⟨e2, NoTies.mono ht (by rw [f2]; exact Multiset.le_cons_self _ _)⟩

/-- What the violating run gives. -/
theorem badSort : (match pushAll ltNat 0 [1, 1, 5, 1, 1, 3] with
    | .ok v => (match drain ltNat [true, false, false, true, true, true] v with
      | .ok l => some l
      | .error _ => none)
    | .error _ => none) = some [1, 1, 1, 3, 1, 5] := by decide +kernel

/-- The statement of C137 is false: 1, 1, 5, 1, 1, 3 taken out at the top, twice at the bottom and at the top are not sorted. -/
theorem C137_violated : ¬ C137_statement := by
  intro h
  obtain ⟨v, l, h1, h2, -, h4⟩ := h ℕ ltNat 0 ltNat_strictWeak [1, 1, 5, 1, 1, 3] [true, false, false, true, true, true] rfl
  have e := badSort
  rw [h1] at e
  simp only at e
  rw [h2] at e
  obtain rfl : l = [1, 1, 1, 3, 1, 5] := Option.some.inj e
  revert h4
  decide

-- ties taken out at the top
example : (match pushAll ltNat 0 [4, 1, 3, 1, 3] with
    | .ok v => (match drain ltNat [true, true, true, true, true] v with
      | .ok l => some l
      | .error _ => none)
    | .error _ => none) = some [1, 1, 3, 3, 4] := by decide +kernel

end Verif.Heap
