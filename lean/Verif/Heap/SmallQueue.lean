import Verif.Heap.SmallProps
import Verif.Heap.SortProps
import Verif.Heap.QueueProps

/-! Property theorems C137 and C172, exact bounds of the number of elements (see properties.jsonl): ties are harmless in small heaps. -/
namespace Verif.Heap
open Verif Spec

variable {α : Type}

/-- C137, exact bound: all lists of at most `n` elements, ties included, are sorted by taking the elements out at the two ends in any order of the ends if and only if `n` is at most 5. -/
theorem C137_size_iff (n : ℕ) :
    (∀ (α : Type) (cmp : α → α → Bool) (z : α), StrictWeak cmp → ∀ (xs : List α) (s : List Bool), xs.length ≤ n → s.length = xs.length →
      ∃ v l, pushAll cmp z xs = .ok v ∧ drain cmp s v = .ok l ∧ l.Perm xs ∧ l.Pairwise fun x y => cmp y x = false) ↔ n ≤ 5 := by
  constructor
  · intro h
    by_contra hn
    obtain ⟨v, l, h1, h2, -, h4⟩ := h ℕ ltNat 0 ltNat_strictWeak [1, 1, 5, 1, 1, 3] [true, false, false, true, true, true] (by simp only [List.length_cons, List.length_nil]; omega) rfl
    have e := badSort
    rw [h1] at e
    simp only at e
    rw [h2] at e
    obtain rfl : l = [1, 1, 1, 3, 1, 5] := Option.some.inj e
    revert h4
    decide
  · intro hn α cmp z hw xs s hx hl
    obtain ⟨β, _, key, hc⟩ := key_exists hw
    obtain ⟨v, h1, h2, h3, h4⟩ := pushAll_ordered key cmp hc z xs
    obtain ⟨l, d1, d2, d3⟩ := drain_sorted cmp (fun v => Ordered v.len true (fun j => key (v.val j)) ∧ v.len ≤ 5) (fun _ => True)
      (fun _ v hv hl => ⟨top_ordered key cmp hc v hv.1 hl, fun v' hv' => by
        obtain ⟨w, e1, e2⟩ := popTop_small key cmp hc v hv.1 hl hv.2
        obtain rfl := Except.ok.inj (e1.symm.trans hv')
        obtain ⟨x, v1, -, f1, f2, -⟩ := popTop_content cmp v hl
        obtain rfl := Except.ok.inj (f1.symm.trans hv')
        have := hv.2
        exact ⟨e2, by omega⟩⟩)
      (fun _ v hv hl => ⟨bottom_ordered key cmp hc v hv.1 hl, fun v' hv' => by
        obtain ⟨w, e1, e2⟩ := popBottom_ordered key cmp hc v hv.1 hl
        obtain rfl := Except.ok.inj (e1.symm.trans hv')
        obtain ⟨x, v1, -, f1, f2, -⟩ := popBottom_content cmp v hl
        obtain rfl := Except.ok.inj (f1.symm.trans hv')
        have := hv.2
        exact ⟨e2, by omega⟩⟩)
      s (fun _ _ => trivial) v ⟨h4, by omega⟩ (by omega)
    exact ⟨v, l, h1, d1, Multiset.coe_eq_coe.1 (d2.trans h2), d3⟩

theorem trace_small {β : Type} [LinearOrder β] (key : α → β) (cmp : α → α → Bool) (hc : ∀ x y, cmp x y = true ↔ key x < key y) (h : List (Op α)) :
    ∀ v : Vec α, Ordered v.len true (fun j => key (v.val j)) → Safe v.len h → (∀ h1 h2 w, h = h1 ++ h2 → h1.foldlM (step cmp) v = .ok w → w.len ≤ 5) →
      ∃ l, trace cmp h v = .ok l ∧ Queue cmp (content v) h l := by
  induction h with
  | nil => intro v _ _ _; exact ⟨[], rfl, .nil _⟩
  | cons o h ih =>
    intro v ho hs ht
    have next : ∀ v1, step cmp v o = .ok v1 → ∀ h1 h2 w, h = h1 ++ h2 → h1.foldlM (step cmp) v1 = .ok w → w.len ≤ 5 := by
      intro v1 h1 a b w e hw
      exact ht (o :: a) b w (by rw [e]; rfl) ((foldlM_cons (step cmp) _ v1 _ _ h1).trans hw)
    cases o with
    | push x =>
      obtain ⟨v', e1, e2, e3⟩ := push_content cmp v x
      obtain ⟨v1, f1, f2⟩ := push_ordered key cmp hc v x ho
      obtain rfl := Except.ok.inj (f1.symm.trans e1)
      obtain ⟨l, d1, d2⟩ := ih v1 f2 (by rw [e2]; exact hs) (next v1 e1)
      refine ⟨l, ?_, .push (e3 ▸ d2)⟩
      unfold trace
      rw [e1, bind_ok, d1]
    | popTop =>
      have hl : v.len ≠ 0 := by have := hs.1; omega
      obtain ⟨x, v', e1, e2, e3, e4⟩ := popTop_content cmp v hl
      obtain ⟨x', g1, g2⟩ := top_ordered key cmp hc v ho hl
      obtain rfl := Except.ok.inj (g1.symm.trans e1)
      obtain ⟨v1, f1, f2⟩ := popTop_small key cmp hc v ho hl (ht [] (.popTop :: h) v rfl rfl)
      obtain rfl := Except.ok.inj (f1.symm.trans e2)
      obtain ⟨l, d1, d2⟩ := ih v1 f2 (by rw [e3]; exact hs.2) (next v1 e2)
      refine ⟨x' :: l, ?_, ?_⟩
      · unfold trace
        rw [e1, bind_ok, e2, bind_ok, d1]
        rfl
      · rw [e4] at g2 ⊢
        exact .popTop g2 d2
    | popBottom =>
      have hl : v.len ≠ 0 := by have := hs.1; omega
      obtain ⟨x, v', e1, e2, e3, e4⟩ := popBottom_content cmp v hl
      obtain ⟨x', g1, g2⟩ := bottom_ordered key cmp hc v ho hl
      obtain rfl := Except.ok.inj (g1.symm.trans e1)
      obtain ⟨v1, f1, f2⟩ := popBottom_ordered key cmp hc v ho hl
      obtain rfl := Except.ok.inj (f1.symm.trans e2)
      obtain ⟨l, d1, d2⟩ := ih v1 f2 (by rw [e3]; exact hs.2) (next v1 e2)
      refine ⟨x' :: l, ?_, ?_⟩
      · unfold trace
        rw [e1, bind_ok, e2, bind_ok, d1]
        rfl
      · rw [e4] at g2 ⊢
        exact .popBottom g2 d2

/-- C172, exact bound: all the histories during which the heap has at most `n` elements, ties included, give the results of a double-ended priority queue if and only if `n` is at most 5. -/
theorem C172_size_iff (n : ℕ) :
    (∀ (α : Type) (cmp : α → α → Bool) (z : α), StrictWeak cmp → ∀ h : List (Op α), Safe 0 h → (∀ h1 h2 v, h = h1 ++ h2 → run cmp z h1 = .ok v → v.len ≤ n) →
      ∃ l, trace cmp h (Vec.empty z) = .ok l ∧ Queue cmp 0 h l) ↔ n ≤ 5 := by
  constructor
  · intro h
    by_contra hn
    have e := ties_trace
    obtain ⟨l, h1, h2⟩ := h ℕ ltNat 0 ltNat_strictWeak (badBottom ++ [Op.popBottom]) (by simp [Safe, badBottom]) (by
      intro h1 h2 v he hv
      have h3 := len_le_pushed ltNat h1 _ _ hv
      have h4 : Multiset.card (pushed (h1 ++ h2)) = 6 := by rw [← he]; rfl
      rw [pushed_append, Multiset.card_add] at h4
      have h5 : (Vec.empty (0 : ℕ)).len = 0 := rfl
      omega)
    rw [h1] at e
    obtain rfl : l = [1, 5, 1] := Option.some.inj e.1
    simp only [badBottom, List.cons_append, List.nil_append] at h2
    obtain ⟨a, s1, l1, e1, e2, -, q1⟩ := h2.push_inv.push_inv.push_inv.push_inv.push_inv.push_inv.popTop_inv
    obtain ⟨rfl, rfl⟩ := List.cons.inj e2
    obtain ⟨b, s2, l2, rfl, e3, -, q2⟩ := q1.popBottom_inv
    obtain ⟨rfl, rfl⟩ := List.cons.inj e3
    obtain ⟨c, s3, l3, rfl, e4, hc, -⟩ := q2.popBottom_inv
    obtain ⟨rfl, rfl⟩ := List.cons.inj e4
    have h3 : (3 : ℕ) ∈ (1 ::ₘ 5 ::ₘ 1 ::ₘ s3 : Multiset ℕ) := e1 ▸ by simp
    have h4 : (3 : ℕ) ∈ (1 ::ₘ s3 : Multiset ℕ) := by simpa using h3
    exact absurd (hc.2 3 h4) (by decide)
  · intro hn α cmp z hw h hs hm
    obtain ⟨β, _, key, hc⟩ := key_exists hw
    have := trace_small key cmp hc h (Vec.empty z) (ordered_empty key z) hs fun h1 h2 w e hw => le_trans (hm h1 h2 w e hw) hn
    rwa [content_empty] at this

/-- Example: the ties of the violations with one element less. -/
example : (match pushAll ltNat 0 [1, 1, 5, 1, 3] with
    | .ok v => (match drain ltNat [true, false, false, true, true] v with
      | .ok l => some l
      | .error _ => none)
    | .error _ => none) = some [1, 1, 1, 3, 5] := by decide +kernel

end Verif.Heap
