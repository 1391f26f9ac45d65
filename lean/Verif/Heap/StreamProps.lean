import Verif.Heap.QueueProps

/-! Property theorems C175 (see properties.jsonl): the first elements of a stream. -/
namespace Verif.Heap
open Verif Spec

variable {α : Type}

/-- A client that inserts the elements of a stream and, when there are more than `k`, removes the bottom, min_max_heap.h:81-107. -/
def keepFirst (cmp : α → α → Bool) (k : ℕ) : List α → Vec α → Outcome (Vec α)
  | [], v => .ok v
  | x :: t, v => do
    let v ← push cmp v x
    let v ← if k < v.len then popBottom cmp v else .ok v
    keepFirst cmp k t v

/-- The same client with `popTop()`, min_max_heap.h:81-93. -/
def keepLast (cmp : α → α → Bool) (k : ℕ) : List α → Vec α → Outcome (Vec α)
  | [], v => .ok v
  | x :: t, v => do
    let v ← push cmp v x
    let v ← if k < v.len then popTop cmp v else .ok v
    keepLast cmp k t v

/-- `b` is a choice of the `k` first elements of `s` (of all the elements when there are fewer). -/
def FirstOf (cmp : α → α → Bool) (k : ℕ) (s b : Multiset α) : Prop :=
  b.card = min k s.card ∧ ∃ r, s = b + r ∧ ∀ x ∈ b, ∀ y ∈ r, cmp y x = false

theorem FirstOf.add_small {cmp : α → α → Bool} {k : ℕ} {s b : Multiset α} {x : α} (h : FirstOf cmp k s b) (hk : b.card < k) : FirstOf cmp k (x ::ₘ s) (x ::ₘ b) := by
  obtain ⟨h1, r, rfl, h2⟩ := h
  rw [Multiset.card_add] at h1
  have hr : r = 0 := Multiset.card_eq_zero.1 (by omega)
  subst hr
  refine ⟨?_, 0, by simp, fun _ _ y hy => absurd hy (Multiset.notMem_zero y)⟩
  rw [Multiset.card_cons, Multiset.card_cons, Multiset.card_add, Multiset.card_zero]
  omega

theorem FirstOf.add_full {cmp : α → α → Bool} (hw : StrictWeak cmp) {k : ℕ} {s b c : Multiset α} {x y : α} (h : FirstOf cmp k s b) (hk : b.card = k)
    (e : x ::ₘ b = y ::ₘ c) (hy : IsLast cmp (x ::ₘ b) y) : FirstOf cmp k (x ::ₘ s) c := by
  obtain ⟨h1, r, rfl, h2⟩ := h
  have hc : c.card = k := by
    have := congrArg Multiset.card e
    rw [Multiset.card_cons, Multiset.card_cons] at this
    omega
  refine ⟨?_, y ::ₘ r, ?_, fun u hu w hw' => ?_⟩
  · rw [hc, Multiset.card_cons, Multiset.card_add]; omega
  · rw [← Multiset.cons_add, e, Multiset.cons_add, Multiset.add_cons]
  · have hu' : u ∈ x ::ₘ b := e ▸ Multiset.mem_cons_of_mem hu
    have hyu : cmp y u = false := hy.2 u hu'
    rcases Multiset.mem_cons.1 hw' with rfl | hr
    · exact hyu
    · rcases Multiset.mem_cons.1 hy.1 with rfl | hyb
      · have hub : u ∈ b := by
          rw [(Multiset.cons_inj_right _).1 e]; exact hu
        exact h2 u hub w hr
      · exact hw.negTrans _ _ _ (h2 y hyb w hr) hyu

theorem keepFirst_main {β : Type} [LinearOrder β] (key : α → β) (cmp : α → α → Bool) (hw : StrictWeak cmp) (hc : ∀ x y, cmp x y = true ↔ key x < key y) (k : ℕ) (xs : List α) :
    ∀ (v : Vec α) (s : Multiset α), Ordered v.len true (fun j => key (v.val j)) → FirstOf cmp k s (content v) →
      ∃ v', keepFirst cmp k xs v = .ok v' ∧ FirstOf cmp k (s + (xs : Multiset α)) (content v') ∧ Ordered v'.len true (fun j => key (v'.val j)) := by
  induction xs with
  | nil => intro v s ho hf; exact ⟨v, rfl, by simpa using hf, ho⟩
  | cons x t ih =>
    intro v s ho hf
    have hlen : ∀ w : Vec α, (content w).card = w.len := fun w => by simp [content]
    obtain ⟨v1, e1, e2, e3⟩ := push_content cmp v x
    obtain ⟨v1', f1, f2⟩ := push_ordered key cmp hc v x ho
    obtain rfl := Except.ok.inj (f1.symm.trans e1)
    have hs : s + ((x :: t : List α) : Multiset α) = (x ::ₘ s) + (t : Multiset α) := by
      rw [← Multiset.cons_coe, Multiset.add_cons, Multiset.cons_add]
    rw [hs]
    unfold keepFirst
    rw [e1, bind_ok]
    have hle : v.len ≤ k := by rw [← hlen, hf.1]; omega
    by_cases hk : k < v1'.len
    · rw [if_pos hk]
      have hl : v1'.len ≠ 0 := by omega
      obtain ⟨y, v2, g1, g2, g3, g4⟩ := popBottom_content cmp v1' hl
      obtain ⟨y', i1, i2⟩ := bottom_ordered key cmp hc v1' f2 hl
      obtain rfl := Except.ok.inj (i1.symm.trans g1)
      obtain ⟨v2', j1, j2⟩ := popBottom_ordered key cmp hc v1' f2 hl
      obtain rfl := Except.ok.inj (j1.symm.trans g2)
      rw [g2, bind_ok]
      rw [e3] at i2 g4
      exact ih v2' (x ::ₘ s) j2 (hf.add_full hw (by rw [hlen]; omega) g4 i2)
    · rw [if_neg hk, bind_ok]
      exact ih v1' (x ::ₘ s) f2 (by rw [e3]; exact hf.add_small (by rw [hlen]; omega))

theorem firstOf_zero (cmp : α → α → Bool) (k : ℕ) : FirstOf cmp k 0 (0 : Multiset α) :=
  ⟨by simp, 0, by simp, fun _ _ y hy => absurd hy (Multiset.notMem_zero y)⟩

/-- **C175**: after any stream the heap holds the `k` first elements, ties included, and its top and bottom are the first and the last of them. -/
theorem C175_first (cmp : α → α → Bool) (z : α) (hw : StrictWeak cmp) (k : ℕ) (xs : List α) :
    ∃ v, keepFirst cmp k xs (Vec.empty z) = .ok v ∧ FirstOf cmp k (xs : Multiset α) (content v) ∧
      (v.len ≠ 0 → ∃ x y, top v = .ok x ∧ IsFirst cmp (xs : Multiset α) x ∧ bottom cmp v = .ok y ∧ IsLast cmp (content v) y) := by
  obtain ⟨β, _, key, hc⟩ := key_exists hw
  obtain ⟨v, h1, h2, h3⟩ := keepFirst_main key cmp hw hc k xs (Vec.empty z) 0 (ordered_empty key z) (by rw [content_empty]; exact firstOf_zero cmp k)
  rw [Multiset.zero_add] at h2
  refine ⟨v, h1, h2, fun hl => ?_⟩
  obtain ⟨x, t1, t2⟩ := top_ordered key cmp hc v h3 hl
  obtain ⟨y, b1, b2⟩ := bottom_ordered key cmp hc v h3 hl
  refine ⟨x, y, t1, ⟨?_, fun w hw' => ?_⟩, b1, b2⟩
  · obtain ⟨-, r, e, -⟩ := h2
    exact e ▸ Multiset.mem_add.2 (.inl t2.1)
  · obtain ⟨-, r, e, h⟩ := h2
    rw [e] at hw'
    rcases Multiset.mem_add.1 hw' with h' | h'
    · exact t2.2 w h'
    · exact h x t2.1 w h'

/-- C175: a choice of the first `k` elements is determined up to equivalent elements: it has as many elements before each element. -/
theorem C175_determined (cmp : α → α → Bool) (hw : StrictWeak cmp) (k : ℕ) (s b c : Multiset α) (hb : FirstOf cmp k s b) (hc : FirstOf cmp k s c) (x : α) :
    (b.filter fun y => cmp y x = true).card = (c.filter fun y => cmp y x = true).card := by
  have key : ∀ b c : Multiset α, FirstOf cmp k s b → FirstOf cmp k s c → (b.filter fun y => cmp y x = true).card ≤ (c.filter fun y => cmp y x = true).card := by
    rintro b c ⟨b1, r, rfl, b2⟩ ⟨c1, q, e, c2⟩
    by_cases hq : ∃ w ∈ q, cmp w x = true
    · -- an element before `x` is missing in `c`: all of `c` is before `x`
      obtain ⟨w, hw1, hw2⟩ := hq
      have hall : c.filter (fun y => cmp y x = true) = c := by
        refine Multiset.filter_eq_self.2 fun y hy => ?_
        by_contra hn
        have h1 := c2 y hy w hw1
        have h2 := hw.negTrans _ _ _ h1 (Bool.eq_false_iff.2 hn)
        rw [h2] at hw2
        exact absurd hw2 (by decide)
      rw [hall, c1, ← b1]
      exact Multiset.card_le_card (Multiset.filter_le _ _)
    · -- all the elements before `x` are in `c`
      have hz : q.filter (fun y => cmp y x = true) = 0 := Multiset.filter_eq_nil.2 fun y hy hn => hq ⟨y, hy, hn⟩
      have h3 : (b + r).filter (fun y => cmp y x = true) = c.filter (fun y => cmp y x = true) := by
        rw [e, Multiset.filter_add, hz, Multiset.add_zero]
      rw [← h3, Multiset.filter_add, Multiset.card_add]
      exact Nat.le_add_right _ _
  exact le_antisymm (key b c hb hc) (key c b hc hb)

/-- C175: the order of the stream has no influence on the result, up to the choice among equivalent elements. -/
theorem C175_order (cmp : α → α → Bool) (z z' : α) (hw : StrictWeak cmp) (k : ℕ) (xs ys : List α) (hp : xs.Perm ys) :
    ∃ v w, keepFirst cmp k xs (Vec.empty z) = .ok v ∧ keepFirst cmp k ys (Vec.empty z') = .ok w ∧ v.len = w.len ∧
      ∀ x, ((content v).filter fun y => cmp y x = true).card = ((content w).filter fun y => cmp y x = true).card := by
  obtain ⟨v, h1, h2, -⟩ := C175_first cmp z hw k xs
  obtain ⟨w, g1, g2, -⟩ := C175_first cmp z' hw k ys
  rw [← Multiset.coe_eq_coe.2 hp] at g2
  refine ⟨v, w, h1, g1, ?_, C175_determined cmp hw k _ _ _ h2 g2⟩
  have hlen : ∀ w : Vec α, (content w).card = w.len := fun w => by simp [content]
  rw [← hlen, ← hlen, h2.1, g2.1]

theorem keepLast_main {β : Type} [LinearOrder β] (key : α → β) (cmp : α → α → Bool) (hw : StrictWeak cmp) (hc : ∀ x y, cmp x y = true ↔ key x < key y) (k : ℕ) (xs : List α) :
    ∀ (v : Vec α) (s : Multiset α), Ordered v.len true (fun j => key (v.val j)) → NoTies cmp (s + (xs : Multiset α)) → FirstOf (opposite cmp) k s (content v) →
      ∃ v', keepLast cmp k xs v = .ok v' ∧ FirstOf (opposite cmp) k (s + (xs : Multiset α)) (content v') := by
  induction xs with
  | nil => intro v s _ _ hf; exact ⟨v, rfl, by simpa using hf⟩
  | cons x t ih =>
    intro v s ho ht hf
    have hlen : ∀ w : Vec α, (content w).card = w.len := fun w => by simp [content]
    obtain ⟨v1, e1, e2, e3⟩ := push_content cmp v x
    obtain ⟨v1', f1, f2⟩ := push_ordered key cmp hc v x ho
    obtain rfl := Except.ok.inj (f1.symm.trans e1)
    have hs : s + ((x :: t : List α) : Multiset α) = (x ::ₘ s) + (t : Multiset α) := by
      rw [← Multiset.cons_coe, Multiset.add_cons, Multiset.cons_add]
    rw [hs] at ht ⊢
    have hv : NoTies cmp (content v1') := NoTies.mono ht (by
      obtain ⟨-, r, e, -⟩ := hf
      rw [e3]
      refine le_trans ?_ (Multiset.le_add_right _ _)
      exact Multiset.cons_le_cons x (e ▸ Multiset.le_add_right _ _))
    unfold keepLast
    rw [e1, bind_ok]
    have hle : v.len ≤ k := by rw [← hlen, hf.1]; omega
    by_cases hk : k < v1'.len
    · rw [if_pos hk]
      have hl : v1'.len ≠ 0 := by omega
      obtain ⟨y, v2, g1, g2, g3, g4⟩ := popTop_content cmp v1' hl
      obtain ⟨y', i1, i2⟩ := top_ordered key cmp hc v1' f2 hl
      obtain rfl := Except.ok.inj (i1.symm.trans g1)
      obtain ⟨v2', j1, j2⟩ := popTop_ordered key cmp hc v1' f2 hl (noTies_key hc hv)
      obtain rfl := Except.ok.inj (j1.symm.trans g2)
      rw [g2, bind_ok]
      rw [e3] at i2 g4
      exact ih v2' (x ::ₘ s) j2 ht (hf.add_full (StrictWeak.opposite hw) (by rw [hlen]; omega) g4 i2)
    · rw [if_neg hk, bind_ok]
      exact ih v1' (x ::ₘ s) f2 ht (by rw [e3]; exact hf.add_small (by rw [hlen]; omega))

/-- C175 at the other end, for streams without equivalent elements (with ties `popTop` breaks the order of the heap, C20): the heap holds the `k` last elements. -/
theorem C175_last (cmp : α → α → Bool) (z : α) (hw : StrictWeak cmp) (k : ℕ) (xs : List α) (ht : NoTies cmp (xs : Multiset α)) :
    ∃ v, keepLast cmp k xs (Vec.empty z) = .ok v ∧ FirstOf (opposite cmp) k (xs : Multiset α) (content v) := by
  obtain ⟨β, _, key, hc⟩ := key_exists hw
  have := keepLast_main key cmp hw hc k xs (Vec.empty z) 0 (ordered_empty key z) (by rw [Multiset.zero_add]; exact ht) (by rw [content_empty]; exact firstOf_zero _ k)
  rwa [Multiset.zero_add] at this

-- the three first elements of a stream with ties, and none of them for `k = 0`
example : ((keepFirst ltNat 3 [5, 2, 7, 2, 1, 9, 2] (Vec.empty 0)).bind fun v => top v) = .ok 1 ∧ ((keepFirst ltNat 3 [5, 2, 7, 2, 1, 9, 2] (Vec.empty 0)).bind fun v => bottom ltNat v) = .ok 2 ∧
    ((keepFirst ltNat 3 [5, 2, 7, 2, 1, 9, 2] (Vec.empty 0)).map fun v => v.len) = .ok 3 ∧ ((keepFirst ltNat 0 [5, 2] (Vec.empty 0)).map fun v => v.len) = .ok 0 := by decide +kernel
-- the two last elements
example : ((keepLast ltNat 2 [5, 2, 7, 1, 9] (Vec.empty 0)).bind fun v => top v) = .ok 7 ∧ ((keepLast ltNat 2 [5, 2, 7, 1, 9] (Vec.empty 0)).bind fun v => bottom ltNat v) = .ok 9 := by decide +kernel

end Verif.Heap
