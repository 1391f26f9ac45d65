import Verif.Heap.Order
import Verif.Heap.MinOrder
import Verif.Heap.Spec

/-! Property theorems C19 to C21 (see properties.jsonl). -/
namespace Verif.Heap
open Verif Spec
variable {α : Type}

/-! ### C19: contents -/

/-- The history never pops from an empty heap; `n` is the initial number of elements. -/
def Safe : ℕ → List (Op α) → Prop
  | _, [] => True
  | n, .push _ :: t => Safe (n + 1) t
  | n, .popTop :: t => 0 < n ∧ Safe (n - 1) t
  | n, .popBottom :: t => 0 < n ∧ Safe (n - 1) t

/-- The elements pushed by a history. -/
def pushed : List (Op α) → Multiset α
  | [] => 0
  | .push x :: t => x ::ₘ pushed t
  | .popTop :: t => pushed t
  | .popBottom :: t => pushed t

/-- A client that calls `top()` before each `popTop()` and `bottom()` before each `popBottom()` and collects the results. -/
def session (cmp : α → α → Bool) : List (Op α) → Vec α → Multiset α → Outcome (Vec α × Multiset α)
  | [], v, r => .ok (v, r)
  | .push x :: t, v, r => do
    let v ← push cmp v x
    session cmp t v r
  | .popTop :: t, v, r => do
    let x ← top v
    let v ← popTop cmp v
    session cmp t v (x ::ₘ r)
  | .popBottom :: t, v, r => do
    let x ← bottom cmp v
    let v ← popBottom cmp v
    session cmp t v (x ::ₘ r)

theorem push_content (cmp : α → α → Bool) (v : Vec α) (x : α) :
    ∃ v', push cmp v x = .ok v' ∧ v'.len = v.len + 1 ∧ content v' = x ::ₘ content v := by
  obtain ⟨v', h1, h2, h3⟩ := heapUp_rearr cmp (v.push x) v.len (by show _ < v.len + 1; omega)
  exact ⟨v', h1, h2, h3.trans (content_push v x)⟩

theorem popTop_content (cmp : α → α → Bool) (v : Vec α) (hl : v.len ≠ 0) :
    ∃ x v', top v = .ok x ∧ popTop cmp v = .ok v' ∧ v'.len = v.len - 1 ∧ content v = x ::ₘ content v' := by
  have hs := rearr_sw (v := v) (i := 0) (j := v.len - 1) (by omega) (by omega)
  have hc := content_popBack (v := sw v 0 (v.len - 1)) hl
  obtain ⟨v', h1, h2, h3⟩ := heapDown_rearr (fun a b => cmp a b) true ((popBack (sw v 0 (v.len - 1))).len + 1)
    (popBack (sw v 0 (v.len - 1))) 0 (by omega) (by omega)
  refine ⟨v.val 0, v', ?_, ?_, h2, ?_⟩
  · unfold top; rw [if_neg hl]; exact Vec.get_nat v (i := 0) (by omega)
  · unfold popTop
    rw [if_neg hl, swap_ok (by omega) (by omega)]
    exact h1
  · rw [h3, ← hs.2, hc]
    simp [sw]

theorem bottom_eq (cmp : α → α → Bool) (v : Vec α) (hl : v.len ≠ 0) :
    ∃ i, bottom cmp v = .ok (v.val i) ∧ i < v.len ∧
      (v.len = 1 → i = 0) ∧ (v.len ≠ 1 → childMax cmp v 0 = .ok i) := by
  unfold bottom
  rw [if_neg hl]
  by_cases h1 : v.len = 1
  · rw [if_pos h1]
    exact ⟨0, Vec.get_nat v (i := 0) (by omega), by omega, fun _ => rfl, fun h => absurd h1 h⟩
  · rw [if_neg h1]
    obtain ⟨im, i1, i2, i3, -⟩ := childBest_ok (fun a b => cmp b a) v 0
    refine ⟨im, ?_, i3 (by omega), fun h => absurd h h1, fun _ => i1⟩
    rw [childMax, i1]
    exact Vec.get_nat v (i3 (by omega))

theorem popBottom_content (cmp : α → α → Bool) (v : Vec α) (hl : v.len ≠ 0) :
    ∃ x v', bottom cmp v = .ok x ∧ popBottom cmp v = .ok v' ∧ v'.len = v.len - 1 ∧ content v = x ::ₘ content v' := by
  obtain ⟨i, b1, b2, b3, b4⟩ := bottom_eq cmp v hl
  by_cases h1 : v.len = 1
  · refine ⟨v.val i, popBack v, b1, ?_, rfl, ?_⟩
    · unfold popBottom; rw [if_neg hl, if_pos h1]
    · rw [b3 h1, content_popBack hl, h1]
  · have hs := rearr_sw (v := v) (i := i) (j := v.len - 1) (by omega) (by omega)
    have hc := content_popBack (v := sw v i (v.len - 1)) hl
    obtain ⟨v', h1', h2, h3⟩ := heapDown_rearr (fun a b => cmp b a) false ((popBack (sw v i (v.len - 1))).len + 1)
      (popBack (sw v i (v.len - 1))) i (by omega) (by omega)
    refine ⟨v.val i, v', b1, ?_, h2, ?_⟩
    · unfold popBottom
      rw [if_neg hl, if_neg h1, b4 h1]
      simp only [bind_ok]
      rw [swap_ok b2 (by omega)]
      exact h1'
    · rw [h3, ← hs.2, hc]
      simp [sw]

theorem foldlM_cons {β γ : Type} (f : β → γ → Outcome β) (b b' : β) (x : γ) (t : List γ) (h : f b x = .ok b') :
    (x :: t).foldlM f b = t.foldlM f b' := by
  rw [List.foldlM_cons, h]; rfl

theorem foldlM_cons_error {β γ : Type} (f : β → γ → Outcome β) (b : β) (e : Err) (x : γ) (t : List γ) (h : f b x = .error e) :
    (x :: t).foldlM f b = .error e := by
  rw [List.foldlM_cons, h]; rfl

theorem session_ok (cmp : α → α → Bool) (h : List (Op α)) (v : Vec α) (r : Multiset α) (hs : Safe v.len h) :
    ∃ v' r', session cmp h v r = .ok (v', r') ∧ h.foldlM (step cmp) v = .ok v' ∧ content v' + r' = content v + r + pushed h := by
  induction h generalizing v r with
  | nil => exact ⟨v, r, rfl, rfl, by simp [pushed]⟩
  | cons o t ih =>
    cases o with
    | push x =>
      obtain ⟨v1, h1, h2, h3⟩ := push_content cmp v x
      obtain ⟨v', r', e1, e2, e3⟩ := ih v1 r (by rw [h2]; exact hs)
      refine ⟨v', r', ?_, (foldlM_cons (step cmp) v v1 (.push x) _ h1).trans e2, ?_⟩
      · rw [session, h1]; exact e1
      · rw [e3, h3, pushed]
        simp only [Multiset.cons_add, Multiset.add_cons]
    | popTop =>
      obtain ⟨x, v1, h0, h1, h2, h3⟩ := popTop_content cmp v (by have := hs.1; omega)
      obtain ⟨v', r', e1, e2, e3⟩ := ih v1 (x ::ₘ r) (by rw [h2]; exact hs.2)
      refine ⟨v', r', ?_, (foldlM_cons (step cmp) v v1 .popTop _ h1).trans e2, ?_⟩
      · rw [session, h0, bind_ok, h1]; exact e1
      · rw [e3, h3, pushed]
        simp only [Multiset.cons_add, Multiset.add_cons]
    | popBottom =>
      obtain ⟨x, v1, h0, h1, h2, h3⟩ := popBottom_content cmp v (by have := hs.1; omega)
      obtain ⟨v', r', e1, e2, e3⟩ := ih v1 (x ::ₘ r) (by rw [h2]; exact hs.2)
      refine ⟨v', r', ?_, (foldlM_cons (step cmp) v v1 .popBottom _ h1).trans e2, ?_⟩
      · rw [session, h0, bind_ok, h1]; exact e1
      · rw [e3, h3, pushed]
        simp only [Multiset.cons_add, Multiset.add_cons]

theorem session_abort (cmp : α → α → Bool) (h : List (Op α)) (v : Vec α) (r : Multiset α) (hs : ¬ Safe v.len h) :
    session cmp h v r = .error .abort ∧ h.foldlM (step cmp) v = .error .abort := by
  induction h generalizing v r with
  | nil => exact absurd trivial hs
  | cons o t ih =>
    cases o with
    | push x =>
      obtain ⟨v1, h1, h2, h3⟩ := push_content cmp v x
      obtain ⟨e1, e2⟩ := ih v1 r (by rw [h2]; exact hs)
      exact ⟨by rw [session, h1]; exact e1, (foldlM_cons (step cmp) v v1 (.push x) _ h1).trans e2⟩
    | popTop =>
      by_cases hl : v.len = 0
      · exact ⟨by rw [session, top, if_pos hl]; rfl, foldlM_cons_error _ _ _ _ _ (by rw [step, popTop, if_pos hl])⟩
      · obtain ⟨x, v1, h0, h1, h2, h3⟩ := popTop_content cmp v hl
        obtain ⟨e1, e2⟩ := ih v1 (x ::ₘ r) (by rw [h2]; exact fun h => hs ⟨by omega, h⟩)
        exact ⟨by rw [session, h0, bind_ok, h1]; exact e1, (foldlM_cons (step cmp) v v1 .popTop _ h1).trans e2⟩
    | popBottom =>
      by_cases hl : v.len = 0
      · exact ⟨by rw [session, bottom, if_pos hl]; rfl, foldlM_cons_error _ _ _ _ _ (by rw [step, popBottom, if_pos hl])⟩
      · obtain ⟨x, v1, h0, h1, h2, h3⟩ := popBottom_content cmp v hl
        obtain ⟨e1, e2⟩ := ih v1 (x ::ₘ r) (by rw [h2]; exact fun h => hs ⟨by omega, h⟩)
        exact ⟨by rw [session, h0, bind_ok, h1]; exact e1, (foldlM_cons (step cmp) v v1 .popBottom _ h1).trans e2⟩

/-- C19: for every comparator and every history that never pops an empty heap, all the operations terminate without
out-of-bounds accesses and the heap holds the pushed elements minus those reported before the pops; every other history
stops with the assertion, at the first pop of an empty heap. -/
theorem C19_contents (cmp : α → α → Bool) (z : α) (h : List (Op α)) :
    (Safe 0 h → ∃ v r, session cmp h (Vec.empty z) 0 = .ok (v, r) ∧ run cmp z h = .ok v ∧ content v + r = pushed h) ∧
    (¬ Safe 0 h → session cmp h (Vec.empty z) 0 = .error .abort ∧ run cmp z h = .error .abort) := by
  constructor
  · intro hs
    obtain ⟨v, r, h1, h2, h3⟩ := session_ok cmp h (Vec.empty z) 0 hs
    refine ⟨v, r, h1, h2, ?_⟩
    rw [h3]
    simp [content, Vec.empty]
  · intro hs
    exact session_abort cmp h (Vec.empty z) 0 hs

/-- C19: peeking an empty heap stops with the assertion; peeking any other storage returns one of its elements. -/
theorem C19_peek (cmp : α → α → Bool) (v : Vec α) :
    (v.len = 0 → top v = .error .abort ∧ bottom cmp v = .error .abort ∧ nextTop cmp v = .error .abort ∧
      nextBottom cmp v = .error .abort) ∧
    (v.len ≠ 0 → ∃ a ∈ content v, ∃ b ∈ content v, ∃ c ∈ content v, ∃ d ∈ content v,
      top v = .ok a ∧ bottom cmp v = .ok b ∧ nextTop cmp v = .ok c ∧ nextBottom cmp v = .ok d) := by
  constructor
  · intro h; simp [top, bottom, nextTop, nextBottom, h]
  · intro h
    have hm : ∀ i, i < v.len → v.val i ∈ content v := fun i hi => mem_content.2 ⟨i, hi, rfl⟩
    have g0 : v.get ((0 : ℕ) : ℤ) = .ok (v.val 0) := Vec.get_nat v (by omega)
    obtain ⟨i, b1, b2, -⟩ := bottom_eq cmp v h
    obtain ⟨im, i1, i2, i3, -⟩ := childBest_ok (fun a b => cmp a b) v 0
    obtain ⟨ig, j1, j2, j3, -⟩ := grandchildBest_ok (fun a b => cmp a b) v 0
    obtain ⟨c, hc, ec⟩ : ∃ c ∈ content v, nextTop cmp v = .ok c := by
      unfold nextTop
      rw [if_neg h]
      by_cases h1 : v.len = 1
      · rw [if_pos h1]; exact ⟨_, hm 0 (by omega), g0⟩
      · rw [if_neg h1]
        by_cases h4 : v.len < 4
        · rw [if_pos h4, childMin, i1]; exact ⟨_, hm im (i3 (by omega)), Vec.get_nat v (i3 (by omega))⟩
        · rw [if_neg h4, grandchildMin, j1]; exact ⟨_, hm ig (j3 (by omega)), Vec.get_nat v (j3 (by omega))⟩
    obtain ⟨d, hd, ed⟩ : ∃ d ∈ content v, nextBottom cmp v = .ok d := by
      unfold nextBottom
      rw [if_neg h]
      by_cases h1 : v.len < 3
      · rw [if_pos h1]; exact ⟨_, hm 0 (by omega), g0⟩
      · rw [if_neg h1, childMin, i1]; exact ⟨_, hm im (i3 (by omega)), Vec.get_nat v (i3 (by omega))⟩
    exact ⟨_, hm 0 (by omega), _, hm i b2, c, hc, d, hd, by unfold top; rw [if_neg h]; exact g0, b1, ec, ed⟩

/-- A history with duplicates, pops at both ends and a last element. -/
def exampleHist : List (Op ℕ) :=
  [.push 5, .push 2, .push 7, .push 2, .popBottom, .push 9, .popTop, .popTop, .push 1, .popBottom]

example : Safe 0 exampleHist := by simp [Safe, exampleHist]
example : (run (fun a b => decide (a < b)) 0 exampleHist).toOption.map Vec.toList = some [1, 5] := by decide +kernel
example : ¬ Safe 0 ([.push 1, .popTop, .popBottom, .push 3] : List (Op ℕ)) := by simp [Safe]

/-! ### C20: top and bottom -/

/-- A strict weak order is the comparison of keys in a linear order. -/
theorem key_exists {cmp : α → α → Bool} (h : StrictWeak cmp) :
    ∃ (β : Type) (_ : LinearOrder β) (key : α → β), ∀ x y, cmp x y = true ↔ key x < key y := by
  classical
  letI : Preorder α :=
    { le := fun a b => cmp b a = false
      lt := fun a b => cmp a b = true
      le_refl := h.irrefl
      le_trans := fun a b c h1 h2 => h.negTrans c b a h2 h1
      lt_iff_le_not_ge := by
        intro a b
        constructor
        · intro hab
          refine ⟨?_, by rw [hab]; simp⟩
          rcases hba : cmp b a with _ | _
          · rfl
          · have := h.trans a b a hab hba; rw [h.irrefl] at this; cases this
        · rintro ⟨_, h2⟩
          simpa using h2 }
  haveI : @Std.Total α (· ≤ ·) := ⟨by
    intro a b
    by_cases hab : cmp a b = true
    · left
      have : a < b := hab
      exact this.le
    · right
      show cmp a b = false
      simpa using hab⟩
  refine ⟨Antisymmetrization α (· ≤ ·), inferInstance, toAntisymmetrization (· ≤ ·), fun x y => ?_⟩
  rw [toAntisymmetrization_lt_toAntisymmetrization_iff]
  exact Iff.rfl

theorem noTies_key {β : Type} [LinearOrder β] {cmp : α → α → Bool} {key : α → β} (hc : ∀ x y, cmp x y = true ↔ key x < key y)
    {v : Vec α} (h : NoTies cmp (content v)) : ∀ a b, a < v.len → b < v.len → a ≠ b → key (v.val a) ≠ key (v.val b) := by
  intro a b ha hb hab he
  refine h (v.val a) (v.val b) (((Multiset.range v.len).erase a).erase b |>.map v.val) ?_ ⟨?_, ?_⟩
  · rw [← Multiset.map_cons, ← Multiset.map_cons, Multiset.cons_erase, Multiset.cons_erase]
    · rfl
    · exact Multiset.mem_range.2 ha
    · rw [Multiset.mem_erase_of_ne (Ne.symm hab)]; exact Multiset.mem_range.2 hb
  · have : ¬ cmp (v.val a) (v.val b) = true := by rw [hc, he]; exact lt_irrefl _
    simpa using this
  · have : ¬ cmp (v.val b) (v.val a) = true := by rw [hc, he]; exact lt_irrefl _
    simpa using this

theorem NoTies.mono {cmp : α → α → Bool} {s t : Multiset α} (h : NoTies cmp t) (hst : s ≤ t) : NoTies cmp s := by
  intro x y r e
  obtain ⟨u, hu⟩ := Multiset.le_iff_exists_add.1 hst
  refine h x y (r + u) ?_
  rw [hu, e]
  simp only [Multiset.cons_add]

/-- The heap is free of ties before every `popTop` of the history. -/
def NoTiesAtPopTop (cmp : α → α → Bool) (v : Vec α) (h : List (Op α)) : Prop :=
  ∀ h1 h2, h = h1 ++ .popTop :: h2 → ∀ w, h1.foldlM (step cmp) v = .ok w → NoTies cmp (content w)

theorem run_ordered {β : Type} [LinearOrder β] (key : α → β) (cmp : α → α → Bool) (hc : ∀ x y, cmp x y = true ↔ key x < key y)
    (h : List (Op α)) (v : Vec α) (ho : Ordered v.len true (fun j => key (v.val j))) (hs : Safe v.len h)
    (ht : NoTiesAtPopTop cmp v h) :
    ∃ w, h.foldlM (step cmp) v = .ok w ∧ Ordered w.len true (fun j => key (w.val j)) := by
  induction h generalizing v with
  | nil => exact ⟨v, rfl, ho⟩
  | cons o t ih =>
    have next : ∀ v1, step cmp v o = .ok v1 → NoTiesAtPopTop cmp v1 t := by
      intro v1 h1 a b e w hw
      exact ht (o :: a) b (by rw [e]; rfl) w ((foldlM_cons (step cmp) _ v1 _ _ h1).trans hw)
    cases o with
    | push x =>
      obtain ⟨v1, h1, o1⟩ := push_ordered key cmp hc v x ho
      obtain ⟨v1', h1', l1, -⟩ := push_content cmp v x
      obtain rfl : v1' = v1 := Except.ok.inj (h1'.symm.trans h1)
      obtain ⟨w, e1, e2⟩ := ih v1' o1 (by rw [l1]; exact hs) (next v1' h1)
      exact ⟨w, (foldlM_cons (step cmp) v v1' (.push x) _ h1).trans e1, e2⟩
    | popTop =>
      have hl : v.len ≠ 0 := by have := hs.1; omega
      obtain ⟨v1, h1, o1⟩ := popTop_ordered key cmp hc v ho hl (noTies_key hc (ht [] t rfl v rfl))
      obtain ⟨x, v1', -, h1', l1, -⟩ := popTop_content cmp v hl
      obtain rfl : v1' = v1 := Except.ok.inj (h1'.symm.trans h1)
      obtain ⟨w, e1, e2⟩ := ih v1' o1 (by rw [l1]; exact hs.2) (next v1' h1)
      exact ⟨w, (foldlM_cons (step cmp) v v1' .popTop _ h1).trans e1, e2⟩
    | popBottom =>
      have hl : v.len ≠ 0 := by have := hs.1; omega
      obtain ⟨v1, h1, o1⟩ := popBottom_ordered key cmp hc v ho hl
      obtain ⟨x, v1', -, h1', l1, -⟩ := popBottom_content cmp v hl
      obtain rfl : v1' = v1 := Except.ok.inj (h1'.symm.trans h1)
      obtain ⟨w, e1, e2⟩ := ih v1' o1 (by rw [l1]; exact hs.2) (next v1' h1)
      exact ⟨w, (foldlM_cons (step cmp) v v1' .popBottom _ h1).trans e1, e2⟩

theorem ordered_empty {β : Type} [LinearOrder β] (key : α → β) (z : α) :
    Ordered (Vec.empty z).len true (fun j => key ((Vec.empty z).val j)) := by
  intro u w hw; exact absurd hw (Nat.not_lt_zero w)

/-- The extremes of an ordered heap. -/
theorem top_ordered {β : Type} [LinearOrder β] (key : α → β) (cmp : α → α → Bool) (hc : ∀ x y, cmp x y = true ↔ key x < key y)
    (v : Vec α) (ho : Ordered v.len true (fun j => key (v.val j))) (hl : v.len ≠ 0) :
    ∃ x, top v = .ok x ∧ IsFirst cmp (content v) x := by
  refine ⟨v.val 0, by unfold top; rw [if_neg hl]; exact Vec.get_nat v (i := 0) (by omega), mem_content.2 ⟨0, by omega, rfl⟩, ?_⟩
  intro y hy
  obtain ⟨j, hj, rfl⟩ := mem_content.1 hy
  have : ¬ cmp (v.val j) (v.val 0) = true := by rw [hc, not_lt]; exact ordered_min ho j hj
  simpa using this

theorem childMax_best {β : Type} [LinearOrder β] (key : α → β) (cmp : α → α → Bool) (hc : ∀ x y, cmp x y = true ↔ key x < key y)
    (v : Vec α) {i : ℕ} (hi : childMax cmp v 0 = .ok i) : ∀ c, c < v.len → 0 < c → c ≤ 2 → key (v.val c) ≤ key (v.val i) := by
  intro c h1 h2 h3
  exact childBest_best (fun x => OrderDual.toDual (key x)) (fun a b => cmp b a) (fun x y => (hc y x).trans Iff.rfl) v 0 hi c h1 h2
    (by rw [parent_eq]; omega)

theorem bottom_ordered {β : Type} [LinearOrder β] (key : α → β) (cmp : α → α → Bool) (hc : ∀ x y, cmp x y = true ↔ key x < key y)
    (v : Vec α) (ho : Ordered v.len true (fun j => key (v.val j))) (hl : v.len ≠ 0) :
    ∃ x, bottom cmp v = .ok x ∧ IsLast cmp (content v) x := by
  obtain ⟨i, b1, b2, b3, b4⟩ := bottom_eq cmp v hl
  refine ⟨v.val i, b1, mem_content.2 ⟨i, b2, rfl⟩, ?_⟩
  intro y hy
  obtain ⟨j, hj, rfl⟩ := mem_content.1 hy
  have : ¬ cmp (v.val i) (v.val j) = true := by
    rw [hc, not_lt]
    by_cases h1 : v.len = 1
    · rw [b3 h1, show j = 0 by omega]
    · have hb := childMax_best key cmp hc v (b4 h1)
      rcases Nat.eq_zero_or_pos j with rfl | hj0
      · exact le_trans (ordered_min ho 1 (by omega)) (hb 1 (by omega) (by omega) (by omega))
      · obtain ⟨c, c1, c2, c3, c4⟩ := ordered_max ho j hj hj0
        exact le_trans c4 (hb c c3 c1 c2)
  simpa using this

/-- The full statement of C20. -/
def C20_statement : Prop :=
  ∀ (α : Type) (cmp : α → α → Bool) (z : α), StrictWeak cmp → ∀ h : List (Op α), Safe 0 h →
    ∃ v, run cmp z h = .ok v ∧
      (v.len ≠ 0 → (∃ x, top v = .ok x ∧ IsFirst cmp (content v) x) ∧ ∃ y, bottom cmp v = .ok y ∧ IsLast cmp (content v) y)

/-- C20, restricted to the histories in which the heap holds no two equivalent elements when `popTop` is called
(`push` and `popBottom` handle ties). -/
theorem C20_extremes_partial (cmp : α → α → Bool) (z : α) (hw : StrictWeak cmp) (h : List (Op α)) (hs : Safe 0 h)
    (ht : NoTiesAtPopTop cmp (Vec.empty z) h) :
    ∃ v, run cmp z h = .ok v ∧
      (v.len ≠ 0 → (∃ x, top v = .ok x ∧ IsFirst cmp (content v) x) ∧ ∃ y, bottom cmp v = .ok y ∧ IsLast cmp (content v) y) := by
  obtain ⟨β, _, key, hc⟩ := key_exists hw
  obtain ⟨v, h1, h2⟩ := run_ordered key cmp hc h (Vec.empty z) (ordered_empty key z) hs ht
  exact ⟨v, h1, fun hl => ⟨top_ordered key cmp hc v h2 hl, bottom_ordered key cmp hc v h2 hl⟩⟩

theorem pushed_append (a b : List (Op α)) : pushed (a ++ b) = pushed a + pushed b := by
  induction a with
  | nil => simp [pushed]
  | cons o t ih => cases o <;> simp [pushed, ih, Multiset.cons_add]

theorem safe_append (n : ℕ) (a b : List (Op α)) (h : Safe n (a ++ b)) : Safe n a := by
  induction a generalizing n with
  | nil => trivial
  | cons o t ih =>
    cases o with
    | push x => exact ih _ h
    | popTop => exact ⟨h.1, ih _ h.2⟩
    | popBottom => exact ⟨h.1, ih _ h.2⟩

/-- C20, for histories that never push two equivalent elements. -/
theorem C20_distinct_partial (cmp : α → α → Bool) (z : α) (hw : StrictWeak cmp) (h : List (Op α)) (hs : Safe 0 h)
    (ht : NoTies cmp (pushed h)) :
    ∃ v, run cmp z h = .ok v ∧
      (v.len ≠ 0 → (∃ x, top v = .ok x ∧ IsFirst cmp (content v) x) ∧ ∃ y, bottom cmp v = .ok y ∧ IsLast cmp (content v) y) := by
  refine C20_extremes_partial cmp z hw h hs ?_
  intro h1 h2 e w hwv
  obtain ⟨v, r, -, e2, e3⟩ := (C19_contents cmp z h1).1 (safe_append 0 h1 _ (e ▸ hs))
  obtain rfl : v = w := Except.ok.inj (e2.symm.trans hwv)
  refine NoTies.mono ht ?_
  rw [e, pushed_append, ← e3, Multiset.add_assoc]
  exact Multiset.le_add_right _ _

/-- C20, for histories without `popTop`, ties allowed (a max-heap client). -/
theorem C20_noPopTop_partial (cmp : α → α → Bool) (z : α) (hw : StrictWeak cmp) (h : List (Op α)) (hs : Safe 0 h)
    (ht : Op.popTop ∉ h) :
    ∃ v, run cmp z h = .ok v ∧
      (v.len ≠ 0 → (∃ x, top v = .ok x ∧ IsFirst cmp (content v) x) ∧ ∃ y, bottom cmp v = .ok y ∧ IsLast cmp (content v) y) := by
  refine C20_extremes_partial cmp z hw h hs ?_
  intro h1 h2 e
  exact absurd (by rw [e]; simp) ht

theorem popTops_minOrd {β : Type} [LinearOrder β] (key : α → β) (cmp : α → α → Bool) (hc : ∀ x y, cmp x y = true ↔ key x < key y)
    (n : ℕ) (v : Vec α) (h : MinOrd v.len (fun j => key (v.val j))) (hn : n ≤ v.len) :
    ∃ v', (List.replicate n Op.popTop).foldlM (step cmp) v = .ok v' ∧ MinOrd v'.len (fun j => key (v'.val j)) := by
  induction n generalizing v with
  | zero => exact ⟨v, rfl, h⟩
  | succ n ih =>
    obtain ⟨v1, h1, h2, h3⟩ := popTop_minOrd key cmp hc v h (by omega)
    obtain ⟨v', e1, e2⟩ := ih v1 h3 (by omega)
    exact ⟨v', (foldlM_cons (step cmp) v v1 .popTop _ h1).trans e1, e2⟩

/-- C20, for the top and for a min-heap client that pushes (and pops from the bottom) first and pops from the top afterwards,
ties allowed. -/
theorem C20_popTopLast_partial (cmp : α → α → Bool) (z : α) (hw : StrictWeak cmp) (h : List (Op α)) (hs : Safe 0 h)
    (ht : Op.popTop ∉ h) (v : Vec α) (hv : run cmp z h = .ok v) (n : ℕ) (hn : n < v.len) :
    ∃ v' x, run cmp z (h ++ List.replicate n Op.popTop) = .ok v' ∧ top v' = .ok x ∧ IsFirst cmp (content v') x := by
  obtain ⟨β, _, key, hc⟩ := key_exists hw
  obtain ⟨v1, h1, h2⟩ := run_ordered key cmp hc h (Vec.empty z) (ordered_empty key z) hs
    (fun h1 h2 e => absurd (by rw [e]; simp) ht)
  obtain rfl : v1 = v := Except.ok.inj (h1.symm.trans hv)
  obtain ⟨v', e1, e2⟩ := popTops_minOrd key cmp hc n v1 h2.minOrd (by omega)
  have hl : ∀ (n : ℕ) (v v' : Vec α), n ≤ v.len → (List.replicate n Op.popTop).foldlM (step cmp) v = .ok v' → v'.len = v.len - n := by
    intro n
    induction n with
    | zero => intro v v' _ h; obtain rfl := Except.ok.inj h; rfl
    | succ n ih =>
      intro v v' hn h
      obtain ⟨x, w, -, a1, a2, -⟩ := popTop_content cmp v (by omega)
      rw [List.replicate_succ, foldlM_cons (step cmp) v w .popTop _ a1] at h
      have := ih w v' (by omega) h
      omega
  have hlen := hl n v1 v' (by omega) e1
  refine ⟨v', v'.val 0, ?_, ?_, mem_content.2 ⟨0, by omega, rfl⟩, ?_⟩
  · unfold run at hv ⊢
    rw [List.foldlM_append, hv]
    exact e1
  · unfold top; rw [if_neg (by omega)]; exact Vec.get_nat v' (i := 0) (by omega)
  · intro y hy
    obtain ⟨j, hj, rfl⟩ := mem_content.1 hy
    have := e2.le_zero j hj
    by_contra hcon
    have := (hc _ _).1 (by simpa using hcon)
    order

/-- Comparison of naturals. -/
def ltNat (a b : ℕ) : Bool := decide (a < b)

theorem ltNat_strictWeak : StrictWeak ltNat :=
  ⟨fun a => by simp [ltNat], fun a b c => by simp only [ltNat, decide_eq_true_eq]; omega,
    fun a b c => by simp only [ltNat, decide_eq_false_iff_not]; omega⟩

/-- A history with ties after which `bottom()` is not a maximum. -/
def badBottom : List (Op ℕ) := [.push 1, .push 1, .push 5, .push 1, .push 1, .push 3, .popTop, .popBottom]

/-- A history with ties after which `top()` is not a minimum. -/
def badTop : List (Op ℕ) :=
  [.push 0, .push 0, .push 2, .push 0, .push 0, .push 3, .popTop, .push 2, .push 2, .push 2, .push 1, .push 2, .popTop, .popTop]

/-- Observation of a history: the contents and the two extremes. -/
def observe (h : List (Op ℕ)) : Option (List ℕ × ℕ × ℕ) := do
  let v ← (run ltNat 0 h).toOption
  let x ← (top v).toOption
  let y ← (bottom ltNat v).toOption
  return (v.toList, x, y)

theorem badBottom_observe : observe badBottom = some ([1, 1, 1, 3], 1, 1) := by decide +kernel
theorem badTop_observe : observe badTop = some ([1, 2, 3, 0, 2, 2, 2, 2], 1, 3) := by decide +kernel

theorem observe_spec {h : List (Op ℕ)} {l : List ℕ} {x y : ℕ} (e : observe h = some (l, x, y)) :
    ∃ v, run ltNat 0 h = .ok v ∧ top v = .ok x ∧ bottom ltNat v = .ok y ∧ content v = (l : Multiset ℕ) ∧ v.len = l.length := by
  unfold observe at e
  cases hr : run ltNat 0 h with
  | error e' => rw [hr] at e; cases e
  | ok v =>
    rw [hr] at e
    cases ht : top v with
    | error e' => rw [show (Except.ok v : Outcome _).toOption = some v from rfl] at e; simp [ht, Except.toOption] at e
    | ok x' =>
      cases hb : bottom ltNat v with
      | error e' => rw [show (Except.ok v : Outcome _).toOption = some v from rfl] at e; simp [ht, hb, Except.toOption] at e
      | ok y' =>
        simp only [ht, hb, Except.toOption, bind, Option.bind, pure, Option.some.injEq, Prod.mk.injEq] at e
        obtain ⟨rfl, rfl, rfl⟩ := e
        exact ⟨v, rfl, ht, hb, rfl, by simp [Vec.toList]⟩

/-- The code violates C20: with equivalent elements `popTop` can leave a heap whose `bottom()` is not last, and, after more
operations, one whose `top()` is not first. -/
theorem C20_violated : ¬ C20_statement ∧
    (Safe 0 badBottom ∧ ∃ v y, run ltNat 0 badBottom = .ok v ∧ bottom ltNat v = .ok y ∧ ¬ IsLast ltNat (content v) y) ∧
    (Safe 0 badTop ∧ ∃ v x, run ltNat 0 badTop = .ok v ∧ top v = .ok x ∧ ¬ IsFirst ltNat (content v) x) := by
  obtain ⟨v, h1, h2, h3, h4, h5⟩ := observe_spec badBottom_observe
  obtain ⟨w, g1, g2, g3, g4, g5⟩ := observe_spec badTop_observe
  have s1 : Safe 0 badBottom := by simp [Safe, badBottom]
  have s2 : Safe 0 badTop := by simp [Safe, badTop]
  have n1 : ¬ IsLast ltNat (content v) 1 := by
    rintro ⟨_, h⟩
    have := h 3 (by rw [h4]; decide)
    revert this; decide
  have n2 : ¬ IsFirst ltNat (content w) 1 := by
    rintro ⟨_, h⟩
    have := h 0 (by rw [g4]; decide)
    revert this; decide
  refine ⟨fun hst => ?_, ⟨s1, v, 1, h1, h3, n1⟩, ⟨s2, w, 1, g1, g2, n2⟩⟩
  obtain ⟨v', e1, e2⟩ := hst ℕ ltNat 0 ltNat_strictWeak badBottom s1
  obtain rfl : v' = v := Except.ok.inj (e1.symm.trans h1)
  obtain ⟨-, y, e3, e4⟩ := e2 (by rw [h5]; decide)
  obtain rfl : y = 1 := Except.ok.inj (e3.symm.trans h3)
  exact n1 e4

/-- A history without ties. -/
def goodHist : List (Op ℕ) :=
  [.push 5, .push 2, .push 7, .push 3, .push 11, .push 1, .push 8, .popTop, .push 4, .popBottom, .popTop]

example : observe goodHist = some ([3, 7, 8, 5, 4], 3, 8) := by decide +kernel
example : Safe 0 goodHist := by simp [Safe, goodHist]

/-- Pops from the top after pushes with ties. -/
example : observe ([.push 1, .push 1, .push 5, .push 1, .push 1, .push 3, .push 3] ++ List.replicate 4 .popTop) = some ([3, 3, 5], 3, 5) := by
  decide +kernel

/-! ### C21: nextTop and nextBottom -/

/-- Removing the element at a position. -/
theorem content_erase (v : Vec α) {i : ℕ} (hi : i < v.len) :
    content v = v.val i ::ₘ ((Multiset.range v.len).erase i).map v.val := by
  rw [← Multiset.map_cons, Multiset.cons_erase (Multiset.mem_range.2 hi)]; rfl

theorem mem_rest {v : Vec α} {i : ℕ} {y : α} (hy : y ∈ ((Multiset.range v.len).erase i).map v.val) :
    ∃ j < v.len, j ≠ i ∧ v.val j = y := by
  obtain ⟨j, hj, rfl⟩ := Multiset.mem_map.1 hy
  rw [(Multiset.nodup_range _).mem_erase_iff, Multiset.mem_range] at hj
  exact ⟨j, hj.2, hj.1, rfl⟩

theorem rest_mem (v : Vec α) {i j : ℕ} (hj : j < v.len) (h : j ≠ i) : v.val j ∈ ((Multiset.range v.len).erase i).map v.val := by
  refine Multiset.mem_map.2 ⟨j, ?_, rfl⟩
  rw [(Multiset.nodup_range _).mem_erase_iff, Multiset.mem_range]
  exact ⟨h, hj⟩

/-- `nextTop()` is, up to equivalence, first among the elements that remain without the one reported by `top()`. -/
def NextTopRight (cmp : α → α → Bool) (v : Vec α) : Prop :=
  ∃ a t x x', top v = .ok a ∧ content v = a ::ₘ t ∧ nextTop cmp v = .ok x ∧ Equivalent cmp x x' ∧ IsFirst cmp t x'

/-- `nextBottom()` is, up to equivalence, last among the elements that remain without the one reported by `bottom()`. -/
def NextBottomRight (cmp : α → α → Bool) (v : Vec α) : Prop :=
  ∃ a t x x', bottom cmp v = .ok a ∧ content v = a ::ₘ t ∧ nextBottom cmp v = .ok x ∧ Equivalent cmp x x' ∧ IsLast cmp t x'

theorem ordered_four {β : Type} [LinearOrder β] {n : ℕ} {k : ℕ → β} (h : Ordered n true k) (v : ℕ) (hv : v < n) (h3 : 3 ≤ v) :
    ∃ c, 3 ≤ c ∧ c ≤ 6 ∧ c < n ∧ k c ≤ k v := by
  induction v using Nat.strong_induction_on with
  | _ v ih =>
    by_cases h7 : v ≤ 6
    · exact ⟨v, h3, h7, hv, le_refl _⟩
    · have hg : grandparent v < v := by rw [grandparent_eq]; omega
      have hp : parent v < v := by rw [parent_eq]; omega
      cases hpar : par v with
      | true =>
        have hgp := par_grandparent (i := v) (by omega)
        rw [hpar] at hgp
        have hg3 : 3 ≤ grandparent v := by
          have h1 : grandparent v ≠ 1 := fun e => by rw [e, par_one] at hgp; cases hgp
          have h2 : grandparent v ≠ 2 := fun e => by rw [e, par_two] at hgp; cases hgp
          have h0 : 1 ≤ grandparent v := by rw [grandparent_eq]; omega
          omega
        obtain ⟨c, c1, c2, c3, c4⟩ := ih _ hg (by omega) hg3
        exact ⟨c, c1, c2, c3, le_trans c4 ((h _ v hv (Or.inr ⟨by omega, rfl⟩)).of_eq hgp)⟩
      | false =>
        obtain ⟨c, c1, c2, c3, c4⟩ := ih _ hp (by omega) (by rw [parent_eq]; omega)
        refine ⟨c, c1, c2, c3, le_trans c4 ((h _ v hv (Or.inl ⟨by omega, rfl⟩)).of_eq ?_)⟩
        have := par_parent (i := v) (by omega); rw [hpar] at this; simpa using this

theorem nextTop_ordered {β : Type} [LinearOrder β] (key : α → β) (cmp : α → α → Bool) (hc : ∀ x y, cmp x y = true ↔ key x < key y)
    (v : Vec α) (ho : Ordered v.len true (fun j => key (v.val j))) (hl : v.len = 2 ∨ v.len = 3 ∨ 6 ≤ v.len) :
    NextTopRight cmp v := by
  have hcf : ∀ x y, key y ≤ key x → cmp x y = false := by
    intro x y h
    have : ¬ cmp x y = true := by rw [hc, not_lt]; exact h
    simpa using this
  have fin : ∀ i, i < v.len → i ≠ 0 → nextTop cmp v = .ok (v.val i) →
      (∀ j, j < v.len → j ≠ 0 → key (v.val i) ≤ key (v.val j)) → NextTopRight cmp v := by
    intro i hi h0 he hle
    refine ⟨v.val 0, _, v.val i, v.val i, ?_, content_erase v (i := 0) (by omega), he, ?_, rest_mem v hi h0, ?_⟩
    · unfold top; rw [if_neg (by omega)]; exact Vec.get_nat v (i := 0) (by omega)
    · exact ⟨hcf _ _ (le_refl _), hcf _ _ (le_refl _)⟩
    · intro y hy
      obtain ⟨j, hj, hj0, rfl⟩ := mem_rest hy
      exact hcf _ _ (hle j hj hj0)
  by_cases h4 : v.len < 4
  · obtain ⟨im, i1, i2, i3, -⟩ := childBest_ok (fun a b => cmp a b) v 0
    have hb := childBest_best key (fun a b => cmp a b) hc v 0 i1
    refine fin im (i3 (by omega)) (by omega) ?_ ?_
    · unfold nextTop
      rw [if_neg (by omega), if_neg (by omega), if_pos h4, childMin, i1]
      exact Vec.get_nat v (i3 (by omega))
    · intro j hj hj0
      exact hb j hj (by omega) (by rw [parent_eq]; omega)
  · obtain ⟨ig, j1, j2, j3, -⟩ := grandchildBest_ok (fun a b => cmp a b) v 0
    have hb := grandchildBest_best key (fun a b => cmp a b) hc v 0 j1
    have hb' : ∀ c, 3 ≤ c → c ≤ 6 → c < v.len → key (v.val ig) ≤ key (v.val c) := fun c c1 c2 c3 =>
      hb c c3 (by omega) (by rw [grandparent_eq]; omega)
    refine fin ig (j3 (by omega)) (by omega) ?_ ?_
    · unfold nextTop
      rw [if_neg (by omega), if_neg (by omega), if_neg h4, grandchildMin, j1]
      exact Vec.get_nat v (j3 (by omega))
    · intro j hj hj0
      by_cases e1 : j = 1
      · subst e1
        exact le_trans (hb' 3 (by omega) (by omega) (by omega))
          ((ho 1 3 (by omega) (Or.inl ⟨by omega, rfl⟩)).of_ne (by rw [par_one]; simp))
      · by_cases e2 : j = 2
        · subst e2
          exact le_trans (hb' 5 (by omega) (by omega) (by omega))
            ((ho 2 5 (by omega) (Or.inl ⟨by omega, rfl⟩)).of_ne (by rw [par_two]; simp))
        · obtain ⟨c, c1, c2, c3, c4⟩ := ordered_four ho j hj (by omega)
          exact le_trans (hb' c c1 c2 c3) c4

theorem nextBottom_ordered {β : Type} [LinearOrder β] (key : α → β) (cmp : α → α → Bool) (hc : ∀ x y, cmp x y = true ↔ key x < key y)
    (v : Vec α) (ho : Ordered v.len true (fun j => key (v.val j))) (hl : v.len = 2 ∨ v.len = 3) : NextBottomRight cmp v := by
  have hcf : ∀ x y, key y ≤ key x → cmp x y = false := by
    intro x y h
    have : ¬ cmp x y = true := by rw [hc, not_lt]; exact h
    simpa using this
  obtain ⟨i, b1, b2, -, b4⟩ := bottom_eq cmp v (by omega)
  have hi := b4 (by omega)
  obtain ⟨im, m1, m2, m3, m4⟩ := childBest_ok (fun a b => cmp b a) v 0
  obtain rfl : im = i := Except.ok.inj (m1.symm.trans hi)
  have hmax := childMax_best key cmp hc v hi
  rcases hl with h2 | h3
  · refine ⟨_, _, v.val 0, v.val 0, b1, content_erase v b2, ?_, ⟨hcf _ _ (le_refl _), hcf _ _ (le_refl _)⟩,
      rest_mem v (by omega) (by omega), ?_⟩
    · unfold nextBottom; rw [if_neg (by omega), if_pos (by omega)]; exact Vec.get_nat v (i := 0) (by omega)
    · intro y hy
      obtain ⟨j, hj, hj0, rfl⟩ := mem_rest hy
      rw [show j = 0 by omega]
      exact hcf _ _ (le_refl _)
  · obtain ⟨ic, c1, c2, c3, -⟩ := childBest_ok (fun a b => cmp a b) v 0
    have hmin := childBest_best key (fun a b => cmp a b) hc v 0 c1
    have hmin' : ∀ j, 0 < j → j ≤ 2 → key (v.val ic) ≤ key (v.val j) := fun j a b => hmin j (by omega) a (by rw [parent_eq]; omega)
    -- the child that `bottom` does not report
    obtain ⟨o, o1, o2, o3⟩ : ∃ o, 0 < o ∧ o ≤ 2 ∧ o ≠ im := by
      rcases m2 with rfl | rfl
      · exact ⟨2, by omega, by omega, by omega⟩
      · exact ⟨1, by omega, by omega, by omega⟩
    have heq : key (v.val ic) = key (v.val o) := by
      refine le_antisymm (hmin' o o1 o2) ?_
      by_cases e : ic = o
      · rw [e]
      · have : ic = im := by omega
        rw [this]; exact hmax o (by omega) o1 o2
    refine ⟨_, _, v.val ic, v.val o, b1, content_erase v b2, ?_, ⟨hcf _ _ heq.ge, hcf _ _ heq.le⟩, rest_mem v (by omega) o3, ?_⟩
    · unfold nextBottom; rw [if_neg (by omega), if_neg (by omega), childMin, c1]; exact Vec.get_nat v (c3 (by omega))
    · intro y hy
      obtain ⟨j, hj, hj0, rfl⟩ := mem_rest hy
      refine hcf _ _ ?_
      rcases Nat.eq_zero_or_pos j with rfl | hjp
      · exact ordered_min ho o (by omega)
      · rw [show j = o by omega]

/-- The full statement of C21, for histories without ties (so that the defect of C20 plays no role). -/
def C21_statement : Prop :=
  ∀ (α : Type) (cmp : α → α → Bool) (z : α), StrictWeak cmp → ∀ h : List (Op α), Safe 0 h → NoTies cmp (pushed h) →
    ∃ v, run cmp z h = .ok v ∧ (2 ≤ v.len → NextTopRight cmp v ∧ NextBottomRight cmp v)

/-- C21 restricted to the sizes for which the code is right: 2, 3 and 6 or more for `nextTop`, 2 and 3 for `nextBottom`. -/
theorem C21_next_partial (cmp : α → α → Bool) (z : α) (hw : StrictWeak cmp) (h : List (Op α)) (hs : Safe 0 h)
    (ht : NoTiesAtPopTop cmp (Vec.empty z) h) :
    ∃ v, run cmp z h = .ok v ∧ (v.len = 2 ∨ v.len = 3 ∨ 6 ≤ v.len → NextTopRight cmp v) ∧
      (v.len = 2 ∨ v.len = 3 → NextBottomRight cmp v) := by
  obtain ⟨β, _, key, hc⟩ := key_exists hw
  obtain ⟨v, h1, h2⟩ := run_ordered key cmp hc h (Vec.empty z) (ordered_empty key z) hs ht
  exact ⟨v, h1, nextTop_ordered key cmp hc v h2, nextBottom_ordered key cmp hc v h2⟩

/-- Pushing 0, 9, 5, 8: the second element is 5 but `nextTop()` is 8; the last but one is 8 but `nextBottom()` is 5. -/
def badNext : List (Op ℕ) := [.push 0, .push 9, .push 5, .push 8]

theorem badNext_eq : (do
    let v ← (run ltNat 0 badNext).toOption
    let x ← (nextTop ltNat v).toOption
    let y ← (nextBottom ltNat v).toOption
    return (v.toList, x, y)) = some ([0, 9, 5, 8], 8, 5) := by decide +kernel

/-- The code violates C21 (both parts). -/
theorem C21_violated : ¬ C21_statement ∧
    ∃ v, run ltNat 0 badNext = .ok v ∧ ¬ NextTopRight ltNat v ∧ ¬ NextBottomRight ltNat v := by
  have key : ∃ v, run ltNat 0 badNext = .ok v ∧ v.len = 4 ∧ ¬ NextTopRight ltNat v ∧ ¬ NextBottomRight ltNat v := by
    have e := badNext_eq
    have eo : observe badNext = some ([0, 9, 5, 8], 0, 9) := by decide +kernel
    obtain ⟨v, h1, h2, h3, h4, h5⟩ := observe_spec eo
    rw [h1] at e
    refine ⟨v, h1, h5, ?_, ?_⟩
    · rintro ⟨a, t, x, x', e1, e2, e3, e4, e5⟩
      obtain rfl : a = 0 := Except.ok.inj (e1.symm.trans h2)
      have hx : x = 8 := by
        cases hb : nextBottom ltNat v with
        | error e' => simp [hb, e3, Except.toOption] at e
        | ok y => simp [hb, e3, Except.toOption] at e; exact e.2.1
      subst hx
      have ht : t = (([9, 5, 8] : List ℕ) : Multiset ℕ) := by
        rw [h4] at e2
        rw [show ((([0, 9, 5, 8] : List ℕ)) : Multiset ℕ) = 0 ::ₘ (([9, 5, 8] : List ℕ) : Multiset ℕ) from rfl] at e2
        exact ((Multiset.cons_inj_right 0).1 e2).symm
      have hx8 : x' = 8 := by obtain ⟨p, q⟩ := e4; simp only [ltNat, decide_eq_false_iff_not] at p q; omega
      subst hx8
      have := e5.2 5 (by rw [ht]; decide)
      revert this; decide
    · rintro ⟨a, t, x, x', e1, e2, e3, e4, e5⟩
      obtain rfl : a = 9 := Except.ok.inj (e1.symm.trans h3)
      have hx : x = 5 := by
        cases hb : nextTop ltNat v with
        | error e' => simp [hb, Except.toOption] at e
        | ok y => simp [hb, e3, Except.toOption] at e; exact e.2.2
      subst hx
      have hx8 : x' = 5 := by obtain ⟨p, q⟩ := e4; simp only [ltNat, decide_eq_false_iff_not] at p q; omega
      subst hx8
      have hm : (8 : ℕ) ∈ t := by
        have : (8 : ℕ) ∈ content v := by rw [h4]; decide
        rw [e2] at this
        simpa using this
      have := e5.2 8 hm
      revert this; decide
  obtain ⟨v, h1, h2, h3, h4⟩ := key
  refine ⟨fun hst => ?_, v, h1, h3, h4⟩
  obtain ⟨v', e1, e2⟩ := hst ℕ ltNat 0 ltNat_strictWeak badNext (by simp [Safe, badNext]) (by
    intro x y t e hq
    obtain ⟨p, q⟩ := hq
    simp only [ltNat, decide_eq_false_iff_not] at p q
    obtain rfl : x = y := by omega
    have hd : (pushed badNext).Nodup := by decide
    rw [e] at hd
    simp at hd)
  obtain rfl : v' = v := Except.ok.inj (e1.symm.trans h1)
  exact h3 (e2 (by omega)).1

example : (do
    let v ← (run ltNat 0 [.push 5, .push 2, .push 7, .push 3, .push 11, .push 1, .push 8, .popTop]).toOption
    let x ← (nextTop ltNat v).toOption
    return (v.len, x)) = some (6, 3) := by decide +kernel

end Verif.Heap
